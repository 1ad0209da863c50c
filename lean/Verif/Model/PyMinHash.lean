import Verif.Model.PyCommon
import Verif.Model.MinHashIndex
import Verif.Model.Params

/-!
# The Python MinHash index (`py-gaoya/src/min_hash.rs`, `py-gaoya/gaoya/minhash.py`)

The macro `py_minhash_index!` makes twelve classes; here `T` is the hash type and `C` the id container. The item
hash (FNV) is an arbitrary function, the random generator arbitrary, the band hashers' state arbitrary.
-/
namespace Verif

/-- `$minhash<FnvBuildHasher>` for the hash type `T` (min_hash.rs 236-251). -/
class PyHasher (T : Type) where
  Hasher : Type
  new : Rng → Nat → (PyTok → UInt64) → Hasher
  create : Hasher → List PyTok → Except Panic (List T)

/-- `MinHasher64V1`, min_hash.rs 236-238. -/
instance : PyHasher UInt64 where
  Hasher := MinHasher64 PyTok
  new := fun g n hash => MinHasher64.newWithHasher g n hash
  create := MinHasher64.createSignature

/-- `MinHasher32`, min_hash.rs 240-242. -/
instance : PyHasher UInt32 where
  Hasher := MinHasherN PyTok
  new := fun g n hash => MinHasherN.newWithHasher g n hash
  create := MinHasherN.sig32

/-- `MinHasher16`, min_hash.rs 245-247. -/
instance : PyHasher UInt16 where
  Hasher := MinHasherN PyTok
  new := fun g n hash => MinHasherN.newWithHasher g n hash
  create := MinHasherN.sig16

/-- `MinHasher8`, min_hash.rs 249-251. -/
instance : PyHasher UInt8 where
  Hasher := MinHasherN PyTok
  new := fun g n hash => MinHasherN.newWithHasher g n hash
  create := MinHasherN.sig8

/-- The native class, min_hash.rs 23-28. -/
structure PyMinHash (T C : Type) [PyHasher T] where
  inner : MinHashIndex T Int64 C
  minHash : PyHasher.Hasher T
  tokenizer : TokenizerSpec
  lowercase : Bool

/-- External code used by the MinHash classes. Used in py-gaoya/src/min_hash.rs 41-70. -/
structure PyMinEnv extends PyEnv where
  rng : Rng
  hash : PyTok → UInt64
  powf : Fl → Fl → Fl

namespace PyMinHash
variable {T C : Type} [DecidableEq T] [PyHasher T] [IdContainer C Int64]

omit [DecidableEq T] [IdContainer C Int64] in
/-- The struct expression of py-gaoya/src/min_hash.rs lines 51-56 and 61-66. `num_bands * band_width` is not reduced modulo 2^64. -/
def build (env : PyMinEnv) (ahash : List T → UInt64) (jaccardThreshold : Fl) (numBands bandWidth : Nat)
    (analyzer : Option String) (lowercase : Option Bool) (ngramRange : Option (Nat × Nat)) : PyMinHash T C :=
  { inner := MinHashIndex.newIndex numBands bandWidth jaccardThreshold ahash
    minHash := PyHasher.new env.rng (numBands * bandWidth) env.hash
    tokenizer := TokenizerSpec.new (analyzer.getD "word") ngramRange
    lowercase := lowercase.getD false }

omit [DecidableEq T] [IdContainer C Int64] in
/-- `new`, py-gaoya/src/min_hash.rs lines 41-70, with the argument conversions of pyo3. -/
def new (env : PyMinEnv) (ahash : List T → UInt64) (jaccardThreshold : Fl) (numBands bandWidth numHashes : Option Int)
    (analyzer : Option String) (lowercase : Option Bool) (ngramRange : Option (Int × Int)) :
    Except PyExc (PyMinHash T C) := do
  let numBands ← pyOptUsize numBands
  let bandWidth ← pyOptUsize bandWidth
  let numHashes ← pyOptUsize numHashes
  let ngramRange ← pyOptRange ngramRange
  match numBands, bandWidth, numHashes with
  | some b, some r, _ => pure (build env ahash jaccardThreshold b r analyzer lowercase ngramRange)
  | _, _, some n =>
    match calculateMinhashParams env.powf jaccardThreshold n (n + 1) with
    | some (b, r) => pure (build env ahash jaccardThreshold b r analyzer lowercase ngramRange)
    | none => .error (.panic .outOfFuel)
  | _, _, none => .error .valueError

omit [DecidableEq T] [IdContainer C Int64] in
/-- `tokenize_and_minhash`, py-gaoya/src/min_hash.rs lines 72-94. -/
def tokenizeAndMinhash (env : PyMinEnv) (st : PyMinHash T C) (doc : PyText) : Except Panic (List T) := do
  let toks ← tokenize env.toPyEnv st.tokenizer doc
  PyHasher.create st.minHash toks

/-- `insert_document`, py-gaoya/src/min_hash.rs lines 96-105. -/
def insertDocument (env : PyMinEnv) (st : PyMinHash T C) (id : Int64) (doc : PyText) :
    PyMinHash T C × Except Panic Unit :=
  if st.lowercase then
    match st.tokenizeAndMinhash env (env.lower doc) with
    | .ok s => ({ st with inner := (st.inner.insert id s).1 }, (st.inner.insert id s).2)
    | .error e => (st, .error e)
  else
    match st.tokenizeAndMinhash env doc with
    | .ok s => ({ st with inner := (st.inner.insert id s).1 }, (st.inner.insert id s).2)
    | .error e => (st, .error e)

/-- `insert_tokens`, py-gaoya/src/min_hash.rs lines 107-110. -/
def insertTokens (st : PyMinHash T C) (id : Int64) (tokens : List PyText) : PyMinHash T C × Except Panic Unit :=
  match PyHasher.create st.minHash (pyTokens tokens) with
  | .ok s => ({ st with inner := (st.inner.insert id s).1 }, (st.inner.insert id s).2)
  | .error e => (st, .error e)

/-- `remove`, py-gaoya/src/min_hash.rs lines 112-114. -/
def remove (st : PyMinHash T C) (id : Int64) : PyMinHash T C × Except Panic Unit :=
  ({ st with inner := (st.inner.remove id).1 }, (st.inner.remove id).2.map fun _ => ())

omit [DecidableEq T] [IdContainer C Int64] in
/-- The closure of `bulk_hash_docs`, py-gaoya/src/min_hash.rs lines 118-125. -/
def hashDoc (env : PyMinEnv) (st : PyMinHash T C) (doc : PyText) : Except Panic (List T) :=
  if st.lowercase then st.tokenizeAndMinhash env (env.lower doc) else st.tokenizeAndMinhash env doc

omit [DecidableEq T] [IdContainer C Int64] in
/-- `bulk_hash_docs`, py-gaoya/src/min_hash.rs lines 116-127. -/
def bulkHashDocs (env : PyMinEnv) (st : PyMinHash T C) (docs : List PyText) (sched : List Nat) :
    Except Panic (List (List T)) :=
  (parMap (st.hashDoc env) docs sched).mapM fun r => r

/-- The loop of py-gaoya/src/min_hash.rs lines 131-133; it stops at the first panic. -/
def insertLoop (env : PyMinEnv) (st : PyMinHash T C) : List (Int64 × PyText) → PyMinHash T C × Except Panic Unit
  | [] => (st, .ok ())
  | p :: ps =>
    match st.insertDocument env p.1 p.2 with
    | (st', .ok ()) => insertLoop env st' ps
    | (st', .error e) => (st', .error e)

/-- `par_bulk_insert_docs`, py-gaoya/src/min_hash.rs lines 129-138. -/
def parBulkInsertDocs (env : PyMinEnv) (st : PyMinHash T C) (ids : List Int64) (docs : List PyText)
    (s1 s2 : List Nat) : PyMinHash T C × Except Panic Unit :=
  if ids.length < 100 then st.insertLoop env (ids.zip docs)
  else match st.bulkHashDocs env docs s1 with
    | .ok signatures =>
      ({ st with inner := (st.inner.parBulkInsert ids signatures s2).1 }, (st.inner.parBulkInsert ids signatures s2).2)
    | .error e => (st, .error e)

/-- `bulk_insert_tokens`, py-gaoya/src/min_hash.rs lines 140-147. -/
def bulkInsertTokens (st : PyMinHash T C) : List (Int64 × List PyText) → PyMinHash T C × Except Panic Unit
  | [] => (st, .ok ())
  | p :: ps =>
    match PyHasher.create st.minHash (pyTokens p.2) with
    | .error e => (st, .error e)
    | .ok s =>
      match st.inner.insert p.1 s with
      | (inner, .ok ()) => bulkInsertTokens { st with inner := inner } ps
      | (inner, .error e) => ({ st with inner := inner }, .error e)

/-- `par_bulk_insert_tokens`, py-gaoya/src/min_hash.rs lines 149-152. -/
def parBulkInsertTokens (st : PyMinHash T C) (ids : List Int64) (tokens : List (List PyText)) (s1 s2 : List Nat) :
    PyMinHash T C × Except Panic Unit :=
  match bulkCreateSignature (PyHasher.create st.minHash) (tokens.map pyTokens) s1 with
  | .ok hashes => ({ st with inner := (st.inner.parBulkInsert ids hashes s2).1 }, (st.inner.parBulkInsert ids hashes s2).2)
  | .error e => (st, .error e)

/-- `query_tokens`, py-gaoya/src/min_hash.rs lines 154-157. `o` is the iteration order of the result set. -/
def queryTokens (o : Order) (st : PyMinHash T C) (tokens : List PyText) : Except Panic (List Int64) := do
  let signature ← PyHasher.create st.minHash (pyTokens tokens)
  let set ← st.inner.queryOwned signature
  pure (o.perm set.elems)

/-- `query_tokens_return_similarity`, py-gaoya/src/min_hash.rs lines 159-162. -/
def queryTokensReturnSimilarity (o1 o2 : Order) (st : PyMinHash T C) (tokens : List PyText) :
    Except Panic (List (Int64 × Fl)) := do
  let signature ← PyHasher.create st.minHash (pyTokens tokens)
  st.inner.queryOwnedReturnSimilarity o1 o2 signature

/-- `query`, py-gaoya/src/min_hash.rs lines 164-175. -/
def query (env : PyMinEnv) (o : Order) (st : PyMinHash T C) (doc : PyText) : Except Panic (List Int64) := do
  let signature ← if st.lowercase then st.tokenizeAndMinhash env (env.lower doc) else st.tokenizeAndMinhash env doc
  let set ← st.inner.queryOwned signature
  pure (o.perm set.elems)

/-- `query_return_similarity`, py-gaoya/src/min_hash.rs lines 177-185. -/
def queryReturnSimilarity (env : PyMinEnv) (o1 o2 : Order) (st : PyMinHash T C) (doc : PyText) :
    Except Panic (List (Int64 × Fl)) := do
  let signature ← if st.lowercase then st.tokenizeAndMinhash env (env.lower doc) else st.tokenizeAndMinhash env doc
  st.inner.queryOwnedReturnSimilarity o1 o2 signature

/-- `par_bulk_query`, py-gaoya/src/min_hash.rs lines 187-193. -/
def parBulkQuery (env : PyMinEnv) (o : Order) (st : PyMinHash T C) (docs : List PyText) (s1 s2 : List Nat) :
    Except Panic (List (List Int64)) := do
  let signatures ← st.bulkHashDocs env docs s1
  let sets ← st.inner.parBulkQuery signatures s2
  pure (sets.map fun set => o.perm set.elems)

/-- `par_bulk_query_return_similarity`, py-gaoya/src/min_hash.rs lines 195-198. -/
def parBulkQueryReturnSimilarity (env : PyMinEnv) (o1 o2 : Order) (st : PyMinHash T C) (docs : List PyText)
    (s1 s2 : List Nat) : Except Panic (List (List (Int64 × Fl))) := do
  let signatures ← st.bulkHashDocs env docs s1
  st.inner.parBulkQueryReturnSimilarity o1 o2 signatures s2

/-- `par_bulk_query_tokens`, py-gaoya/src/min_hash.rs lines 201-207. -/
def parBulkQueryTokens (o : Order) (st : PyMinHash T C) (tokens : List (List PyText)) (s1 s2 : List Nat) :
    Except Panic (List (List Int64)) := do
  let signatures ← bulkCreateSignature (PyHasher.create st.minHash) (tokens.map pyTokens) s1
  let sets ← st.inner.parBulkQuery signatures s2
  pure (sets.map fun set => o.perm set.elems)

/-- `par_bulk_query_tokens_return_similarity`, py-gaoya/src/min_hash.rs lines 209-212. -/
def parBulkQueryTokensReturnSimilarity (o1 o2 : Order) (st : PyMinHash T C) (tokens : List (List PyText))
    (s1 s2 : List Nat) : Except Panic (List (List (Int64 × Fl))) := do
  let signatures ← bulkCreateSignature (PyHasher.create st.minHash) (tokens.map pyTokens) s1
  st.inner.parBulkQueryReturnSimilarity o1 o2 signatures s2

omit [DecidableEq T] [IdContainer C Int64] in
/-- `size`, py-gaoya/src/min_hash.rs lines 215-217. -/
def size (st : PyMinHash T C) : Nat := st.inner.size

end PyMinHash

/-! ### minhash.py -/

/-- `MinHashStringIndex` (minhash.py 5-128): the analyzer and the native index. -/
structure PyMinIndex (T C : Type) [PyHasher T] where
  analyzer : Analyzer
  native : PyMinHash T C

/-- A list of ids or of (id, similarity) pairs. py-gaoya/gaoya/minhash.py 147-203. -/
inductive PyMinAnswer where
  | ids (l : List Int64)
  | pairs (l : List (Int64 × Fl))

namespace PyMinIndex
variable {T C : Type} [DecidableEq T] [PyHasher T] [IdContainer C Int64]

/-- `insert_document`, minhash.py 130-145. -/
def insertDocument (env : PyMinEnv) (st : PyMinIndex T C) (id : Int64) (doc : PyText) :
    PyMinIndex T C × Except PyExc Unit :=
  match st.analyzer with
  | .callable f =>
    match f doc with
    | .error e => (st, .error e)
    | .ok toks => ({ st with native := (st.native.insertTokens id toks).1 }, fromRust (st.native.insertTokens id toks).2)
  | .named _ =>
    ({ st with native := (st.native.insertDocument env id doc).1 }, fromRust (st.native.insertDocument env id doc).2)

/-- `query`, minhash.py 147-174. -/
def query (env : PyMinEnv) (o1 o2 : Order) (st : PyMinIndex T C) (doc : PyText) (returnSimilarity : Bool) :
    Except PyExc PyMinAnswer :=
  match st.analyzer with
  | .callable f => do
    let toks ← f doc
    if returnSimilarity then (fromRust (st.native.queryTokensReturnSimilarity o1 o2 toks)).map .pairs
    else (fromRust (st.native.queryTokens o1 toks)).map .ids
  | .named _ =>
    if returnSimilarity then (fromRust (st.native.queryReturnSimilarity env o1 o2 doc)).map .pairs
    else (fromRust (st.native.query env o1 doc)).map .ids

/-- `par_bulk_query`, minhash.py 176-203. -/
def parBulkQuery (env : PyMinEnv) (o1 o2 : Order) (st : PyMinIndex T C) (docs : List PyText) (returnSimilarity : Bool)
    (s1 s2 : List Nat) : Except PyExc (List PyMinAnswer) :=
  match st.analyzer with
  | .callable f => do
    let analyzed ← docs.mapM f
    if returnSimilarity then
      (fromRust (st.native.parBulkQueryTokensReturnSimilarity o1 o2 analyzed s1 s2)).map (List.map .pairs)
    else (fromRust (st.native.parBulkQueryTokens o1 analyzed s1 s2)).map (List.map .ids)
  | .named _ =>
    if returnSimilarity then
      (fromRust (st.native.parBulkQueryReturnSimilarity env o1 o2 docs s1 s2)).map (List.map .pairs)
    else (fromRust (st.native.parBulkQuery env o1 docs s1 s2)).map (List.map .ids)

/-- `par_bulk_insert_docs`, minhash.py 207-224. -/
def parBulkInsertDocs (env : PyMinEnv) (st : PyMinIndex T C) (ids : List Int64) (docs : List PyText)
    (s1 s2 : List Nat) : PyMinIndex T C × Except PyExc Unit :=
  match st.analyzer with
  | .callable f =>
    match docs.mapM f with
    | .error e => (st, .error e)
    | .ok tokens =>
      ({ st with native := (st.native.bulkInsertTokens (ids.zip tokens)).1 },
        fromRust (st.native.bulkInsertTokens (ids.zip tokens)).2)
  | .named _ =>
    ({ st with native := (st.native.parBulkInsertDocs env ids docs s1 s2).1 },
      fromRust (st.native.parBulkInsertDocs env ids docs s1 s2).2)

/-- `remove`, minhash.py 226-235. -/
def remove (st : PyMinIndex T C) (id : Int64) : PyMinIndex T C × Except PyExc Unit :=
  ({ st with native := (st.native.remove id).1 }, fromRust (st.native.remove id).2)

omit [DecidableEq T] [IdContainer C Int64] in
/-- `size`, minhash.py 237-241. -/
def size (st : PyMinIndex T C) : Nat := st.native.size

end PyMinIndex

/-- The mutating calls of `MinHashStringIndex`. py-gaoya/gaoya/minhash.py 130-145, 207-235. -/
inductive PyMinOp where
  | insertDocument (id : Int64) (doc : PyText)
  | parBulkInsertDocs (ids : List Int64) (docs : List PyText) (s1 s2 : List Nat)
  | remove (id : Int64)

namespace PyMinIndex
variable {T C : Type} [DecidableEq T] [PyHasher T] [IdContainer C Int64]

/-- One call. py-gaoya/gaoya/minhash.py 130-145, 207-235. -/
def step (env : PyMinEnv) (st : PyMinIndex T C) : PyMinOp → PyMinIndex T C × Except PyExc Unit
  | .insertDocument id doc => st.insertDocument env id doc
  | .parBulkInsertDocs ids docs s1 s2 => st.parBulkInsertDocs env ids docs s1 s2
  | .remove id => st.remove id

/-- A history; calls after an exception go on with the state it left behind.
py-gaoya/gaoya/minhash.py 130-145, 207-235. -/
def run (env : PyMinEnv) (st : PyMinIndex T C) (ops : List PyMinOp) : PyMinIndex T C :=
  ops.foldl (fun st op => (st.step env op).1) st

end PyMinIndex

/-! ### The constructor -/

/-- The keys of the dictionary `constructors` (minhash.py 104-125). -/
inductive HashSize where
  | h8 | h16 | h32 | h64
deriving DecidableEq, Repr

/-- `hash_size not in [8, 16, 32, 64]`, minhash.py 94, and the lookup of line 127. -/
def HashSize.ofInt (n : Int) : Option HashSize :=
  if n = 64 then some .h64 else if n = 32 then some .h32 else if n = 16 then some .h16
  else if n = 8 then some .h8 else none

/-- The keys of the inner dictionaries. py-gaoya/gaoya/minhash.py 5-84. -/
inductive ContKind where
  | set | vec | smallvec
deriving DecidableEq, Repr

/-- `id_container not in ("set", "vec", "smallvec")`, minhash.py 98, and the lookup of line 127. -/
def ContKind.ofString (s : String) : Option ContKind :=
  if s = "set" then some .set else if s = "vec" then some .vec else if s = "smallvec" then some .smallvec else none

/-- The hash type of the class that is looked up (min_hash.rs 236-251). -/
def HashSize.T : HashSize → Type
  | .h8 => UInt8 | .h16 => UInt16 | .h32 => UInt32 | .h64 => UInt64

/-- Instance for the types of py-gaoya/src/min_hash.rs 236-251. -/
instance : (h : HashSize) → DecidableEq h.T
  | .h8 => inferInstanceAs (DecidableEq UInt8)
  | .h16 => inferInstanceAs (DecidableEq UInt16)
  | .h32 => inferInstanceAs (DecidableEq UInt32)
  | .h64 => inferInstanceAs (DecidableEq UInt64)

/-- Instance for the types of py-gaoya/src/min_hash.rs 236-251. -/
instance : (h : HashSize) → PyHasher h.T
  | .h8 => inferInstanceAs (PyHasher UInt8)
  | .h16 => inferInstanceAs (PyHasher UInt16)
  | .h32 => inferInstanceAs (PyHasher UInt32)
  | .h64 => inferInstanceAs (PyHasher UInt64)

/-- The container type of the class that is looked up (min_hash.rs 232-251). -/
def ContKind.C : ContKind → Type
  | .set => HashSetContainer Int64
  | .vec => VecContainer Int64
  | .smallvec => SmallVecContainer Int64 2

/-- Instance for the types of py-gaoya/src/min_hash.rs 236-251. -/
instance : (k : ContKind) → IdContainer k.C Int64
  | .set => inferInstanceAs (IdContainer (HashSetContainer Int64) Int64)
  | .vec => inferInstanceAs (IdContainer (VecContainer Int64) Int64)
  | .smallvec => inferInstanceAs (IdContainer (SmallVecContainer Int64 2) Int64)

/-- A constructed `MinHashStringIndex`: which native class it wraps, and the object.
py-gaoya/gaoya/minhash.py 104-128. -/
structure PyMinObject where
  hashSize : HashSize
  container : ContKind
  index : PyMinIndex hashSize.T container.C

/-- The arguments of `MinHashStringIndex` (minhash.py 85-93). -/
structure PyMinArgs where
  hashSize : Int
  jaccardThreshold : Fl
  numBands : Option Int
  bandSize : Option Int
  numHashes : Option Int
  analyzer : Analyzer
  lowercase : Option Bool
  ngramRange : Option (Int × Int)
  idContainer : String

/-- `MinHashStringIndex.__init__`, minhash.py 85-128. -/
def PyMinObject.init (env : PyMinEnv) (ahash : (h : HashSize) → List h.T → UInt64) (a : PyMinArgs) :
    Except PyExc PyMinObject :=
  match HashSize.ofInt a.hashSize with
  | none => .error .valueError
  | some h =>
    if Fl.lt a.jaccardThreshold (.fin 0) || Fl.gt a.jaccardThreshold (.fin 1) then .error .valueError
    else match ContKind.ofString a.idContainer with
      | none => .error .valueError
      | some k =>
        (PyMinHash.new (T := h.T) (C := k.C) env (ahash h) a.jaccardThreshold a.numBands a.bandSize a.numHashes
          a.analyzer.nativeName a.lowercase a.ngramRange).map
          fun native => { hashSize := h, container := k, index := { analyzer := a.analyzer, native := native } }

end Verif
