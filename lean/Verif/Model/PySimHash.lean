import Verif.Model.PyCommon
import Verif.Model.SimHashIndex

/-!
# The Python SimHash index (`py-gaoya/src/sim_hash.rs`, `py-gaoya/gaoya/simhash.py`)

`w` is the signature width (64 or 128); the item hash (SipHash with keys 5, 6) is an arbitrary function.
-/
namespace Verif

/-- External code used by the SimHash classes. Used in py-gaoya/src/sim_hash.rs 30-66, 171-172. -/
structure PySimEnv (w : Nat) extends PyEnv where
  hash : PyTok → BitVec w

/-- The native class, sim_hash.rs 14-19 (`sim_hash` is fixed by `w` and the item hash). -/
structure PySimHash (w : Nat) where
  inner : SimIndex w Int64
  tokenizer : TokenizerSpec
  lowercase : Bool

namespace PySimHash
variable {w : Nat}

/-- `new`, sim_hash.rs 30-42, with the argument conversions of pyo3. `w` iterations are enough for the loops in
`SimHashIndex::new` (`C51_new_returns`). -/
def new (w : Nat) (numBlocks maxDistance : Int) (analyzer : Option String) (lowercase : Option Bool)
    (ngramRange : Option (Int × Int)) : Except PyExc (PySimHash w) := do
  let numBlocks ← pyUsize numBlocks
  let maxDistance ← pyUsize maxDistance
  let ngramRange ← pyOptRange ngramRange
  let inner ← fromRust (SimIndex.new w w Int64 numBlocks maxDistance)
  pure { inner, tokenizer := TokenizerSpec.new (analyzer.getD "word") ngramRange, lowercase := lowercase.getD false }

/-- `self.sim_hash.create_signature(tokens)`. py-gaoya/src/sim_hash.rs 44-66. -/
def createSignature (env : PySimEnv w) (tokens : List PyTok) : BitVec w := simSignature w (tokens.map env.hash)

/-- `tokenize_and_simhash`, sim_hash.rs 44-66. -/
def tokenizeAndSimhash (env : PySimEnv w) (st : PySimHash w) (doc : PyText) : Except Panic (BitVec w) :=
  (tokenize env.toPyEnv st.tokenizer doc).map (createSignature env)

/-- `doc2signature`, sim_hash.rs 68-75. -/
def doc2signature (env : PySimEnv w) (st : PySimHash w) (doc : PyText) : Except Panic (BitVec w) :=
  if st.lowercase then st.tokenizeAndSimhash env (env.lower doc) else st.tokenizeAndSimhash env doc

/-- `par_bulk_doc2signatures`, sim_hash.rs 77-81. -/
def parBulkDoc2signatures (env : PySimEnv w) (st : PySimHash w) (docs : List PyText) (sched : List Nat) :
    Except Panic (List (BitVec w)) :=
  (parMap (st.doc2signature env) docs sched).mapM fun r => r

/-- `insert_document`, sim_hash.rs 85-88. -/
def insertDocument (env : PySimEnv w) (st : PySimHash w) (id : Int64) (doc : PyText) : PySimHash w × Except Panic Unit :=
  match st.doc2signature env doc with
  | .ok s => ({ st with inner := st.inner.insert id s }, .ok ())
  | .error e => (st, .error e)

/-- `insert_tokens`, sim_hash.rs 90-93. -/
def insertTokens (env : PySimEnv w) (st : PySimHash w) (id : Int64) (tokens : List PyText) :
    PySimHash w × Except Panic Unit :=
  ({ st with inner := st.inner.insert id (createSignature env (pyTokens tokens)) }, .ok ())

/-- `par_bulk_insert_tokens`, sim_hash.rs 95-101. `o` is the order of the rebuilt map. -/
def parBulkInsertTokens (env : PySimEnv w) (o : Order) (st : PySimHash w) (ids : List Int64)
    (docsTokens : List (List PyText)) (s1 s2 : List Nat) : PySimHash w × Except Panic Unit :=
  let signatures := parMap (fun tokens => createSignature env (pyTokens tokens)) docsTokens s1
  ({ st with inner := (st.inner.parBulkInsert o ids signatures s2).1 }, (st.inner.parBulkInsert o ids signatures s2).2)

/-- The loop of py-gaoya/src/sim_hash.rs lines 106-108. -/
def insertLoop (env : PySimEnv w) (st : PySimHash w) : List (Int64 × PyText) → PySimHash w × Except Panic Unit
  | [] => (st, .ok ())
  | p :: ps =>
    match st.insertDocument env p.1 p.2 with
    | (st', .ok ()) => insertLoop env st' ps
    | (st', .error e) => (st', .error e)

/-- `par_bulk_insert_docs`, sim_hash.rs 104-116. -/
def parBulkInsertDocs (env : PySimEnv w) (o : Order) (st : PySimHash w) (ids : List Int64) (docs : List PyText)
    (s1 s2 : List Nat) : PySimHash w × Except Panic Unit :=
  if ids.length < 100 then st.insertLoop env (ids.zip docs)
  else match (parMap (st.doc2signature env) docs s1).mapM (fun r => r) with
    | .ok signatures =>
      ({ st with inner := (st.inner.parBulkInsert o ids signatures s2).1 },
        (st.inner.parBulkInsert o ids signatures s2).2)
    | .error e => (st, .error e)

/-- `query`, sim_hash.rs 118-125. -/
def query (env : PySimEnv w) (o : Order) (st : PySimHash w) (doc : PyText) : Except Panic (List Int64) := do
  let signature ← st.doc2signature env doc
  let set ← st.inner.query signature
  pure (o.perm set.elems)

/-- `query_return_distance`, sim_hash.rs 127-130. -/
def queryReturnDistance (env : PySimEnv w) (o1 o2 : Order) (st : PySimHash w) (doc : PyText) :
    Except Panic (List (Int64 × Nat)) := do
  let signature ← st.doc2signature env doc
  st.inner.queryReturnDistance o1 o2 signature

/-- `query_tokens`, sim_hash.rs 132-139. -/
def queryTokens (env : PySimEnv w) (o : Order) (st : PySimHash w) (tokens : List PyText) :
    Except Panic (List Int64) := do
  let set ← st.inner.query (createSignature env (pyTokens tokens))
  pure (o.perm set.elems)

/-- `query_tokens_return_distance`, sim_hash.rs 141-144. -/
def queryTokensReturnDistance (env : PySimEnv w) (o1 o2 : Order) (st : PySimHash w) (tokens : List PyText) :
    Except Panic (List (Int64 × Nat)) :=
  st.inner.queryReturnDistance o1 o2 (createSignature env (pyTokens tokens))

/-- `par_bulk_query`, sim_hash.rs 146-152. -/
def parBulkQuery (env : PySimEnv w) (o : Order) (st : PySimHash w) (docs : List PyText) (s1 s2 : List Nat) :
    Except Panic (List (List Int64)) := do
  let signatures ← st.parBulkDoc2signatures env docs s1
  let sets ← st.inner.parBulkQuery signatures s2
  pure (sets.map fun set => o.perm set.elems)

/-- `par_bulk_query_return_distance`, sim_hash.rs 154-157. -/
def parBulkQueryReturnDistance (env : PySimEnv w) (o1 o2 : Order) (st : PySimHash w) (docs : List PyText)
    (s1 s2 : List Nat) : Except Panic (List (List (Int64 × Nat))) := do
  let signatures ← st.parBulkDoc2signatures env docs s1
  st.inner.parBulkQueryReturnDistance o1 o2 signatures s2

/-- `par_bulk_query_tokens_return_similarity`, sim_hash.rs 159-164. -/
def parBulkQueryTokensReturnSimilarity (env : PySimEnv w) (o1 o2 : Order) (st : PySimHash w)
    (docTokens : List (List PyText)) (s1 s2 : List Nat) : Except Panic (List (List (Int64 × Nat))) :=
  st.inner.parBulkQueryReturnDistance o1 o2
    (parMap (fun tokens => createSignature env (pyTokens tokens)) docTokens s1) s2

end PySimHash

/-! ### simhash.py -/

/-- An argument of a query method. py-gaoya/gaoya/simhash.py 85-142. -/
inductive PyArg where
  | doc (d : PyText)
  | tokens (ts : List PyText)
  | docs (ds : List PyText)
  | tokenLists (tss : List (List PyText))

/-- The result of a query method. py-gaoya/gaoya/simhash.py 85-142. -/
inductive PySimAnswer where
  | ids (l : List Int64)
  | pairs (l : List (Int64 × Nat))
  | idLists (l : List (List Int64))
  | pairLists (l : List (List (Int64 × Nat)))

/-- The unspecified orders and schedules of a call. For py-gaoya/src/sim_hash.rs 85-164. -/
structure PyRun : Type 1 where
  o1 : Order
  o2 : Order
  s1 : List Nat
  s2 : List Nat

/-- Attribute lookup on a native SimHash object: the query methods of `#[pymethods]`, sim_hash.rs 118-164. Any other
name is `none` (`insert_document` and the other methods that are not queries are left out). A Python list of
strings is accepted where tokens or documents are expected; otherwise a wrong argument is a `TypeError`. -/
def simMethod {w : Nat} (env : PySimEnv w) (r : PyRun) (st : PySimHash w) (name : String) :
    Option (PyArg → Except PyExc PySimAnswer) :=
  match name with
  | "query" => some fun
    | .doc d => (fromRust (st.query env r.o1 d)).map .ids
    | _ => .error .typeError
  | "query_return_distance" => some fun
    | .doc d => (fromRust (st.queryReturnDistance env r.o1 r.o2 d)).map .pairs
    | _ => .error .typeError
  | "query_tokens" => some fun
    | .tokens ts => (fromRust (st.queryTokens env r.o1 ts)).map .ids
    | .docs ts => (fromRust (st.queryTokens env r.o1 ts)).map .ids
    | _ => .error .typeError
  | "query_tokens_return_distance" => some fun
    | .tokens ts => (fromRust (st.queryTokensReturnDistance env r.o1 r.o2 ts)).map .pairs
    | .docs ts => (fromRust (st.queryTokensReturnDistance env r.o1 r.o2 ts)).map .pairs
    | _ => .error .typeError
  | "par_bulk_query" => some fun
    | .docs ds => (fromRust (st.parBulkQuery env r.o1 ds r.s1 r.s2)).map .idLists
    | .tokens ds => (fromRust (st.parBulkQuery env r.o1 ds r.s1 r.s2)).map .idLists
    | _ => .error .typeError
  | "par_bulk_query_return_distance" => some fun
    | .docs ds => (fromRust (st.parBulkQueryReturnDistance env r.o1 r.o2 ds r.s1 r.s2)).map .pairLists
    | .tokens ds => (fromRust (st.parBulkQueryReturnDistance env r.o1 r.o2 ds r.s1 r.s2)).map .pairLists
    | _ => .error .typeError
  | "par_bulk_query_tokens_return_similarity" => some fun
    | .tokenLists tss =>
      (fromRust (st.parBulkQueryTokensReturnSimilarity env r.o1 r.o2 tss r.s1 r.s2)).map .pairLists
    | _ => .error .typeError
  | _ => none

/-- `self.index.<name>`: `AttributeError` if the native class has no such method. py-gaoya/gaoya/simhash.py 85-142. -/
def getattr {w : Nat} (env : PySimEnv w) (r : PyRun) (st : PySimHash w) (name : String) :
    Except PyExc (PyArg → Except PyExc PySimAnswer) :=
  match simMethod env r st name with
  | some m => .ok m
  | none => .error .attributeError

/-- `SimHashStringIndex` (simhash.py 5-66): the analyzer and the native index. -/
structure PySimIndex (w : Nat) where
  analyzer : Analyzer
  native : PySimHash w

namespace PySimIndex
variable {w : Nat}

/-- `insert_document`, simhash.py 69-83. -/
def insertDocument (env : PySimEnv w) (st : PySimIndex w) (id : Int64) (doc : PyText) :
    PySimIndex w × Except PyExc Unit :=
  match st.analyzer with
  | .callable f =>
    match f doc with
    | .error e => (st, .error e)
    | .ok toks =>
      ({ st with native := (st.native.insertTokens env id toks).1 }, fromRust (st.native.insertTokens env id toks).2)
  | .named _ =>
    ({ st with native := (st.native.insertDocument env id doc).1 }, fromRust (st.native.insertDocument env id doc).2)

/-- `query`, simhash.py 85-112. The attribute is looked up before the argument is evaluated. -/
def query (env : PySimEnv w) (r : PyRun) (st : PySimIndex w) (doc : PyText) (returnHammingDistance : Bool) :
    Except PyExc PySimAnswer :=
  match st.analyzer with
  | .callable f =>
    if returnHammingDistance then do
      let m ← getattr env r st.native "query_tokens_return_similarity"
      let toks ← f doc
      m (.tokens toks)
    else do
      let m ← getattr env r st.native "query_tokens"
      let toks ← f doc
      m (.tokens toks)
  | .named _ =>
    if returnHammingDistance then do
      let m ← getattr env r st.native "query_return_similarity"
      m (.doc doc)
    else do
      let m ← getattr env r st.native "query"
      m (.doc doc)

/-- `par_bulk_query`, simhash.py 114-142. -/
def parBulkQuery (env : PySimEnv w) (r : PyRun) (st : PySimIndex w) (docs : List PyText) (returnSimilarity : Bool) :
    Except PyExc PySimAnswer :=
  match st.analyzer with
  | .callable f => do
    let analyzed ← docs.mapM f
    if returnSimilarity then
      let m ← getattr env r st.native "par_bulk_query_tokens_return_distance"
      m (.tokenLists analyzed)
    else
      let m ← getattr env r st.native "par_bulk_query_tokens"
      m (.tokenLists analyzed)
  | .named _ =>
    if returnSimilarity then do
      let m ← getattr env r st.native "par_bulk_query_tokens_return_distance"
      m (.docs docs)
    else do
      let m ← getattr env r st.native "par_bulk_query"
      m (.docs docs)

end PySimIndex

/-- The two native classes, sim_hash.rs 171-172. -/
structure PySimObject where
  width : Nat
  index : PySimIndex width

/-- The arguments of `SimHashStringIndex` (simhash.py 43-49). -/
structure PySimArgs where
  hashSize : Int
  numBlocks : Int
  hammingDistance : Int
  analyzer : Analyzer
  lowercase : Option Bool
  ngramRange : Option (Int × Int)

/-- `not callable(analyzer) and analyzer not in { 'word', 'char' }`, simhash.py 57. -/
def Analyzer.unknown : Analyzer → Bool
  | .named n => n != some "word" && n != some "char"
  | .callable _ => false

/-- `SimHashStringIndex.__init__`, simhash.py 43-66. -/
def PySimObject.init (a : PySimArgs) : Except PyExc PySimObject :=
  if ¬ (a.hashSize = 64 ∨ a.hashSize = 128) then .error .valueError
  else if a.numBlocks < 3 ∧ a.numBlocks > 32 then .error .valueError
  else if a.hammingDistance ≥ a.numBlocks then .error .valueError
  else if a.analyzer.unknown then .error .valueError
  else if a.hashSize = 64 then
    (PySimHash.new 64 a.numBlocks a.hammingDistance a.analyzer.nativeName a.lowercase a.ngramRange).map
      fun native => { width := 64, index := { analyzer := a.analyzer, native := native } }
  else
    (PySimHash.new 128 a.numBlocks a.hammingDistance a.analyzer.nativeName a.lowercase a.ngramRange).map
      fun native => { width := 128, index := { analyzer := a.analyzer, native := native } }

end Verif
