import Verif.Model.MinHashIndex
import Verif.Model.MinHasher
import Verif.Model.Text

/-!
# The string index (`gaoya/src/minhash/string_index.rs`)

* A text is its sequence of characters; the hash of a token (FNV over its bytes) is an arbitrary function.
* Reading a file is not modelled beyond the values `BufRead::lines` yields: a line is `some text`, a read error
  is `none`. A file that cannot be opened is `none`.
* `doc_id` is a `u64` with wrapping addition (release build).
-/
namespace Verif

/-- A text or a token. string_index.rs 40, 47 (`&str`). -/
abbrev Text := List Char

/-- `MinHashStringIndex`, string_index.rs lines 14-19. -/
structure StringIndex where
  lshIndex : MinHashIndex UInt64 UInt64 (HashSetContainer UInt64)
  minHash : MinHasher64 Text
  docMap : HMap UInt64 Text
  docId : UInt64

namespace StringIndex

/-- `new`, string_index.rs lines 31-38. The generator, the FNV hash and the band hasher's random state are parameters. -/
def new (g : Rng) (hash : Text → UInt64) (ahash : List UInt64 → UInt64) (numBands bandWidth : Nat)
    (jaccardThreshold : Fl) : StringIndex :=
  { lshIndex := MinHashIndex.newIndex numBands bandWidth jaccardThreshold ahash
    minHash := MinHasher64.newWithHasher g (numBands * bandWidth) hash
    docMap := HMap.empty
    docId := 0 }

/-- `self.min_hash.create_signature(whitespace_split(text))`, string_index.rs lines 41, 48, 91. -/
def signature (st : StringIndex) (text : Text) : Except Panic (List UInt64) :=
  st.minHash.createSignature (whitespaceSplit text)

/-- `insert`, string_index.rs lines 40-45. -/
def insert (st : StringIndex) (text : Text) : StringIndex × Except Panic Unit :=
  match st.signature text with
  | .error e => (st, .error e)
  | .ok minHashes =>
    let docId := st.docId + 1
    let r := st.lshIndex.insert docId minHashes
    ({ st with docId := docId, docMap := st.docMap.insert docId text, lshIndex := r.1 }, r.2)

/-- `query`, string_index.rs lines 47-51. `o` is the iteration order of the id set. -/
def query (o : Order) (st : StringIndex) (text : Text) : Except Panic (List Text) := do
  let minHashes ← st.signature text
  let ids ← st.lshIndex.query minHashes
  (o.perm ids.elems).mapM fun id => unwrap (st.docMap.get? id)

/-- `load_from_lines`, string_index.rs lines 53-60, for a reader whose `lines()` iterator ends. -/
def loadFromLines (st : StringIndex) : List (Option Text) → StringIndex × Except Panic Unit
  | [] => (st, .ok ())
  | some line :: rest =>
    match st.insert line with
    | (st', .ok ()) => loadFromLines st' rest
    | (st', .error e) => (st', .error e)
  | none :: rest => loadFromLines st rest

/-- `load_from_lines`, string_index.rs lines 53-60, for any reader: `src i` is the `i`-th value of the `lines()` iterator,
`none` once it is exhausted. `none` if the loop has not ended after `fuel` iterations. -/
def loadFromReader (src : Nat → Option (Option Text)) : Nat → Nat → StringIndex →
    Option (StringIndex × Except Panic Unit)
  | 0, _, _ => none
  | fuel + 1, i, st =>
    match src i with
    | none => some (st, .ok ())
    | some (some line) =>
      match st.insert line with
      | (st', .ok ()) => loadFromReader src fuel (i + 1) st'
      | (st', .error e) => some (st', .error e)
    | some none => loadFromReader src fuel (i + 1) st

/-- `size`, string_index.rs lines 106-108. -/
def size (st : StringIndex) : Nat := st.docId.toNat

/-- `load_from_file`, string_index.rs lines 62-73. The result is `Ok(new_count)` or the error of `File::open`. The `usize`
subtraction wraps (release build). -/
def loadFromFile (st : StringIndex) (file : Option (List (Option Text))) :
    StringIndex × Except Panic (Option UInt64) :=
  match file with
  | none => (st, .ok none)
  | some lines =>
    match st.loadFromLines lines with
    | (st', .ok ()) => (st', .ok (some (st'.docId - st.docId)))
    | (st', .error e) => (st', .error e)

/-- The collected lines with their ids, string_index.rs lines 80-84. -/
def numberedLines (st : StringIndex) (lines : List (Option Text)) : Except Panic (List (UInt64 × Text)) :=
  lines.zipIdx.mapM fun v => do
    let line ← unwrap v.1
    pure (UInt64.ofNat v.2 + st.docId, line)

/-- `load_from_file_parallel`, string_index.rs lines 75-104. `s1` schedules the hashing (85-93), `s2` the bands (94). -/
def loadFromFileParallel (st : StringIndex) (file : Option (List (Option Text))) (s1 s2 : List Nat) :
    StringIndex × Except Panic (Option UInt64) :=
  match file with
  | none => (st, .ok none)
  | some content =>
    match st.numberedLines content with
    | .error e => (st, .error e)
    | .ok lines =>
      match (parMap (fun line : UInt64 × Text => (st.signature line.2).map fun s => (line.1, s)) lines s1).mapM
          (fun r => r) with
      | .error e => (st, .error e)
      | .ok minhashes =>
        match st.lshIndex.parBulkInsertPairs minhashes s2 with
        | (idx, .error e) => ({ st with lshIndex := idx }, .error e)
        | (idx, .ok ()) =>
          let docId := st.docId + UInt64.ofNat lines.length
          ({ st with lshIndex := idx, docId := docId,
                     docMap := lines.foldl (fun m line => m.insert line.1 line.2) st.docMap },
            .ok (some (docId - st.docId)))

end StringIndex

/-- The calls with `&mut self`. string_index.rs 40-104. -/
inductive SOp where
  | insert (text : Text)
  | loadFromLines (lines : List (Option Text))
  | loadFromFile (file : Option (List (Option Text)))
  | loadFromFileParallel (file : Option (List (Option Text))) (s1 s2 : List Nat)

namespace StringIndex

/-- One call. string_index.rs 40-104. -/
def step (st : StringIndex) : SOp → StringIndex
  | .insert t => (st.insert t).1
  | .loadFromLines ls => (st.loadFromLines ls).1
  | .loadFromFile f => (st.loadFromFile f).1
  | .loadFromFileParallel f s1 s2 => (st.loadFromFileParallel f s1 s2).1

/-- A history. string_index.rs 40-104. -/
def run (st : StringIndex) (ops : List SOp) : StringIndex := ops.foldl step st

end StringIndex
end Verif
