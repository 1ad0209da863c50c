import Verif.Model.MinHashIndex
import Verif.Model.SimHashIndex

/-!
# Debug builds of the indexes

In a debug build `debug_assert!` is active, arithmetic overflow panics, and so does a shift by the width or more. The
other model files describe release builds. Here are the functions of the two indexes that differ: those that hash a band
key (`NoOpHasher::finish`, minhash_index.rs 67-70), the constructor with its products, and the construction of the SimHash
tables (permutation.rs). The parallel clusterer is in `Model/DebugCluster`. Other checked arithmetic (counters, lengths of
lists in memory) is not modelled.
-/
namespace Verif

namespace Band
variable {T Id C : Type} [DecidableEq Id] [IdContainer C Id]

/-- `NoOpHasher::finish` in a debug build, minhash_index.rs lines 67-70. -/
def finishDebug (key : UInt64) : Except Panic Unit := if key > 0 then .ok () else .error .assert

/-- A lookup in the table of the band: hashbrown does not hash the key when the table is empty.
minhash_index.rs 160, 170, 225. -/
def lookupDebug (band : Band T C) (key : UInt64) : Except Panic Unit :=
  if band.hashTable.len = 0 then .ok () else finishDebug key

/-- `MinHashBand::insert`, minhash_index.rs lines 147-154, in a debug build (`entry` hashes the key). -/
def insertDebug (band : Band T C) (id : Id) (signature : List T) : Except Panic (Band T C) := do
  let key ← band.keyOf signature
  finishDebug key
  band.insert id signature

/-- `MinHashBand::query` and `query_to_owned`, minhash_index.rs lines 157-176, in a debug build. -/
def queryDebug (band : Band T C) (signature : List T) (matchIds : HSet Id) : Except Panic (HSet Id) := do
  let key ← band.keyOf signature
  band.lookupDebug key
  band.query signature matchIds

/-- `MinHashBand::remove`, minhash_index.rs lines 222-234, in a debug build (the second hashing, line 229, is of the
same key). -/
def removeDebug (band : Band T C) (id : Id) (signature : List T) : Except Panic (Band T C) := do
  let key ← band.keyOf signature
  band.lookupDebug key
  band.remove id signature

end Band

namespace MinHashIndex
variable {T Id C : Type} [DecidableEq T] [DecidableEq Id] [IdContainer C Id]

omit [DecidableEq T] [DecidableEq Id] [IdContainer C Id] in
/-- `new_index`, minhash_index.rs lines 362-379, in a debug build: the products of lines 366 and 377 are checked. -/
def newIndexDebug (numBands bandWidth : Nat) (jaccardThreshold : Fl) (ahash : List T → UInt64) :
    Except Panic (MinHashIndex T Id C) :=
  if numBands * bandWidth < 2 ^ 64 then .ok (newIndex numBands bandWidth jaccardThreshold ahash) else .error .overflow

/-- `insert`, minhash_index.rs lines 420-426, in a debug build. -/
def insertDebug (idx : MinHashIndex T Id C) (id : Id) (signature : List T) :
    MinHashIndex T Id C × Except Panic Unit :=
  if idx.numHashes = signature.length then
    match forEachMut (fun band => band.insertDebug id signature) idx.bands with
    | (bands, .ok ()) =>
        ({ idx with bands := bands, idSignatures := idx.idSignatures.insert id signature }, .ok ())
    | (bands, .error e) => ({ idx with bands := bands }, .error e)
  else (idx, .error .assert)

/-- `par_bulk_insert`, minhash_index.rs lines 428-448, in a debug build. -/
def parBulkInsertDebug (idx : MinHashIndex T Id C) (ids : List Id) (signatures : List (List T))
    (sched : List Nat) : MinHashIndex T Id C × Except Panic Unit :=
  let firstOk : Bool := match signatures with
    | [] => true
    | s :: _ => decide (idx.numHashes = s.length)
  if firstOk then
    match parForEach (fun band (item : List T × Id) => band.insertDebug item.2 item.1) idx.bands
        (signatures.zip ids) sched with
    | (bands, .ok ()) =>
        ({ idx with bands := bands,
                    idSignatures := insertAllSignatures idx.idSignatures (ids.zip signatures) }, .ok ())
    | (bands, .error e) => ({ idx with bands := bands }, .error e)
  else (idx, .error .assert)

/-- `par_bulk_insert_pairs`, minhash_index.rs lines 450-467, in a debug build. -/
def parBulkInsertPairsDebug (idx : MinHashIndex T Id C) (pairs : List (Id × List T)) (sched : List Nat) :
    MinHashIndex T Id C × Except Panic Unit :=
  match parForEach (fun band (item : Id × List T) => band.insertDebug item.1 item.2) idx.bands pairs sched with
  | (bands, .ok ()) =>
      ({ idx with bands := bands, idSignatures := insertAllSignatures idx.idSignatures pairs }, .ok ())
  | (bands, .error e) => ({ idx with bands := bands }, .error e)

/-- `remove`, minhash_index.rs lines 685-696, in a debug build. -/
def removeDebug (idx : MinHashIndex T Id C) (id : Id) :
    MinHashIndex T Id C × Except Panic (Option (List T)) :=
  match idx.idSignatures.get? id with
  | some signature =>
    let sigs := idx.idSignatures.erase id
    match forEachMut (fun band => band.removeDebug id signature) idx.bands with
    | (bands, .ok ()) => ({ idx with bands := bands, idSignatures := sigs }, .ok (some signature))
    | (bands, .error e) => ({ idx with bands := bands, idSignatures := sigs }, .error e)
  | none => (idx, .ok none)

/-- `bulk_remove`, minhash_index.rs lines 699-713, in a debug build. -/
def bulkRemoveDebug (idx : MinHashIndex T Id C) (ids : List Id) (sched : List Nat) :
    MinHashIndex T Id C × Except Panic (List (List T)) :=
  let (sigMap, sigs) := takeSignatures idx.idSignatures ids
  match parForEach (fun band (item : List T × Id) => band.removeDebug item.2 item.1) idx.bands
      (sigs.zip ids) sched with
  | (bands, .ok ()) => ({ idx with bands := bands, idSignatures := sigMap }, .ok sigs)
  | (bands, .error e) => ({ idx with bands := bands, idSignatures := sigMap }, .error e)

/-- One call of a history in a debug build. Rebuilding a table hashes keys that were hashed when they were inserted.
minhash_index.rs 420-501, 685-713. -/
def stepDebug (idx : MinHashIndex T Id C) : Op T Id → MinHashIndex T Id C × Except Panic Unit
  | .insert id s => idx.insertDebug id s
  | .parBulkInsert ids sigs sched => idx.parBulkInsertDebug ids sigs sched
  | .parBulkInsertPairs pairs sched => idx.parBulkInsertPairsDebug pairs sched
  | .remove id => ((idx.removeDebug id).1, (idx.removeDebug id).2.map fun _ => ())
  | .bulkRemove ids sched => ((idx.bulkRemoveDebug ids sched).1, (idx.bulkRemoveDebug ids sched).2.map fun _ => ())
  | .clear => (idx.clear, .ok ())
  | .shrinkToFit o => idx.shrinkToFit o
  | .shrinkTo m c o sched => idx.shrinkTo o m c sched

/-- A history in a debug build. minhash_index.rs 420-501, 685-713. -/
def runDebug (idx : MinHashIndex T Id C) (ops : List (Op T Id)) : MinHashIndex T Id C :=
  ops.foldl (fun i op => (i.stepDebug op).1) idx

/-- The candidate loops of all queries (534-536, 549-551, 586-588, 626-628, 644-646) in a debug build.
File minhash_index.rs. -/
def candidatesDebug (idx : MinHashIndex T Id C) (q : List T) : Except Panic (HSet Id) :=
  idx.bands.foldlM (fun matchIds band => band.queryDebug q matchIds) HSet.empty

/-- `query`, minhash_index.rs lines 546-562, and `query_owned`, 580-598, in a debug build. -/
def queryDebug (idx : MinHashIndex T Id C) (q : List T) : Except Panic (HSet Id) :=
  if idx.numHashes = q.length then do
    let matchIds ← idx.candidatesDebug q
    matchIds.retainE (idx.keeps q)
  else .error .assert

/-- `query_one`, minhash_index.rs lines 531-544, in a debug build. -/
def queryOneDebug (o : Order) (idx : MinHashIndex T Id C) (q : List T) : Except Panic (Option (Id × Fl)) :=
  if idx.numHashes = q.length then do
    let matchIds ← idx.candidatesDebug q
    let l ← idx.oneCandidates q (o.perm matchIds.elems)
    maxByKeyE Prod.snd l
  else .error .assert

/-- `query_owned_return_similarity`, minhash_index.rs lines 621-640, in a debug build. -/
def queryOwnedReturnSimilarityDebug (o1 o2 : Order) (idx : MinHashIndex T Id C) (q : List T) :
    Except Panic (List (Id × Fl)) := do
  let matchIds ← idx.candidatesDebug q
  let result ← (o1.perm matchIds.elems).mapM (idx.similarEntry q)
  sortByKeyE o2 (fun x y => Fl.tcmp y x != .gt) Prod.snd (result.filterMap fun x => x)

/-- `query_top_k`, minhash_index.rs lines 643-658, in a debug build. -/
def queryTopKDebug (o1 o2 : Order) (idx : MinHashIndex T Id C) (q : List T) (k : Nat) :
    Except Panic (List (Id × Fl)) := do
  let matchIds ← idx.candidatesDebug q
  let idsDistances ← (o1.perm matchIds.elems).mapM (idx.distanceEntry q)
  let sorted ← sortByKeyE o2 (fun x y => Fl.tcmp x y != .gt) Prod.snd idsDistances
  slice sorted 0 (min sorted.length k)

end MinHashIndex

/-! ### SimHash tables -/
section
variable {w : Nat}

/-- `while (S::one() << i) & mask == S::zero() { i += 1 }`, permutation.rs 42-44, in a debug build: the shift by
`type_width` panics. The first argument is `type_width - i`. -/
def lowLoopDebug (mask : BitVec w) : Nat → Nat → Except Panic Nat
  | 0, _ => .error .overflow
  | n + 1, i => if (1#w <<< i) &&& mask = 0#w then lowLoopDebug mask n (i + 1) else .ok i

/-- The loop 36-56 in a debug build. File permutation.rs. -/
def measureDebug : Nat → List (BitVec w) → Except Panic (List (Nat × Int))
  | _, [] => .ok []
  | width, mask :: masks => do
    let i ← lowLoopDebug mask w 0
    let j := highLoop mask (w - i) i
    let width' := width + (j - i)
    let rest ← measureDebug width' masks
    pure ((j - i, (w : Int) - (width' : Int) - (i : Int)) :: rest)

/-- `Permutation::new`, permutation.rs 22-76, in a debug build: `widths.len() - diff_bits` is checked. -/
def Permutation.newDebug (diffBits : Nat) (masks choice : List (BitVec w)) : Except Panic (Permutation w) := do
  let ms ← measureDebug 0 masks
  if ms.length < diffBits then .error .overflow
  else
    let n := ms.length - diffBits
    let width := ((ms.take n).map Prod.fst).sum
    pure { offsetsMasks := (masks.zip (ms.map Prod.snd)).take n
           searchMask := topMask w width
           simpleMask := choice.foldl (fun m c => m ||| c) 0#w
           width := width }

/-- `Permutation::create`, permutation.rs 78-106, in a debug build. -/
def Permutation.createDebug (w numBlocks diffBits : Nat) : Except Panic (List (Permutation w)) :=
  let blocks := (List.range numBlocks).map (blockMask w numBlocks)
  if numBlocks < diffBits then .error .overflow
  else
    (combinations (numBlocks - diffBits) blocks).mapM fun combination =>
      Permutation.newDebug diffBits (allBlocks blocks combination) combination

/-- `SimHashIndex::new`, sim_hash_index.rs lines 114-128, in a debug build. -/
def SimIndex.newDebug (w : Nat) (Id : Type) (numBlocks hammingDistance : Nat) : Except Panic (SimIndex w Id) := do
  let permutations ← Permutation.createDebug w numBlocks hammingDistance
  let _ ← unwrap (maxBy compare (permutations.map fun p => p.width))
  pure { numBlocks, hammingDistance, hashTables := permutations.map SimTable.new,
         idSignatures := HMap.empty, size := 0 }

end
end Verif
