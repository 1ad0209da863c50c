import Verif.Model.Container
import Verif.Model.Similarity

/-!
# The MinHash index (`gaoya/src/minhash/minhash_index.rs`)

* `T`: hash type, `Id`: id type, `C`: id container.
* Functions with `&mut self` return the new state together with the result; a panic keeps the state that the
  panicking call leaves behind.
* Release semantics: the `debug_assert!` in `NoOpHasher::finish` (line 68) is in `Model/Debug` only.
* Reserved capacities are not modelled (only `shrink_to` looks at one; it is an argument there). Shrinking
  rebuilds the tables, i.e. may change their iteration order.
-/
namespace Verif

/-- `MinHashBand`, minhash_index.rs lines 96-108 (`len` and `phantom` are never read). `buildAhash` is the function "build the AHash hasher, hash the slice, finish"
(`BandKey::new`, 32-37); it is arbitrary. `BandKey` equality and hashing are those of the `u64`
(`Hash`/`PartialEq` 40-56, `NoOpHasher` 60-93). -/
structure Band (T C : Type) where
  hashTable : HMap UInt64 C
  bandStart : Nat
  bandEnd : Nat
  buildAhash : List T → UInt64

namespace Band
variable {T Id C : Type} [DecidableEq Id] [IdContainer C Id]

/-- `MinHashBand::new`, minhash_index.rs lines 116-127, and `new_with_capacity`, 129-143 (they differ in reserved capacity). -/
def new (bandStart bandEnd : Nat) (buildAhash : List T → UInt64) : Band T C :=
  { hashTable := HMap.empty, bandStart, bandEnd, buildAhash }

/-- Slicing and hashing, the first two lines of every band method (148-149, 158-159, 168-169, 223-224, 242-243).
File minhash_index.rs. -/
def keyOf (band : Band T C) (signature : List T) : Except Panic UInt64 :=
  (slice signature band.bandStart band.bandEnd).map band.buildAhash

/-- `MinHashBand::insert`, minhash_index.rs lines 147-154. -/
def insert (band : Band T C) (id : Id) (signature : List T) : Except Panic (Band T C) := do
  let key ← band.keyOf signature
  pure { band with
    hashTable := band.hashTable.upsert key IdContainer.new (fun c => IdContainer.push c id) }

/-- `MinHashBand::query`, minhash_index.rs lines 157-164. -/
def query (band : Band T C) (signature : List T) (matchIds : HSet Id) : Except Panic (HSet Id) := do
  let key ← band.keyOf signature
  match band.hashTable.get? key with
  | some ids => pure (matchIds.extend (IdContainer.ids ids))
  | none => pure matchIds

/-- `MinHashBand::query_to_owned`, minhash_index.rs lines 167-176. -/
def queryToOwned (band : Band T C) (signature : List T) (matchIds : HSet Id) : Except Panic (HSet Id) := do
  let key ← band.keyOf signature
  match band.hashTable.get? key with
  | some ids => pure (matchIds.extend (IdContainer.ids ids))
  | none => pure matchIds

/-- `MinHashBand::remove`, minhash_index.rs lines 222-234. -/
def remove (band : Band T C) (id : Id) (signature : List T) : Except Panic (Band T C) := do
  let key ← band.keyOf signature
  match band.hashTable.get? key with
  | some ids =>
    let ids' := IdContainer.remove ids id
    if IdContainer.isEmpty ids' then pure { band with hashTable := band.hashTable.erase key }
    else pure { band with hashTable := band.hashTable.insert key ids' }
  | none => pure band

omit [DecidableEq Id] [IdContainer C Id] in
/-- `MinHashBand::clear`, minhash_index.rs lines 236-238. -/
def clear (band : Band T C) : Band T C := { band with hashTable := HMap.empty }

omit [DecidableEq Id] [IdContainer C Id] in
/-- `MinHashBand::shrink_to_fit` / `shrink_to`, minhash_index.rs lines 251-263: the table is rebuilt. -/
def rehash (o : Order) (band : Band T C) : Band T C := { band with hashTable := band.hashTable.rehash o }

/-- `MinHashBand::has_ids`, minhash_index.rs lines 241-249. -/
def hasIds (band : Band T C) (signature : List T) : Except Panic Bool := do
  let key ← band.keyOf signature
  match band.hashTable.get? key with
  | some ids => pure (decide (IdContainer.len ids > 0))
  | none => pure false

end Band

/-- `MinHashIndex`, minhash_index.rs lines 316-328. -/
structure MinHashIndex (T Id C : Type) where
  bands : List (Band T C)
  idSignatures : HMap Id (List T)
  threshold : Fl
  r : Nat
  b : Nat
  numHashes : Nat

/-- `result.sort_unstable_by(|a, b| a.partial_cmp(&b).unwrap())` on a floating point key: panics iff a NaN is
compared (every element is compared when there are at least two). minhash_index.rs 637, 656. -/
def sortByKeyE {α : Type} (o : Order) (le : Fl → Fl → Bool) (key : α → Fl) (l : List α) :
    Except Panic (List α) :=
  if 2 ≤ l.length ∧ l.any (fun x => key x = .nan) then .error .unwrap
  else .ok (sortUnstable o (fun x y => le (key x) (key y)) l)

/-- `iter.max_by(|x, y| x.1.partial_cmp(&y.1).unwrap())`: panics iff a NaN is compared. minhash_index.rs 543. -/
def maxByKeyE {α : Type} (key : α → Fl) (l : List α) : Except Panic (Option α) :=
  if 2 ≤ l.length ∧ l.any (fun x => key x = .nan) then .error .unwrap
  else .ok (maxBy (fun x y => Fl.tcmp (key x) (key y)) l)

/-- `BandStats`, minhash_index.rs lines 817-821. -/
structure BandStats where
  minSize : Nat
  maxSize : Nat
  sizes : List Nat
deriving DecidableEq

namespace MinHashIndex
variable {T Id C : Type} [DecidableEq T] [DecidableEq Id] [IdContainer C Id]

omit [DecidableEq T] [DecidableEq Id] [IdContainer C Id] in
/-- `new_index`, minhash_index.rs lines 362-379 (`new`, 349-351, is the same with `HashSetContainer`). The random hasher state
created there is the function `ahash`. -/
def newIndex (numBands bandWidth : Nat) (jaccardThreshold : Fl) (ahash : List T → UInt64) :
    MinHashIndex T Id C :=
  { bands := (List.range numBands).map fun i => Band.new (i * bandWidth) ((i + 1) * bandWidth) ahash
    idSignatures := HMap.empty
    threshold := jaccardThreshold
    b := numBands
    r := bandWidth
    numHashes := numBands * bandWidth }

/-- `HashMap::reserve` on an empty map. hashbrown; which capacities the allocator provides is the parameter `accepts`; a
refused one panics ("capacity overflow") or aborts. The reserved capacity is not part of the modelled state.
minhash_index.rs 134, 401. -/
def reserve (accepts : Nat → Bool) (capacity : Nat) : Except Panic Unit :=
  if accepts capacity then .ok () else .error .overflow

/-- `band_capacity`, minhash_index.rs line 395 (`as f64`, `as usize`). -/
def bandCapacity (initialCapacity : Nat) (expectedSimilarityRatio : Fl) : Nat :=
  Fl.toUnsigned (2 ^ 64 - 1) (Fl.mul b64 (Fl.ofNat b64 initialCapacity) (Fl.sub b64 (.fin 1) expectedSimilarityRatio))

omit [DecidableEq T] [DecidableEq Id] [IdContainer C Id] in
/-- `new_with_capacity`, minhash_index.rs lines 388-410, with that of the bands, 129-143. -/
def newWithCapacity (accepts : Nat → Bool) (numBands bandWidth : Nat) (jaccardThreshold : Fl) (initialCapacity : Nat)
    (expectedSimilarityRatio : Fl) (ahash : List T → UInt64) : Except Panic (MinHashIndex T Id C) := do
  let bands ← (List.range numBands).mapM fun i => do
    reserve accepts (bandCapacity initialCapacity expectedSimilarityRatio)
    pure (Band.new (i * bandWidth) ((i + 1) * bandWidth) ahash)
  reserve accepts initialCapacity
  pure
    { bands := bands
      idSignatures := HMap.empty
      threshold := jaccardThreshold
      b := numBands
      r := bandWidth
      numHashes := numBands * bandWidth }

/-- `insert`, minhash_index.rs lines 420-426. -/
def insert (idx : MinHashIndex T Id C) (id : Id) (signature : List T) :
    MinHashIndex T Id C × Except Panic Unit :=
  if idx.numHashes = signature.length then
    match forEachMut (fun band => band.insert id signature) idx.bands with
    | (bands, .ok ()) =>
        ({ idx with bands := bands, idSignatures := idx.idSignatures.insert id signature }, .ok ())
    | (bands, .error e) => ({ idx with bands := bands }, .error e)
  else (idx, .error .assert)

/-- The final loops of the bulk inserts (445-447, 464-466). File minhash_index.rs. -/
def insertAllSignatures (m : HMap Id (List T)) (pairs : List (Id × List T)) : HMap Id (List T) :=
  pairs.foldl (fun m p => m.insert p.1 p.2) m

/-- `par_bulk_insert`, minhash_index.rs lines 428-448. -/
def parBulkInsert (idx : MinHashIndex T Id C) (ids : List Id) (signatures : List (List T))
    (sched : List Nat) : MinHashIndex T Id C × Except Panic Unit :=
  let firstOk : Bool := match signatures with
    | [] => true
    | s :: _ => decide (idx.numHashes = s.length)
  if firstOk then
    match parForEach (fun band (item : List T × Id) => band.insert item.2 item.1) idx.bands
        (signatures.zip ids) sched with
    | (bands, .ok ()) =>
        ({ idx with bands := bands,
                    idSignatures := insertAllSignatures idx.idSignatures (ids.zip signatures) }, .ok ())
    | (bands, .error e) => ({ idx with bands := bands }, .error e)
  else (idx, .error .assert)

/-- `par_bulk_insert_pairs`, minhash_index.rs lines 450-467. -/
def parBulkInsertPairs (idx : MinHashIndex T Id C) (pairs : List (Id × List T)) (sched : List Nat) :
    MinHashIndex T Id C × Except Panic Unit :=
  match parForEach (fun band (item : Id × List T) => band.insert item.1 item.2) idx.bands pairs sched with
  | (bands, .ok ()) =>
      ({ idx with bands := bands, idSignatures := insertAllSignatures idx.idSignatures pairs }, .ok ())
  | (bands, .error e) => ({ idx with bands := bands }, .error e)

omit [DecidableEq T] [DecidableEq Id] [IdContainer C Id] in
/-- `shrink_to_fit`, minhash_index.rs lines 469-476 and 251-256. The tables are rebuilt, in an order given by `o`. -/
def shrinkToFit (o : Order) (idx : MinHashIndex T Id C) : MinHashIndex T Id C × Except Panic Unit :=
  ({ idx with bands := idx.bands.map (Band.rehash o), idSignatures := idx.idSignatures.rehash o }, .ok ())

omit [DecidableEq T] [DecidableEq Id] [IdContainer C Id] in
/-- The closure of `shrink_to` for one band, minhash_index.rs lines 485-492. -/
def shrinkBand (o : Order) (ids : Nat) (band : Band T C) (_ : Unit) : Except Panic (Band T C) :=
  if Fl.lt (Fl.div b64 (Fl.ofNat b64 band.hashTable.len) (Fl.ofNat b64 ids)) (.fin 1) then .ok (band.rehash o)
  else .error .assert

omit [DecidableEq T] [DecidableEq Id] [IdContainer C Id] in
/-- `shrink_to`, minhash_index.rs lines 478-495 and 258-263. `capacity` is the value of `self.id_signatures.capacity()`. The
adjusted capacities have no effect on the content. -/
def shrinkTo (o : Order) (idx : MinHashIndex T Id C) (minCapacity capacity : Nat) (sched : List Nat) :
    MinHashIndex T Id C × Except Panic Unit :=
  if minCapacity > capacity then (idx, .ok ())
  else match parForEach (shrinkBand o idx.idSignatures.len) idx.bands [()] sched with
    | (bands, .ok ()) => ({ idx with bands := bands, idSignatures := idx.idSignatures.rehash o }, .ok ())
    | (bands, .error e) => ({ idx with bands := bands }, .error e)

omit [DecidableEq T] [DecidableEq Id] [IdContainer C Id] in
/-- `clear`, minhash_index.rs lines 498-501. -/
def clear (idx : MinHashIndex T Id C) : MinHashIndex T Id C :=
  { idx with bands := idx.bands.map Band.clear, idSignatures := HMap.empty }

omit [DecidableEq T] [IdContainer C Id] in
/-- `get_signature`, minhash_index.rs lines 503-505. -/
def getSignature (idx : MinHashIndex T Id C) (id : Id) : Option (List T) := idx.idSignatures.get? id

omit [DecidableEq T] [DecidableEq Id] [IdContainer C Id] in
/-- `get_id_signature_map`, minhash_index.rs lines 414-416. -/
def getIdSignatureMap (idx : MinHashIndex T Id C) : HMap Id (List T) := idx.idSignatures

/-- The candidate loop `for band in &self.bands { band.query(..) }` (534-536, 549-551). File minhash_index.rs. -/
def candidates (idx : MinHashIndex T Id C) (q : List T) : Except Panic (HSet Id) :=
  idx.bands.foldlM (fun matchIds band => band.query q matchIds) HSet.empty

/-- The candidate loop with `query_to_owned` (586-588, 626-628, 644-646). File minhash_index.rs. -/
def candidatesOwned (idx : MinHashIndex T Id C) (q : List T) : Except Panic (HSet Id) :=
  idx.bands.foldlM (fun matchIds band => band.queryToOwned q matchIds) HSet.empty

omit [IdContainer C Id] in
/-- The closure of `retain` (553-560, 589-596). File minhash_index.rs. -/
def keeps (idx : MinHashIndex T Id C) (q : List T) (id : Id) : Except Panic Bool :=
  match idx.idSignatures.get? id with
  | some signature => (minhashSimilarity signature q).map fun s => Fl.ge s idx.threshold
  | none => .ok false

omit [IdContainer C Id] in
/-- The iterator chain of `query_one` up to the second `filter` (538-542). File minhash_index.rs. -/
def oneCandidates (idx : MinHashIndex T Id C) (q : List T) (matchIds : List Id) :
    Except Panic (List (Id × Fl)) := do
  let withSig := matchIds.filterMap fun id => (idx.idSignatures.get? id).map fun sig => (id, sig)
  let withSim ← withSig.mapM fun p => do
    let s ← minhashSimilarity p.2 q
    pure (p.1, s)
  pure (withSim.filter fun p => Fl.gt p.2 idx.threshold)

/-- `query_one`, minhash_index.rs lines 531-544. -/
def queryOne (o : Order) (idx : MinHashIndex T Id C) (q : List T) : Except Panic (Option (Id × Fl)) :=
  if idx.numHashes = q.length then do
    let matchIds ← idx.candidates q
    let l ← idx.oneCandidates q (o.perm matchIds.elems)
    maxByKeyE Prod.snd l
  else .error .assert

/-- `query`, minhash_index.rs lines 546-562. -/
def query (idx : MinHashIndex T Id C) (q : List T) : Except Panic (HSet Id) :=
  if idx.numHashes = q.length then do
    let matchIds ← idx.candidates q
    matchIds.retainE (idx.keeps q)
  else .error .assert

/-- `query_owned`, minhash_index.rs lines 580-598. -/
def queryOwned (idx : MinHashIndex T Id C) (q : List T) : Except Panic (HSet Id) :=
  if idx.numHashes = q.length then do
    let matchIds ← idx.candidatesOwned q
    matchIds.retainE (idx.keeps q)
  else .error .assert

/-- `query_by_id`, minhash_index.rs lines 565-570. -/
def queryById (idx : MinHashIndex T Id C) (id : Id) : Except Panic (HSet Id) :=
  match idx.idSignatures.get? id with
  | some signature => idx.query signature
  | none => .ok HSet.empty

/-- `query_by_id_owned`, minhash_index.rs lines 573-578. -/
def queryByIdOwned (idx : MinHashIndex T Id C) (id : Id) : Except Panic (HSet Id) :=
  match idx.idSignatures.get? id with
  | some signature => idx.queryOwned signature
  | none => .ok HSet.empty

/-- `QueryIndex::query`, minhash_index.rs lines 823-838. -/
def queryIndexQuery (idx : MinHashIndex T Id C) (id : Id) : Except Panic (HSet Id) :=
  match idx.idSignatures.get? id with
  | some signature => idx.query signature
  | none => .ok HSet.empty

/-- `par_bulk_query`, minhash_index.rs lines 600-608. -/
def parBulkQuery (idx : MinHashIndex T Id C) (signatures : List (List T)) (sched : List Nat) :
    Except Panic (List (HSet Id)) :=
  (parMap idx.queryOwned signatures sched).mapM fun r => r

omit [DecidableEq T] [IdContainer C Id] in
/-- `&self.id_signatures[&id]` (631, 651): panics when the id is absent. File minhash_index.rs. -/
def signatureAt (idx : MinHashIndex T Id C) (id : Id) : Except Panic (List T) :=
  match idx.idSignatures.get? id with
  | some s => .ok s
  | none => .error .index

omit [IdContainer C Id] in
/-- The body of the loop 630-636 for one id: `some` if the id is pushed. File minhash_index.rs. -/
def similarEntry (idx : MinHashIndex T Id C) (q : List T) (id : Id) : Except Panic (Option (Id × Fl)) := do
  let signature ← idx.signatureAt id
  let similarity ← minhashSimilarity signature q
  pure (if Fl.ge similarity idx.threshold then some (id, similarity) else none)

/-- `query_owned_return_similarity`, minhash_index.rs lines 621-640. `o1` is the iteration order of the candidate set, `o2`
the tie-breaking of the unstable sort (descending). -/
def queryOwnedReturnSimilarity (o1 o2 : Order) (idx : MinHashIndex T Id C) (q : List T) :
    Except Panic (List (Id × Fl)) := do
  let matchIds ← idx.candidatesOwned q
  let result ← (o1.perm matchIds.elems).mapM (idx.similarEntry q)
  sortByKeyE o2 (fun x y => Fl.tcmp y x != .gt) Prod.snd (result.filterMap fun x => x)

/-- `par_bulk_query_return_similarity`, minhash_index.rs lines 610-618. -/
def parBulkQueryReturnSimilarity (o1 o2 : Order) (idx : MinHashIndex T Id C) (signatures : List (List T))
    (sched : List Nat) : Except Panic (List (List (Id × Fl))) :=
  (parMap (idx.queryOwnedReturnSimilarity o1 o2) signatures sched).mapM fun r => r

omit [IdContainer C Id] in
/-- The closure 650-654 of `query_top_k`. File minhash_index.rs. -/
def distanceEntry (idx : MinHashIndex T Id C) (q : List T) (id : Id) : Except Panic (Id × Fl) := do
  let signature ← idx.signatureAt id
  let distance ← minhashDistance q signature
  pure (id, distance)

/-- `query_top_k`, minhash_index.rs lines 643-658 (sort ascending, take the first `min(len, k)`). -/
def queryTopK (o1 o2 : Order) (idx : MinHashIndex T Id C) (q : List T) (k : Nat) :
    Except Panic (List (Id × Fl)) := do
  let matchIds ← idx.candidatesOwned q
  let idsDistances ← (o1.perm matchIds.elems).mapM (idx.distanceEntry q)
  let sorted ← sortByKeyE o2 (fun x y => Fl.tcmp x y != .gt) Prod.snd idsDistances
  slice sorted 0 (min sorted.length k)

/-- `remove`, minhash_index.rs lines 685-696. -/
def remove (idx : MinHashIndex T Id C) (id : Id) :
    MinHashIndex T Id C × Except Panic (Option (List T)) :=
  match idx.idSignatures.get? id with
  | some signature =>
    let sigs := idx.idSignatures.erase id
    match forEachMut (fun band => band.remove id signature) idx.bands with
    | (bands, .ok ()) => ({ idx with bands := bands, idSignatures := sigs }, .ok (some signature))
    | (bands, .error e) => ({ idx with bands := bands, idSignatures := sigs }, .error e)
  | none => (idx, .ok none)

omit [DecidableEq T] [IdContainer C Id] in
/-- `ids.iter().filter_map(|id| self.id_signatures.remove(id)).collect()` (703-705). File minhash_index.rs. -/
def takeSignatures (m : HMap Id (List T)) : List Id → HMap Id (List T) × List (List T)
  | [] => (m, [])
  | id :: ids =>
    match m.get? id with
    | some s => ((takeSignatures (m.erase id) ids).1, s :: (takeSignatures (m.erase id) ids).2)
    | none => takeSignatures m ids

/-- `bulk_remove`, minhash_index.rs lines 699-713. -/
def bulkRemove (idx : MinHashIndex T Id C) (ids : List Id) (sched : List Nat) :
    MinHashIndex T Id C × Except Panic (List (List T)) :=
  let (sigMap, sigs) := takeSignatures idx.idSignatures ids
  match parForEach (fun band (item : List T × Id) => band.remove item.2 item.1) idx.bands
      (sigs.zip ids) sched with
  | (bands, .ok ()) => ({ idx with bands := bands, idSignatures := sigMap }, .ok sigs)
  | (bands, .error e) => ({ idx with bands := bands, idSignatures := sigMap }, .error e)

omit [DecidableEq T] [DecidableEq Id] [IdContainer C Id] in
/-- `size`, minhash_index.rs lines 715-717. -/
def size (idx : MinHashIndex T Id C) : Nat := idx.idSignatures.len

omit [DecidableEq T] [DecidableEq Id] [IdContainer C Id] in
/-- `band_sizes`, minhash_index.rs lines 800-811. -/
def bandSizes (idx : MinHashIndex T Id C) : Except Panic BandStats := do
  let sizes := idx.bands.map fun band => band.hashTable.len
  let maxSize ← unwrap (maxBy compare sizes)
  let minSize ← unwrap (minBy compare sizes)
  pure { minSize, maxSize, sizes }

end MinHashIndex

/-- The calls with `&mut self`, i.e. the alphabet of index histories. Schedules of parallel calls,
the capacity seen by `shrink_to` and the orders of rebuilt tables are part of the history.
minhash_index.rs 420-501, 685-713. -/
inductive Op (T Id : Type) : Type 1 where
  | insert (id : Id) (signature : List T)
  | parBulkInsert (ids : List Id) (signatures : List (List T)) (sched : List Nat)
  | parBulkInsertPairs (pairs : List (Id × List T)) (sched : List Nat)
  | remove (id : Id)
  | bulkRemove (ids : List Id) (sched : List Nat)
  | clear
  | shrinkToFit (o : Order)
  | shrinkTo (minCapacity capacity : Nat) (o : Order) (sched : List Nat)

namespace MinHashIndex
variable {T Id C : Type} [DecidableEq T] [DecidableEq Id] [IdContainer C Id]

/-- One call of a history: new state and whether the call panicked (returned values are dropped).
minhash_index.rs 420-501, 685-713. -/
def step (idx : MinHashIndex T Id C) : Op T Id → MinHashIndex T Id C × Except Panic Unit
  | .insert id s => idx.insert id s
  | .parBulkInsert ids sigs sched => idx.parBulkInsert ids sigs sched
  | .parBulkInsertPairs pairs sched => idx.parBulkInsertPairs pairs sched
  | .remove id => ((idx.remove id).1, (idx.remove id).2.map fun _ => ())
  | .bulkRemove ids sched => ((idx.bulkRemove ids sched).1, (idx.bulkRemove ids sched).2.map fun _ => ())
  | .clear => (idx.clear, .ok ())
  | .shrinkToFit o => idx.shrinkToFit o
  | .shrinkTo m c o sched => idx.shrinkTo o m c sched

/-- A history; calls after a panic go on with the state the panic left behind. minhash_index.rs 420-501, 685-713. -/
def run (idx : MinHashIndex T Id C) (ops : List (Op T Id)) : MinHashIndex T Id C :=
  ops.foldl (fun i op => (i.step op).1) idx

end MinHashIndex
end Verif
