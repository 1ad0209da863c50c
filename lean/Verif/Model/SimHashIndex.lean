import Verif.Model.SimHash

/-! # The SimHash index (`gaoya/src/simhash/sim_hash_index.rs`) -/
namespace Verif
variable {w : Nat} {Id : Type} [DecidableEq Id]

/-- `SimHashTable`, sim_hash_index.rs lines 15-22. -/
structure SimTable (w : Nat) (Id : Type) where
  permutation : Permutation w
  table : HMap (BitVec w) (List Id)

/-- `SimHashTable::new`, sim_hash_index.rs lines 29-34. -/
def SimTable.new (permutation : Permutation w) : SimTable w Id := { permutation, table := HMap.empty }

/-- `SimHashTable::insert`, sim_hash_index.rs lines 36-42. -/
def SimTable.insert (t : SimTable w Id) (id : Id) (simhash : BitVec w) : SimTable w Id :=
  { t with table := t.table.upsert (simhash &&& t.permutation.simpleMask) [] (fun v => v ++ [id]) }

/-- The filter of sim_hash_index.rs lines 55-58 and 76-79; `unwrap` panics on an unknown id. -/
def SimTable.close (q : BitVec w) (idSignatures : HMap Id (BitVec w)) (maxDistance : Nat) (id : Id) :
    Except Panic Bool := do
  let signature ← unwrap (idSignatures.get? id)
  pure (decide (hammingDistance q signature < maxDistance))

/-- `SimHashTable::query` and `query_owned`, sim_hash_index.rs lines 44-84. -/
def SimTable.query (t : SimTable w Id) (q : BitVec w) (idSignatures : HMap Id (BitVec w)) (matchIds : HSet Id)
    (maxDistance : Nat) : Except Panic (HSet Id) :=
  match t.table.get? (q &&& t.permutation.simpleMask) with
  | some candidates => do
    let matched ← candidates.filterM (SimTable.close q idSignatures maxDistance)
    pure (matchIds.extend matched)
  | none => pure matchIds

/-- `SimHashIndex`, sim_hash_index.rs lines 95-106. -/
structure SimIndex (w : Nat) (Id : Type) where
  numBlocks : Nat
  hammingDistance : Nat
  hashTables : List (SimTable w Id)
  idSignatures : HMap Id (BitVec w)
  size : Nat

namespace SimIndex

/-- `new`, sim_hash_index.rs lines 114-128. -/
def new (fuel w : Nat) (Id : Type) (numBlocks hammingDistance : Nat) : Except Panic (SimIndex w Id) := do
  let permutations ← Permutation.create fuel w numBlocks hammingDistance
  let _ ← unwrap (maxBy compare (permutations.map fun p => p.width))
  pure { numBlocks, hammingDistance, hashTables := permutations.map SimTable.new,
         idSignatures := HMap.empty, size := 0 }

/-- `insert`, sim_hash_index.rs lines 130-135. -/
def insert (idx : SimIndex w Id) (id : Id) (signature : BitVec w) : SimIndex w Id :=
  { idx with hashTables := idx.hashTables.map fun table => table.insert id signature
             idSignatures := idx.idSignatures.insert id signature }

/-- `par_bulk_insert`, sim_hash_index.rs lines 137-152. `o` is the order of the map after `shrink_to_fit`. -/
def parBulkInsert (o : Order) (idx : SimIndex w Id) (ids : List Id) (signatures : List (BitVec w))
    (sched : List Nat) : SimIndex w Id × Except Panic Unit :=
  match parForEach (fun (table : SimTable w Id) (item : Id × BitVec w) => .ok (table.insert item.1 item.2))
      idx.hashTables (ids.zip signatures) sched with
  | (tables, .error e) => ({ idx with hashTables := tables }, .error e)
  | (tables, .ok ()) =>
    ({ idx with hashTables := tables
                idSignatures := ((ids.zip signatures).foldl (fun m p => m.insert p.1 p.2) idx.idSignatures).rehash o },
      .ok ())

/-- `par_bulk_insert_pairs`, sim_hash_index.rs lines 154-172. -/
def parBulkInsertPairs (o : Order) (idx : SimIndex w Id) (pairs : List (Id × BitVec w)) (sched : List Nat) :
    SimIndex w Id × Except Panic Unit :=
  match parForEach (fun (table : SimTable w Id) (item : Id × BitVec w) => .ok (table.insert item.1 item.2))
      idx.hashTables pairs sched with
  | (tables, .error e) => ({ idx with hashTables := tables }, .error e)
  | (tables, .ok ()) =>
    ({ idx with hashTables := tables
                idSignatures := (pairs.foldl (fun m p => m.insert p.1 p.2) idx.idSignatures).rehash o }, .ok ())

/-- `query`, sim_hash_index.rs lines 183-189. -/
def query (idx : SimIndex w Id) (q : BitVec w) : Except Panic (HSet Id) :=
  idx.hashTables.foldlM (fun matchIds table => table.query q idx.idSignatures matchIds idx.hammingDistance)
    HSet.empty

/-- `query_owned`, sim_hash_index.rs lines 191-197. -/
def queryOwned (idx : SimIndex w Id) (q : BitVec w) : Except Panic (HSet Id) :=
  idx.hashTables.foldlM (fun matchIds table => table.query q idx.idSignatures matchIds idx.hammingDistance)
    HSet.empty

/-- `query_one`, sim_hash_index.rs lines 174-181. `o` is the iteration order of the result set. -/
def queryOne (o : Order) (idx : SimIndex w Id) (q : BitVec w) : Except Panic (Option (Id × Nat)) := do
  let matchIds ← idx.query q
  let withDist := (o.perm matchIds.elems).filterMap fun id =>
    (idx.idSignatures.get? id).map fun sig => (id, Verif.hammingDistance sig q)
  pure (minBy (fun x y => compare x.2 y.2) withDist)

/-- The closure of `query_return_distance`, sim_hash_index.rs line 201; indexing the map panics on an unknown id. -/
def withDistance (idx : SimIndex w Id) (q : BitVec w) (id : Id) : Except Panic (Id × Nat) :=
  match idx.idSignatures.get? id with
  | some sig => .ok (id, Verif.hammingDistance q sig)
  | none => .error .index

/-- `query_return_distance`, sim_hash_index.rs lines 198-205. -/
def queryReturnDistance (o1 o2 : Order) (idx : SimIndex w Id) (q : BitVec w) : Except Panic (List (Id × Nat)) := do
  let ids ← idx.query q
  let result ← (o1.perm ids.elems).mapM (idx.withDistance q)
  pure (sortUnstable o2 (fun x y => decide (x.2 ≤ y.2)) result)

/-- `par_bulk_query`, sim_hash_index.rs lines 207-215. -/
def parBulkQuery (idx : SimIndex w Id) (signatures : List (BitVec w)) (sched : List Nat) :
    Except Panic (List (HSet Id)) :=
  (parMap idx.queryOwned signatures sched).mapM fun r => r

/-- `par_bulk_query_return_distance`, sim_hash_index.rs lines 217-225. -/
def parBulkQueryReturnDistance (o1 o2 : Order) (idx : SimIndex w Id) (signatures : List (BitVec w))
    (sched : List Nat) : Except Panic (List (List (Id × Nat))) :=
  (parMap (idx.queryReturnDistance o1 o2) signatures sched).mapM fun r => r

/-- `size`, sim_hash_index.rs lines 227-229. -/
def getSize (idx : SimIndex w Id) : Nat := idx.size

end SimIndex

/-- The calls with `&mut self`. sim_hash_index.rs 130-172. -/
inductive SimOp (w : Nat) (Id : Type) : Type 1 where
  | insert (id : Id) (signature : BitVec w)
  | parBulkInsert (ids : List Id) (signatures : List (BitVec w)) (o : Order) (sched : List Nat)
  | parBulkInsertPairs (pairs : List (Id × BitVec w)) (o : Order) (sched : List Nat)

/-- One call. sim_hash_index.rs 130-172. -/
def SimIndex.step (idx : SimIndex w Id) : SimOp w Id → SimIndex w Id
  | .insert id s => idx.insert id s
  | .parBulkInsert ids ss o sched => (idx.parBulkInsert o ids ss sched).1
  | .parBulkInsertPairs ps o sched => (idx.parBulkInsertPairs o ps sched).1

/-- A history. sim_hash_index.rs 130-172. -/
def SimIndex.run (idx : SimIndex w Id) (ops : List (SimOp w Id)) : SimIndex w Id := ops.foldl SimIndex.step idx

end Verif
