import Verif.Model.MinHashIndex
import Verif.Model.SimHashIndex

/-! # The work of a query: `query` of minhash_index.rs and sim_hash_index.rs with the comparisons of signatures counted -/
namespace Verif.MinHashIndex
variable {T Id C : Type} [DecidableEq T] [DecidableEq Id]

/-- The closure of `retain`, minhash_index.rs lines 553-560, with a counter of the calls of
`compute_minhash_similarity` (556). -/
def keepsCounted (idx : MinHashIndex T Id C) (q : List T) (id : Id) (n : Nat) : Except Panic (Bool × Nat) :=
  match idx.idSignatures.get? id with
  | some signature => (minhashSimilarity signature q).map fun s => (Fl.ge s idx.threshold, n + 1)
  | none => .ok (false, n)

/-- `query`, minhash_index.rs lines 546-562, with the counter. `retain` calls its closure once for every element. The kept
ids are returned as a list. -/
def queryCounted [IdContainer C Id] (idx : MinHashIndex T Id C) (q : List T) : Except Panic (List Id × Nat) :=
  if idx.numHashes = q.length then do
    let matchIds ← idx.candidates q
    matchIds.elems.foldlM (fun acc id => do
      let k ← idx.keepsCounted q id acc.2
      pure (if k.1 then acc.1 ++ [id] else acc.1, k.2)) ([], 0)
  else .error .assert

end Verif.MinHashIndex

namespace Verif
variable {w : Nat} {Id : Type} [DecidableEq Id]

/-- `SimHashTable::query` and `query_owned`, sim_hash_index.rs lines 44-84, with a counter of the calls of
`hamming_distance` (57, 78): the filter calls its closure once for every id of the bucket, and the closure computes one
distance (the count is taken as the length of the bucket). -/
def SimTable.queryCounted (t : SimTable w Id) (q : BitVec w) (idSignatures : HMap Id (BitVec w)) (acc : HSet Id × Nat)
    (maxDistance : Nat) : Except Panic (HSet Id × Nat) :=
  match t.table.get? (q &&& t.permutation.simpleMask) with
  | some candidates => do
    let matched ← candidates.filterM (SimTable.close q idSignatures maxDistance)
    pure (acc.1.extend matched, acc.2 + candidates.length)
  | none => pure acc

/-- `query` and `query_owned`, sim_hash_index.rs lines 183-197, with the counter. -/
def SimIndex.queryCounted (idx : SimIndex w Id) (q : BitVec w) : Except Panic (HSet Id × Nat) :=
  idx.hashTables.foldlM (fun acc table => table.queryCounted q idx.idSignatures acc idx.hammingDistance)
    (HSet.empty, 0)

end Verif
