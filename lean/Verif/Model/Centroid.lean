import Verif.Model.MinHashIndex

/-!
# Centroids (`gaoya/src/minhash/mod.rs`, `calculate_centroid` of `minhash_index.rs`)

The counters are hash maps that are iterated over, so every counter has its own unspecified order `o i`.
Counts are `usize`; they stay below the number of signatures plus two and cannot overflow.
-/
namespace Verif

section
variable {α : Type} [DecidableEq α]

/-- `let count = counter.entry(x).or_insert(1); *count += 1;` (mod.rs 172-173, 200-201, 225-226). -/
def bump (m : HMap α Nat) (a : α) : HMap α Nat := m.upsert a 1 (· + 1)

/-- The same on `counters[i]`, which panics when `i` is out of bounds. mod.rs 172-173, 225-226. -/
def bumpAt (cs : List (HMap α Nat)) (i : Nat) (a : α) : Except Panic (List (HMap α Nat)) :=
  match cs[i]? with
  | some c => .ok (cs.set i (bump c a))
  | none => .error .index

omit [DecidableEq α] in
/-- `counter.into_iter().max_by(|x, y| x.1.cmp(&y.1)).unwrap().0` (mod.rs 178-180, 207-209, 231-233). -/
def mostFrequent (o : Order) (m : HMap α Nat) : Except Panic α := do
  let p ← unwrap (maxBy (fun x y => compare x.2 y.2) (o.perm m.entries))
  pure p.1

end

variable {T : Type} [DecidableEq T]

/-- The inner loop of `minhash_centroid`, mod.rs 171-174. -/
def countSignature (cs : List (HMap T Nat)) (signature : List T) : Except Panic (List (HMap T Nat)) :=
  signature.zipIdx.foldlM (fun cs p => bumpAt cs p.2 p.1) cs

/-- `minhash_centroid`, mod.rs 163-186. -/
def minhashCentroid (o : Nat → Order) (signatures : List (List T)) : Except Panic (List T) :=
  match signatures with
  | [] => .error .index
  | s0 :: _ => do
    let counters ← signatures.foldlM countSignature (List.replicate s0.length HMap.empty)
    counters.zipIdx.mapM fun p => mostFrequent (o p.2) p.1

/-- `minhash_centroid_from_refs`, mod.rs 216-238 (the same text over references). -/
def minhashCentroidFromRefs (o : Nat → Order) (signatures : List (List T)) : Except Panic (List T) :=
  match signatures with
  | [] => .error .index
  | s0 :: _ => do
    let counters ← signatures.foldlM countSignature (List.replicate s0.length HMap.empty)
    counters.zipIdx.mapM fun p => mostFrequent (o p.2) p.1

/-- The inner loop of `minhash_band_centroid_from_refs`, mod.rs 198-202. -/
def countBands (numBands bandSize : Nat) (cs : List (HMap (List T) Nat)) (signature : List T) :
    Except Panic (List (HMap (List T) Nat)) :=
  (List.range numBands).foldlM (fun cs i => do
    let band ← slice signature (i * bandSize) ((i + 1) * bandSize)
    bumpAt cs i band) cs

/-- `minhash_band_centroid_from_refs`, mod.rs 188-214. -/
def minhashBandCentroidFromRefs (o : Nat → Order) (signatures : List (List T)) (numBands bandSize : Nat) :
    Except Panic (List T) := do
  let counters ← signatures.foldlM (countBands numBands bandSize) ((List.range numBands).map fun _ => HMap.empty)
  let bands ← counters.zipIdx.mapM fun p => mostFrequent (o p.2) p.1
  pure bands.flatten

/-- `MinHashIndex::calculate_centroid`, minhash_index.rs 745-753. -/
def MinHashIndex.calculateCentroid {Id C : Type} [DecidableEq Id] (o : Nat → Order) (idx : MinHashIndex T Id C)
    (ids : List Id) : Except Panic (List T) :=
  minhashBandCentroidFromRefs o (ids.filterMap fun id => idx.idSignatures.get? id) idx.b idx.r

end Verif
