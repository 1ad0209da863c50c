import Verif.Props.Sharding
import Verif.Props.SimHashIndex

/-! # Property C125: a collection of SimHash signatures split over several indexes -/
namespace Verif.Props
open Verif Verif.Spec
variable {w : Nat} {Id J : Type} [DecidableEq Id] [DecidableEq J]

/-- C125: the shards return together what the one index returns, whatever numbers of blocks they use; sorted by distance
the merged answer has the same sequence of distances. -/
theorem C125_query {nb d fuel : Nat} {nbs fuels : J → Nat} {idx : SimIndex w Id} {idxs : J → SimIndex w Id}
    (h : SimIndex.new fuel w Id nb d = .ok idx) (hs : ∀ j, SimIndex.new (fuels j) w Id (nbs j) d = .ok (idxs j))
    (shard : Id → J) (js : List J) (nd : js.Nodup) (cov : ∀ id, shard id ∈ js)
    (ops : List (SimOp w Id)) (sops : J → List (SimOp w Id))
    (content : ∀ j id, lastSig (assigned (sops j)) id = if shard id = j then lastSig (assigned ops) id else none)
    (q : BitVec w) (o1 o2 : Order) (os1 os2 : J → Order) :
    ∃ (s : HSet Id) (ss : J → HSet Id) (r : List (Id × Nat)) (rs : J → List (Id × Nat)),
      (idx.run ops).query q = .ok s ∧ (∀ j, ((idxs j).run (sops j)).query q = .ok (ss j)) ∧
      (∀ j id, id ∈ (ss j).elems ↔ shard id = j ∧ id ∈ s.elems) ∧
      (idx.run ops).queryReturnDistance o1 o2 q = .ok r ∧
      (∀ j, ((idxs j).run (sops j)).queryReturnDistance (os1 j) (os2 j) q = .ok (rs j)) ∧
      r.Perm (js.flatMap rs) ∧
      ∀ m : List (Id × Nat), m.Perm (js.flatMap rs) → m.Pairwise (fun x y => x.2 ≤ y.2) →
        m.map Prod.snd = r.map Prod.snd := by
  obtain ⟨s, e1, _, e3⟩ := C51_query_exact h ops q
  choose ss f1 _ f3 using fun j => C51_query_exact (hs j) (sops j) q
  obtain ⟨s', r, a1, a2, a3, a4, a5, a6⟩ := C53_query_return_distance h ops q o1 o2
  choose ss' rs b1 b2 b3 b4 b5 b6 using fun j => C53_query_return_distance (hs j) (sops j) q (os1 j) (os2 j)
  have es : s' = s := Except.ok.inj (a1.symm.trans e1)
  have ess : ss' = ss := funext fun j => Except.ok.inj ((b1 j).symm.trans (f1 j))
  subst es ess
  have hm : ∀ j id, id ∈ (ss' j).elems ↔ shard id = j ∧ id ∈ s'.elems := by
    intro j id
    rw [f3, e3, content]
    by_cases hj : shard id = j <;> simp [hj]
  have hp : r.Perm (js.flatMap rs) := by
    refine shard_perm shard js nd cov r rs a3 b3 fun j p => ?_
    constructor
    · intro hpj
      obtain ⟨c1, c2⟩ := (hm j p.1).mp ((b4 j p.1).mp (List.mem_map_of_mem hpj))
      obtain ⟨p', d1, d2⟩ := List.mem_map.mp ((a4 p.1).mpr c2)
      obtain ⟨sig, g1, g2⟩ := b5 j p.1 p.2 hpj
      obtain ⟨sig', g3, g4⟩ := a5 p'.1 p'.2 d1
      rw [content, if_pos c1] at g1
      rw [d2, g1] at g3; cases g3
      have : p' = p := Prod.ext d2 (g4.trans g2.symm)
      exact ⟨c1, this ▸ d1⟩
    · rintro ⟨c1, hpr⟩
      have c2 := (hm j p.1).mpr ⟨c1, (a4 p.1).mp (List.mem_map_of_mem hpr)⟩
      obtain ⟨p', d1, d2⟩ := List.mem_map.mp ((b4 j p.1).mpr c2)
      obtain ⟨sig, g1, g2⟩ := a5 p.1 p.2 hpr
      obtain ⟨sig', g3, g4⟩ := b5 j p'.1 p'.2 d1
      rw [d2, content, if_pos c1, g1] at g3; cases g3
      have : p' = p := Prod.ext d2 (g4.trans g2.symm)
      exact this ▸ d1
  refine ⟨s', ss', r, rs, e1, f1, hm, a2, b2, hp, fun m h1 h2 => ?_⟩
  exact ((h1.trans hp.symm).map Prod.snd).eq_of_pairwise (fun a b _ _ => Nat.le_antisymm) (List.pairwise_map.mpr h2)
    (List.pairwise_map.mpr a6)

/-- C125: the nearest entry. The one index finds an entry iff some shard does, and its distance is the least of the
distances that the shards report. -/
theorem C125_query_one {nb d fuel : Nat} {nbs fuels : J → Nat} {idx : SimIndex w Id} {idxs : J → SimIndex w Id}
    (h : SimIndex.new fuel w Id nb d = .ok idx) (hs : ∀ j, SimIndex.new (fuels j) w Id (nbs j) d = .ok (idxs j))
    (shard : Id → J) (ops : List (SimOp w Id)) (sops : J → List (SimOp w Id))
    (content : ∀ j id, lastSig (assigned (sops j)) id = if shard id = j then lastSig (assigned ops) id else none)
    (q : BitVec w) (o : Order) (os : J → Order) :
    ∃ (x : Option (Id × Nat)) (xs : J → Option (Id × Nat)), (idx.run ops).queryOne o q = .ok x ∧
      (∀ j, ((idxs j).run (sops j)).queryOne (os j) q = .ok (xs j)) ∧
      (x = none ↔ ∀ j, xs j = none) ∧
      ∀ id v, x = some (id, v) → (∃ p, xs (shard id) = some p ∧ p.2 = v) ∧ ∀ j p, xs j = some p → v ≤ p.2 := by
  obtain ⟨s, x, a1, a2, a3, a4⟩ := C53_query_one h ops q o
  choose ss xs b1 b2 b3 b4 using fun j => C53_query_one (hs j) (sops j) q (os j)
  obtain ⟨s', e1, _, e3⟩ := C51_query_exact h ops q
  choose ss' f1 _ f3 using fun j => C51_query_exact (hs j) (sops j) q
  have es : s' = s := Except.ok.inj (e1.symm.trans a1)
  have ess : ss' = ss := funext fun j => Except.ok.inj ((f1 j).symm.trans (b1 j))
  subst es ess
  have hm : ∀ j id, id ∈ (ss' j).elems ↔ shard id = j ∧ id ∈ s'.elems := by
    intro j id
    rw [f3, e3, content]
    by_cases hj : shard id = j <;> simp [hj]
  refine ⟨x, xs, a2, b2, ?_, ?_⟩
  · rw [a3]
    simp only [b3]
    constructor
    · intro h0 j
      rw [List.eq_nil_iff_forall_not_mem]
      intro id hid
      have := ((hm j id).mp hid).2
      rw [h0] at this
      exact List.not_mem_nil this
    · intro h0
      rw [List.eq_nil_iff_forall_not_mem]
      intro id hid
      have := (hm (shard id) id).mpr ⟨rfl, hid⟩
      rw [h0] at this
      exact List.not_mem_nil this
  · intro id v hx
    obtain ⟨c1, ⟨sig, c2, c3⟩, c4⟩ := a4 id v hx
    have hle : ∀ j p, xs j = some p → v ≤ p.2 := by
      intro j p hp
      obtain ⟨d1, ⟨sig', d2, d3⟩, _⟩ := b4 j p.1 p.2 hp
      obtain ⟨g1, g2⟩ := (hm j p.1).mp d1
      rw [content, if_pos g1] at d2
      rw [d3]
      exact c4 p.1 g2 sig' d2
    refine ⟨?_, hle⟩
    have hmem := (hm (shard id) id).mpr ⟨rfl, c1⟩
    cases hxs : xs (shard id) with
    | none =>
      rw [(b3 _).mp hxs] at hmem
      exact absurd hmem List.not_mem_nil
    | some p =>
      refine ⟨p, rfl, Nat.le_antisymm ?_ (hle _ p hxs)⟩
      obtain ⟨_, _, d4⟩ := b4 (shard id) p.1 p.2 hxs
      rw [c3]
      exact d4 id hmem sig (by rw [content, if_pos rfl]; exact c2)

/-- The histories of two shards of signatures; shard 1 inserts twice. -/
def exSimShardOps (j : Fin 2) : List (SimOp 64 Nat) :=
  if j = 0 then [.insert 2 0b11#64] else [.insert 1 0b111#64, .insert 1 0b1#64]

/-- The hypotheses of C125 are met, with 4 blocks in one shard and 5 in the other. -/
example : (∃ idx, SimIndex.new 64 64 Nat 4 3 = .ok idx) ∧
    (∀ j : Fin 2, ∃ idx, SimIndex.new 64 64 Nat (if j = 0 then 4 else 5) 3 = .ok idx) ∧
    ([0, 1] : List (Fin 2)).Nodup ∧ (∀ id, exShard id ∈ ([0, 1] : List (Fin 2))) ∧
    ∀ j id, lastSig (assigned (exSimShardOps j)) id =
      if exShard id = j then lastSig (assigned [SimOp.insert 1 0b1#64, .insert 2 0b11#64]) id else none := by
  refine ⟨new_returns (by decide) (by decide) (by decide), fun j => new_returns ?_ ?_ (by decide), by decide,
    fun id => ?_, fun j id => ?_⟩
  · split <;> decide
  · split <;> decide
  · unfold exShard; split <;> simp
  · by_cases h1 : id = 1
    · subst h1; revert j; decide
    by_cases h2 : id = 2
    · subst h2; revert j; decide
    have h1' : ¬ 1 = id := fun e => h1 e.symm
    have h2' : ¬ 2 = id := fun e => h2 e.symm
    unfold exSimShardOps
    split <;> simp [lastSig, assigned, h1', h2', h1, h2]

end Verif.Props
