import Verif.Spec.SimError
import Verif.Props.SimHoeffding
import Verif.Props.Separation

/-!
# Property C142: answers and deduplication with SimHash, in terms of the mean distance
-/
set_option linter.unusedSectionVars false
namespace Verif.Props
open Verif.Spec

section pairs
variable {w : Nat} {Tok : Type} [Fintype Tok] [DecidableEq Tok]

/-- The distance of two signatures is on the same side of `d` as their mean distance. -/
def SimDecides (w d : Nat) (h : Tok → BitVec w) (A B : List Tok) : Prop :=
  hammingDistance (simSignature w (A.map h)) (simSignature w (B.map h)) < d ↔ meanDistance w A B < d

theorem simDecides_wrong (hw : 2 ≤ w) (d : Nat) (A B : List Tok) :
    proportion (fun h : Tok → BitVec w => ¬ SimDecides w d h A B) ≤ simError w d (meanDistance w A B) := by
  unfold simError
  split
  · rename_i hm
    refine le_trans (proportion_mono fun h hw => ?_) (C117_above hw A B (sub_pos.mpr hm))
    have : ¬ hammingDistance (simSignature w (A.map h)) (simSignature w (B.map h)) < d := fun hlt =>
      hw ⟨fun _ => hm, fun _ => hlt⟩
    have : (d : ℝ) ≤ hammingDistance (simSignature w (A.map h)) (simSignature w (B.map h)) := by
      exact_mod_cast not_lt.mp this
    linarith
  · rename_i hm
    rw [not_lt] at hm
    refine le_trans (proportion_mono fun h hw => ?_) (C117_below hw A B
      (show 0 < meanDistance w A B - d + 1 by linarith))
    have : hammingDistance (simSignature w (A.map h)) (simSignature w (B.map h)) < d := by
      by_contra hlt
      exact hw ⟨fun h' => absurd h' hlt, fun h' => absurd h' (not_lt.mpr hm)⟩
    have : (hammingDistance (simSignature w (A.map h)) (simSignature w (B.map h)) : ℝ) + 1 ≤ d := by exact_mod_cast this
    linarith

/-- The probability that all pairs are decided rightly. -/
theorem simDecides_all (hw : 2 ≤ w) (d : Nat) (pairs : List (List Tok × List Tok)) (E : (Tok → BitVec w) → Prop)
    (hE : ∀ h, (∀ p ∈ pairs, SimDecides w d h p.1 p.2) → E h) :
    1 - (pairs.map fun p => simError w d (meanDistance w p.1 p.2)).sum ≤ proportion E := by
  have h1 := proportion_exists_sum pairs (fun p (h : Tok → BitVec w) => ¬ SimDecides w d h p.1 p.2)
    (fun p => simError w d (meanDistance w p.1 p.2)) fun p _ => simDecides_wrong hw d p.1 p.2
  have h2 := proportion_not E
  have h3 : proportion (fun h => ¬ E h) ≤ proportion (fun h => ∃ p ∈ pairs, ¬ SimDecides w d h p.1 p.2) := by
    refine proportion_mono fun h hw => ?_
    by_contra hno
    exact hw (hE h fun p hm => by_contra fun hd => hno ⟨p, hm, hd⟩)
  linarith

end pairs

section index
variable {w : Nat} {Tok : Type} [Fintype Tok] [DecidableEq Tok] {Id : Type} [DecidableEq Id]

/-- C142: all queries answered exactly. After every history in which the documents `content` (taken from `docs`) were
last inserted, every query out of `queries` returns exactly the documents whose signatures have a mean distance below the
maximum, but for a probability of at most the sum of the errors of all pairs. -/
theorem C142_answers {fuel nb d : Nat} {idx : SimIndex w Id} (hw : 2 ≤ w)
    (hidx : SimIndex.new fuel w Id nb d = .ok idx) (content : Id → Option (List Tok)) (docs queries : List (List Tok))
    (ops : (Tok → BitVec w) → List (SimOp w Id)) (hcd : ∀ id A, content id = some A → A ∈ docs)
    (hlast : ∀ h id, lastSig (assigned (ops h)) id = (content id).map fun A => simSignature w (A.map h)) :
    1 - ((docs ×ˢ queries).map fun p => simError w d (meanDistance w p.1 p.2)).sum ≤
      proportion (fun h : Tok → BitVec w => ∀ B ∈ queries, ∃ s,
        (idx.run (ops h)).query (simSignature w (B.map h)) = .ok s ∧
          ∀ id, id ∈ s.elems ↔ ∃ A, content id = some A ∧ meanDistance w A B < d) := by
  refine simDecides_all hw d _ _ fun h hall B hB => ?_
  obtain ⟨s, e, _, hs⟩ := C51_query_exact hidx (ops h) (simSignature w (B.map h))
  refine ⟨s, e, fun id => ?_⟩
  rw [hs, hlast]
  constructor
  · rintro ⟨sig, h1, h2⟩
    obtain ⟨A, hA, rfl⟩ := Option.map_eq_some_iff.mp h1
    rw [diffBits_comm, ← hamming_card] at h2
    exact ⟨A, hA, (hall (A, B) (List.mem_product.mpr ⟨hcd id A hA, hB⟩)).mp h2⟩
  · rintro ⟨A, hA, h2⟩
    refine ⟨_, by rw [hA]; rfl, ?_⟩
    rw [diffBits_comm, ← hamming_card]
    exact (hall (A, B) (List.mem_product.mpr ⟨hcd id A hA, hB⟩)).mpr h2

/-- C142: one-pass deduplication keeps exactly the documents that first fit keeps with the mean distances. -/
theorem C142_dedup {fuel nb d : Nat} {idx : SimIndex w Id} (hw : 2 ≤ w) (hidx : SimIndex.new fuel w Id nb d = .ok idx)
    (docs : List (Id × List Tok)) (hnd : (docs.map Prod.fst).Nodup) :
    1 - ((docs ×ˢ docs).map fun p => simError w d (meanDistance w p.1.2 p.2.2)).sum ≤
      proportion (fun h : Tok → BitVec w => ∃ (idx' : SimIndex w Id) (kept : List (Id × List Tok)),
        keepNew (fun (i : SimIndex w Id) q => (i.queryOwned q).map HSet.elems) (fun i id s => (i.insert id s, .ok ()))
          idx (docs.map fun p => (p.1, simSignature w (p.2.map h))) =
          .ok (idx', kept.map fun p => (p.1, simSignature w (p.2.map h))) ∧
        FirstFit (fun A B => meanDistance w A B < d) docs kept ∧
        (∀ k ∈ kept, ∀ k' ∈ kept, k ≠ k' → (d : ℝ) ≤ meanDistance w k.2 k'.2) ∧
        ∀ p ∈ docs, p ∉ kept → ∃ k ∈ kept, meanDistance w k.2 p.2 < d) := by
  have key := simDecides_all hw d ((docs ×ˢ docs).map fun p => (p.1.2, p.2.2))
  rw [List.map_map] at key
  refine key _ fun h hall => ?_
  obtain ⟨idx', kept', e1, e2, e3, e4, _⟩ := C128_simhash hidx (docs.map fun p => (p.1, simSignature w (p.2.map h)))
    (by rw [List.map_map]; exact hnd)
  obtain ⟨kept, rfl, f1, f2, f3⟩ := firstFit_map (f := fun A => simSignature w (A.map h))
    (N := fun s q => (diffBits s q).card < d)
    (sim := fun A B => meanDistance w A B < d) hnd (fun p hp q hq => by
      have := hall (p.2, q.2) (List.mem_map.mpr ⟨(p, q), List.mem_product.mpr ⟨hp, hq⟩, rfl⟩)
      unfold SimDecides at this
      rw [← hamming_card]
      exact this) e2 (fun k hk k' hk' hne => not_lt.mpr (e3 k hk k' hk' hne)) e4
  exact ⟨idx', kept, e1, f1, fun k hk k' hk' hne => not_lt.mp (f2 k hk k' hk' hne), f3⟩

theorem meanDistance_self (A : List Tok) : meanDistance w A A = 0 := by
  unfold meanDistance
  have : (fun h : Tok → BitVec w => (hammingDistance (simSignature w (A.map h)) (simSignature w (A.map h)) : ℝ)) =
      fun _ => 0 := by
    funext h
    rw [((C46_metric _ _ 0#w).2.1).mpr rfl, Nat.cast_zero]
  rw [this]
  simp [meanValue]

/-- The numbers of the examples below. -/
theorem simError_small : simError 64 10 0 ≤ 1 / 19 ∧ simError 64 10 32 ≤ 1 / 360 := by
  have h2 : (2.7 : ℝ) < Real.exp 1 := lt_trans (by norm_num) Real.exp_one_gt_d9
  have e3 : Real.exp (-3) ≤ 1 / 19 := by
    rw [Real.exp_neg, show Real.exp 3 = Real.exp 1 ^ 3 by rw [← Real.exp_nat_mul]; norm_num, inv_le_comm₀ (by positivity)
      (by norm_num)]
    calc ((1 / 19 : ℝ))⁻¹ ≤ 2.7 ^ 3 := by norm_num
      _ ≤ Real.exp 1 ^ 3 := by gcongr
  have e6 : Real.exp (-6) ≤ 1 / 360 := by
    have : Real.exp (-6) = Real.exp (-3) * Real.exp (-3) := by rw [← Real.exp_add]; norm_num
    rw [this]
    calc _ ≤ (1 / 19 : ℝ) * (1 / 19) := by gcongr
      _ ≤ _ := by norm_num
  constructor
  · unfold simError
    rw [if_pos (by norm_num)]
    refine (Real.exp_le_exp.mpr ?_).trans e3
    norm_num
  · unfold simError
    rw [if_neg (by norm_num)]
    refine (Real.exp_le_exp.mpr ?_).trans e6
    norm_num

/-- C142 deduplicates these two documents rightly with a probability of at least 4/5. -/
example : ∃ idx : SimIndex 64 Nat, SimIndex.new 64 64 Nat 12 10 = .ok idx ∧
    4 / 5 ≤ proportion (fun h : Fin 5 → BitVec 64 => ∃ (idx' : SimIndex 64 Nat) (kept : List (Nat × List (Fin 5))),
      keepNew (fun (i : SimIndex 64 Nat) q => (i.queryOwned q).map HSet.elems) (fun i id s => (i.insert id s, .ok ()))
        idx (([(0, [3]), (1, [0, 1, 1])] : List (Nat × List (Fin 5))).map fun p => (p.1, simSignature 64 (p.2.map h))) =
        .ok (idx', kept.map fun p => (p.1, simSignature 64 (p.2.map h))) ∧ (0, [3]) ∈ kept ∧ (1, [0, 1, 1]) ∈ kept) := by
  obtain ⟨idx, hidx⟩ := C51_new_returns (w := 64) (Id := Nat) 12 10 64 (by omega) (by omega) (by omega)
  refine ⟨idx, hidx, ?_⟩
  have m0 : ∀ A : List (Fin 5), meanDistance 64 A A = 0 := meanDistance_self
  have m1 : meanDistance 64 ([0, 1, 1] : List (Fin 5)) [3] = 32 := by
    rw [C117_unrelated_mean (by omega) _ _ (by decide) (by decide)]
    norm_num
  have m2 : meanDistance 64 ([3] : List (Fin 5)) [0, 1, 1] = 32 := by
    rw [C117_unrelated_mean (by omega) _ _ (by decide) (by decide)]
    norm_num
  have key := C142_dedup (by omega) hidx ([(0, [3]), (1, [0, 1, 1])] : List (Nat × List (Fin 5))) (by decide)
  have e : (([(0, [3]), (1, [0, 1, 1])] : List (Nat × List (Fin 5))) ×ˢ
      ([(0, [3]), (1, [0, 1, 1])] : List (Nat × List (Fin 5)))).map
      (fun p => simError 64 10 (meanDistance 64 p.1.2 p.2.2)) =
      [simError 64 10 (meanDistance 64 ([3] : List (Fin 5)) [3]),
        simError 64 10 (meanDistance 64 ([3] : List (Fin 5)) [0, 1, 1]),
        simError 64 10 (meanDistance 64 ([0, 1, 1] : List (Fin 5)) [3]),
        simError 64 10 (meanDistance 64 ([0, 1, 1] : List (Fin 5)) [0, 1, 1])] := rfl
  rw [e, m0, m0, m1, m2] at key
  simp only [List.sum_cons, List.sum_nil] at key
  have := simError_small
  refine le_trans (by linarith) (key.trans (proportion_mono fun h hp => ?_))
  obtain ⟨idx', kept, e1, e2, e3, e4⟩ := hp
  refine ⟨idx', kept, e1, ?_⟩
  have hsub : ∀ k ∈ kept, k = (0, [3]) ∨ k = (1, [0, 1, 1]) := fun k hk => by
    simpa using e2.sub.subset hk
  constructor
  · by_contra hn
    obtain ⟨k, hk, hd⟩ := e4 (0, [3]) (by simp) hn
    rcases hsub k hk with rfl | rfl
    · exact hn hk
    · rw [m1] at hd; norm_num at hd
  · by_contra hn
    obtain ⟨k, hk, hd⟩ := e4 (1, [0, 1, 1]) (by simp) hn
    rcases hsub k hk with rfl | rfl
    · rw [m2] at hd; norm_num at hd
    · exact hn hk

/-- Two documents without common words and 64 bits: a query for one of them at distance ten returns it and not the other
with a probability of at least 0.9. -/
example : ∃ idx : SimIndex 64 Nat, SimIndex.new 64 64 Nat 12 10 = .ok idx ∧
    9 / 10 ≤ proportion (fun h : Fin 5 → BitVec 64 => ∃ s,
      (idx.run [.insert 0 (simSignature 64 (([3] : List (Fin 5)).map h)),
        .insert 1 (simSignature 64 (([0, 1, 1] : List (Fin 5)).map h))]).query
        (simSignature 64 (([3] : List (Fin 5)).map h)) = .ok s ∧ ∀ id, id ∈ s.elems ↔ id = 0) := by
  obtain ⟨idx, hidx⟩ := C51_new_returns (w := 64) (Id := Nat) 12 10 64 (by omega) (by omega) (by omega)
  refine ⟨idx, hidx, ?_⟩
  have m0 : meanDistance 64 ([3] : List (Fin 5)) [3] = 0 := meanDistance_self _
  have m1 : meanDistance 64 ([0, 1, 1] : List (Fin 5)) [3] = 32 := by
    rw [C117_unrelated_mean (by omega) _ _ (by decide) (by decide)]
    norm_num
  have key := C142_answers (by omega) hidx (fun id => ([[3], [0, 1, 1]] : List (List (Fin 5)))[id]?)
    [[3], [0, 1, 1]] [[3]]
    (fun h => [.insert 0 (simSignature 64 (([3] : List (Fin 5)).map h)),
      .insert 1 (simSignature 64 (([0, 1, 1] : List (Fin 5)).map h))])
    (fun id A hA => List.mem_of_getElem? hA) (fun h id => by
      match id with
      | 0 => simp [assigned, lastSig]
      | 1 => simp [assigned, lastSig]
      | id + 2 => simp [assigned, lastSig])
  have e : (([[3], [0, 1, 1]] : List (List (Fin 5))) ×ˢ ([[3]] : List (List (Fin 5)))).map
      (fun p => simError 64 10 (meanDistance 64 p.1 p.2)) =
      [simError 64 10 (meanDistance 64 ([3] : List (Fin 5)) [3]),
        simError 64 10 (meanDistance 64 ([0, 1, 1] : List (Fin 5)) [3])] := rfl
  rw [e, m0, m1] at key
  obtain ⟨s0, s1⟩ := simError_small
  simp only [List.sum_cons, List.sum_nil] at key
  refine le_trans (by linarith) (key.trans (proportion_mono fun h hp => ?_))
  obtain ⟨s, h1, h2⟩ := hp _ (List.mem_singleton.mpr rfl)
  refine ⟨s, h1, fun id => ?_⟩
  rw [h2 id]
  match id with
  | 0 => exact ⟨fun _ => rfl, fun _ => ⟨_, rfl, by rw [m0]; norm_num⟩⟩
  | 1 =>
    refine ⟨?_, fun h => absurd h (by norm_num)⟩
    rintro ⟨A, hA, hj⟩
    cases hA
    rw [m1] at hj
    norm_num at hj
  | id + 2 =>
    refine ⟨?_, fun h => by omega⟩
    rintro ⟨A, hA, _⟩
    simp at hA

end index
end Verif.Props
