import Verif.Spec.Answers
import Verif.Props.SimExact
import Verif.Props.NearestNeighbours
import Mathlib.Algebra.Order.BigOperators.Group.List

/-!
# Property C149: the expected size of an answer

The mean number of documents that a query returns, and of those among them that the user considers right or wrong, is the
sum of the probabilities of the documents, for every collection and every history.
-/
set_option linter.unusedSectionVars false
namespace Verif.Props
open Verif.Spec

open Classical in
/-- The mean of a count is the sum of the probabilities. -/
theorem mean_count {Ω ι : Type} [Fintype Ω] (l : List ι) (E : ι → Ω → Prop) :
    meanValue (fun ω => (((l.filter fun i => decide (E i ω)).length : ℕ) : ℝ)) = (l.map fun i => proportion (E i)).sum := by
  induction l with
  | nil => simp [meanValue]
  | cons i l ih =>
    rw [List.map_cons, List.sum_cons, ← ih]
    have e : (fun ω => ((((i :: l).filter fun j => decide (E j ω)).length : ℕ) : ℝ)) =
        fun ω => (if E i ω then (1 : ℝ) else 0) + (((l.filter fun j => decide (E j ω)).length : ℕ) : ℝ) := by
      funext ω
      by_cases h : E i ω
      · simp [h, add_comm]
      · simp [h]
    rw [e, meanValue_add]
    congr 1
    rw [proportion_eq]
    unfold meanValue
    rw [Finset.sum_ite, Finset.sum_const_zero, add_zero, Finset.sum_const, nsmul_eq_mul, mul_one]

/-- The ids of an answer without duplicates whose ids all belong to documents, counted over the documents. -/
theorem answer_count {Id α : Type} [DecidableEq Id] (docs : List (Id × α)) (hd : (docs.map (·.1)).Nodup) (rel : Id → Bool)
    (ids : List Id) (hn : ids.Nodup) (hsub : ∀ id ∈ ids, id ∈ docs.map (·.1)) :
    (ids.filter rel).length = ((docs.filter fun p => rel p.1).filter fun p => decide (p.1 ∈ ids)).length := by
  rw [← List.length_map (f := fun p : Id × α => p.1)
    (as := (docs.filter fun p => rel p.1).filter fun p => decide (p.1 ∈ ids))]
  refine List.Perm.length_eq ((List.perm_ext_iff_of_nodup (hn.filter _) ?_).mpr fun id => ?_)
  · exact hd.sublist ((List.filter_sublist.trans List.filter_sublist).map _)
  · simp only [List.mem_filter, List.mem_map, decide_eq_true_eq]
    constructor
    · rintro ⟨h1, h2⟩
      obtain ⟨p, hp, rfl⟩ := List.mem_map.mp (hsub id h1)
      exact ⟨p, ⟨⟨hp, h2⟩, h1⟩, rfl⟩
    · rintro ⟨p, ⟨⟨_, h2⟩, h1⟩, rfl⟩
      exact ⟨h1, h2⟩

section minhash
variable {Tok Id : Type} [Fintype Tok] [DecidableEq Tok] [DecidableEq Id]
variable {C : Type} [IdContainer C Id] [LawfulIdContainer C Id]

/-- C149: the mean number of documents of a given kind that a query returns: the sum over the stored documents of that
kind of the probability that coins that show heads with the Jaccard similarity are accepted. -/
theorem C149_minhash (b r : Nat) (t : Fl) (h : List Nat → UInt64) (rank : Tok → Nat) (docs : List (Id × List Tok))
    (B : List Tok) (ops : (Fin (b * r) → Equiv.Perm Tok) → List (Op Nat Id)) (h0 : 0 < b * r) (hn : b * r ≤ 2 ^ 53)
    (hrank : Function.Injective rank) (hd : (docs.map (·.1)).Nodup) (hA : ∀ p ∈ docs, p.2 ≠ []) (hB : B ≠ [])
    (hinj : ∀ l l' : List Nat, l.length = r → l'.length = r → (∀ x ∈ l ++ l', ∃ u, x = rank u) → h l = h l' → l = l')
    (hc : ∀ π, Clean (b * r) (ops π)) (hl : ∀ π, RightLengths (b * r) (ops π))
    (hlive : ∀ π, ∀ p ∈ docs, live (b * r) (ops π) p.1 = some (idealSignature rank (List.ofFn π) p.2))
    (hnone : ∀ π, ∀ id, id ∉ docs.map (·.1) → live (b * r) (ops π) id = none) (rel : Id → Bool) :
    meanValue (fun π : Fin (b * r) → Equiv.Perm Tok =>
      (((answerIds ((After C b r t h (ops π)).query (idealSignature rank (List.ofFn π) B))).filter rel).length : ℝ)) =
    ((docs.filter fun p => rel p.1).map fun p => coins (jaccard p.2 B) fun f => FullRow b r f ∧
      ∃ x, NearestEven Double ((heads f : ℚ) / (b * r : ℕ)) x ∧ Fl.ge (.fin x) t = true).sum := by
  classical
  have e : (docs.filter fun p => rel p.1).map (fun p => coins (jaccard p.2 B) fun f : Fin (b * r) → Bool => FullRow b r f ∧
      ∃ x, NearestEven Double ((heads f : ℚ) / (b * r : ℕ)) x ∧ Fl.ge (.fin x) t = true) =
      (docs.filter fun p => rel p.1).map (fun p => proportion (fun π : Fin (b * r) → Equiv.Perm Tok =>
        ∃ res, (After C b r t h (ops π)).query (idealSignature rank (List.ofFn π) B) = .ok res ∧ p.1 ∈ res.elems)) := by
    refine List.map_congr_left fun p hp => ?_
    have hp' := (List.mem_filter.mp hp).1
    exact (C144_probability b r t h rank p.2 B p.1 ops h0 hn hrank (hA p hp') hB hinj hc hl
      fun π => hlive π p hp').symm
  rw [e, ← mean_count]
  congr 1
  funext π
  obtain ⟨res, hres, _⟩ := C17_query_returns (C := C) b r t h (ops π) (idealSignature rank (List.ofFn π) B) (hl π)
    (by rw [ideal_length, List.length_ofFn])
  rw [hres]
  have := answer_count docs hd rel res.elems res.nodup fun id hid => by
    by_contra hno
    obtain ⟨s, _, hs, _⟩ := C16_query b r t h (ops π) _ res hres id hid
    rw [hnone π id hno] at hs
    cases hs
  show (((res.elems.filter rel).length : ℕ) : ℝ) = _
  rw [this]
  congr 2
  refine List.filter_congr fun p _ => ?_
  rw [decide_eq_decide]
  exact ⟨fun hp => ⟨res, rfl, hp⟩, fun ⟨res', h1, h2⟩ => by cases h1; exact h2⟩

/-- C149: of the documents whose similarity to the query is at most `s`, a query returns in the mean at most as many as
if they all had the similarity `s`; of those whose similarity is at least `s`, at least as many. -/
theorem C149_bounds (b r : Nat) (t : Fl) (h : List Nat → UInt64) (rank : Tok → Nat) (docs : List (Id × List Tok))
    (B : List Tok) (ops : (Fin (b * r) → Equiv.Perm Tok) → List (Op Nat Id)) (h0 : 0 < b * r) (hn : b * r ≤ 2 ^ 53)
    (hrank : Function.Injective rank) (hd : (docs.map (·.1)).Nodup) (hA : ∀ p ∈ docs, p.2 ≠ []) (hB : B ≠ [])
    (hinj : ∀ l l' : List Nat, l.length = r → l'.length = r → (∀ x ∈ l ++ l', ∃ u, x = rank u) → h l = h l' → l = l')
    (hc : ∀ π, Clean (b * r) (ops π)) (hl : ∀ π, RightLengths (b * r) (ops π))
    (hlive : ∀ π, ∀ p ∈ docs, live (b * r) (ops π) p.1 = some (idealSignature rank (List.ofFn π) p.2))
    (hnone : ∀ π, ∀ id, id ∉ docs.map (·.1) → live (b * r) (ops π) id = none) (rel : Id → Bool) (s : ℝ) (hs0 : 0 ≤ s)
    (hs1 : s ≤ 1) :
    ((∀ p ∈ docs, rel p.1 = true → jaccard p.2 B ≤ s) → meanValue (fun π : Fin (b * r) → Equiv.Perm Tok =>
      (((answerIds ((After C b r t h (ops π)).query (idealSignature rank (List.ofFn π) B))).filter rel).length : ℝ)) ≤
      ((docs.filter fun p => rel p.1).length : ℝ) * coins s (Accepted b r t)) ∧
    ((∀ p ∈ docs, rel p.1 = true → s ≤ jaccard p.2 B) →
      ((docs.filter fun p => rel p.1).length : ℝ) * coins s (Accepted b r t) ≤
      meanValue (fun π : Fin (b * r) → Equiv.Perm Tok =>
      (((answerIds ((After C b r t h (ops π)).query (idealSignature rank (List.ofFn π) B))).filter rel).length : ℝ))) := by
  rw [C149_minhash b r t h rank docs B ops h0 hn hrank hd hA hB hinj hc hl hlive hnone rel]
  have key : ∀ x : ℝ, ((docs.filter fun p => rel p.1).length : ℝ) * x = ((docs.filter fun p => rel p.1).map fun _ => x).sum := by
    intro x
    rw [List.map_const', List.sum_replicate, nsmul_eq_mul]
  rw [key]
  refine ⟨fun hj => List.sum_le_sum fun p hp => ?_, fun hj => List.sum_le_sum fun p hp => ?_⟩
  · have := List.mem_filter.mp hp
    exact coins_mono (jaccard_nonneg _ _) (hj p this.1 this.2) hs1 fun f g => accepted_mono b r t f g
  · have := List.mem_filter.mp hp
    exact coins_mono hs0 (hj p this.1 this.2) (jaccard_le_one _ _) fun f g => accepted_mono b r t f g

end minhash

section example_minhash

theorem accepted_one (f : Fin (1 * 1) → Bool) : Accepted 1 1 (.fin (1 / 2)) f ↔ f 0 = true := by
  constructor
  · rintro ⟨⟨i, hi, h⟩, _⟩
    exact h 0 (by simp; omega) (by simp)
  · intro h
    have hall : ∀ j : Fin (1 * 1), f j = true := fun j => by
      have : j = 0 := Fin.ext (by have := j.isLt; simp at this ⊢)
      rw [this, h]
    refine ⟨⟨0, by norm_num, fun j _ _ => hall j⟩, 1, ?_, by decide +kernel⟩
    have e : heads f = 1 := by
      unfold heads
      rw [Finset.filter_true_of_mem fun i _ => hall i]
      rfl
    rw [e]
    have hr : rndQ b64 ((1 : ℕ) / (1 * 1 : ℕ) : ℚ) = 1 := by decide +kernel
    rw [← hr]
    exact rnd_double (rnd_of_bounds b64_ok (by norm_num) (k := 0) (by simp [b64]) (by simp [b64]) (by norm_num))

theorem coins_one (p : ℝ) : coins p (Accepted 1 1 (.fin (1 / 2))) = p := by
  rw [coins_congr p accepted_one]
  refine (coins_succ 0 p _).trans ?_
  simp [coins]

/-- Two documents inserted under their positions. -/
def twoOps (π : Fin (1 * 1) → Equiv.Perm (Fin 3)) : List (Op Nat Nat) :=
  ([[0, 1], [0]] : List (List (Fin 3))).zipIdx.map fun p => .insert p.2 (idealSignature Fin.val (List.ofFn π) p.1)

theorem twoOps_ok :
    (∀ l l' : List Nat, l.length = 1 → l'.length = 1 → (∀ x ∈ l ++ l', ∃ u : Fin 3, x = u.val) →
      UInt64.ofNat (l.headD 0) = UInt64.ofNat (l'.headD 0) → l = l') ∧
    (∀ π, Clean (1 * 1) (twoOps π)) ∧ (∀ π, RightLengths (1 * 1) (twoOps π)) ∧
    (∀ π, ∀ p ∈ ([(0, [0, 1]), (1, [0])] : List (Nat × List (Fin 3))),
      live (1 * 1) (twoOps π) p.1 = some (idealSignature Fin.val (List.ofFn π) p.2)) ∧
    ∀ π, ∀ id, id ∉ ([(0, [0, 1]), (1, [0])] : List (Nat × List (Fin 3))).map (·.1) →
      live (1 * 1) (twoOps π) id = none := by
  have hlen : ∀ (π : Fin (1 * 1) → Equiv.Perm (Fin 3)) (X : List (Fin 3)),
      (idealSignature Fin.val (List.ofFn π) X).length = 1 * 1 := by
    intro π X; rw [ideal_length, List.length_ofFn]
  refine ⟨?_, fun π => clean_zipIdx _ _ (hlen π) _, ?_, ?_, ?_⟩
  · intro l l' h1 h2 h3 h4
    obtain ⟨a, rfl⟩ := List.length_eq_one_iff.mp h1
    obtain ⟨c, rfl⟩ := List.length_eq_one_iff.mp h2
    obtain ⟨u, rfl⟩ := h3 a (by simp)
    obtain ⟨v, rfl⟩ := h3 c (by simp)
    simp only [List.headD_cons] at h4
    have : ∀ u v : Fin 3, UInt64.ofNat u.val = UInt64.ofNat v.val → u = v := by decide +kernel
    rw [this u v h4]
  · intro π op hop s hs
    obtain ⟨p, _, rfl⟩ := List.mem_map.mp hop
    simp only [sigsOf, List.mem_singleton] at hs
    rw [hs, hlen]
  · intro π p hp
    unfold twoOps
    rw [live_zipIdx _ _ (hlen π)]
    simp only [List.mem_cons, List.not_mem_nil, or_false] at hp
    rcases hp with rfl | rfl <;> rfl
  · intro π id hid
    unfold twoOps
    rw [live_zipIdx _ _ (hlen π)]
    simp only [List.map_cons, List.map_nil, List.mem_cons, List.not_mem_nil, or_false, not_or] at hid
    rw [List.getElem?_eq_none (by simp; omega)]
    rfl

theorem two_jaccard : jaccard ([0, 1] : List (Fin 3)) [0] = 1 / 2 ∧ jaccard ([0] : List (Fin 3)) [0] = 1 := by
  constructor
  · refine (jaccard_cards (i := 1) (u := 2) ?_ ?_).trans (by norm_num) <;> decide
  · refine (jaccard_cards (i := 1) (u := 1) ?_ ?_).trans (by norm_num) <;> decide

/-- One band of one component, threshold 0.5, documents `[0, 1]` and `[0]`, query `[0]`: in the mean 1.5 ids are
returned. -/
example : meanValue (fun π : Fin (1 * 1) → Equiv.Perm (Fin 3) =>
    (((answerIds ((After (HashSetContainer Nat) 1 1 (.fin (1 / 2)) (fun l => UInt64.ofNat (l.headD 0)) (twoOps π)).query
      (idealSignature Fin.val (List.ofFn π) [0]))).filter fun _ => true).length : ℝ)) = 3 / 2 := by
  obtain ⟨a1, a2, a3, a4, a5⟩ := twoOps_ok
  refine (C149_minhash (C := HashSetContainer Nat) 1 1 (.fin (1 / 2)) (fun l => UInt64.ofNat (l.headD 0)) Fin.val
    ([(0, [0, 1]), (1, [0])] : List (Nat × List (Fin 3))) [0] twoOps (by norm_num) (by norm_num) Fin.val_injective
    (by decide) (by decide) (by decide) a1 a2 a3 a4 a5 fun _ => true).trans ?_
  show (List.map (fun p : Nat × List (Fin 3) => coins (jaccard p.2 [0]) (Accepted 1 1 (.fin (1 / 2)))) _).sum = _
  simp only [coins_one, List.filter_true, List.map_cons, List.map_nil, List.sum_cons, List.sum_nil, two_jaccard.1,
    two_jaccard.2]
  norm_num

/-- In the same index, in the mean at most half a document other than the one with the same words is returned. -/
example : meanValue (fun π : Fin (1 * 1) → Equiv.Perm (Fin 3) =>
    (((answerIds ((After (HashSetContainer Nat) 1 1 (.fin (1 / 2)) (fun l => UInt64.ofNat (l.headD 0)) (twoOps π)).query
      (idealSignature Fin.val (List.ofFn π) [0]))).filter (· != 1)).length : ℝ)) ≤ 1 / 2 := by
  obtain ⟨a1, a2, a3, a4, a5⟩ := twoOps_ok
  refine ((C149_bounds (C := HashSetContainer Nat) 1 1 (.fin (1 / 2)) (fun l => UInt64.ofNat (l.headD 0)) Fin.val
    ([(0, [0, 1]), (1, [0])] : List (Nat × List (Fin 3))) [0] twoOps (by norm_num) (by norm_num) Fin.val_injective
    (by decide) (by decide) (by decide) a1 a2 a3 a4 a5 (· != 1) (1 / 2) (by norm_num) (by norm_num)).1 ?_).trans ?_
  · intro p hp hr
    simp only [List.mem_cons, List.not_mem_nil, or_false] at hp
    rcases hp with rfl | rfl
    · exact two_jaccard.1.le
    · exact absurd hr (by decide)
  · rw [coins_one]
    norm_num

end example_minhash

section simhash
variable {w : Nat} {Tok : Type} [Fintype Tok] [DecidableEq Tok] {Id : Type} [DecidableEq Id]

/-- C149: the same for the SimHash index: the sum of the binomial probabilities of the documents. -/
theorem C149_simhash {fuel nb d : Nat} {idx : SimIndex w Id} (hw : 2 ≤ w)
    (hidx : SimIndex.new fuel w Id nb d = .ok idx) (docs : List (Id × List Tok)) (B : List Tok)
    (ops : (Tok → BitVec w) → List (SimOp w Id)) (hd : (docs.map (·.1)).Nodup)
    (hlast : ∀ h, ∀ p ∈ docs, lastSig (assigned (ops h)) p.1 = some (simSignature w (p.2.map h)))
    (hnone : ∀ h, ∀ id, id ∉ docs.map (·.1) → lastSig (assigned (ops h)) id = none) (rel : Id → Bool) :
    meanValue (fun h : Tok → BitVec w =>
      (((answerIds ((idx.run (ops h)).query (simSignature w (B.map h)))).filter rel).length : ℝ)) =
    ((docs.filter fun p => rel p.1).map fun p => ∑ k ∈ (Finset.range (w + 1)).filter (· < d),
      (w.choose k : ℝ) * ((meanDistance w p.2 B / w) ^ k * (1 - meanDistance w p.2 B / w) ^ (w - k))).sum := by
  classical
  have hw' : (w : ℝ) ≠ 0 := by
    have : w ≠ 0 := by omega
    exact_mod_cast this
  have e : (docs.filter fun p => rel p.1).map (fun p => ∑ k ∈ (Finset.range (w + 1)).filter (· < d),
      (w.choose k : ℝ) * ((meanDistance w p.2 B / w) ^ k * (1 - meanDistance w p.2 B / w) ^ (w - k))) =
      (docs.filter fun p => rel p.1).map (fun p => proportion (fun h : Tok → BitVec w =>
        ∃ s, (idx.run (ops h)).query (simSignature w (B.map h)) = .ok s ∧ p.1 ∈ s.elems)) := by
    refine List.map_congr_left fun p hp => ?_
    have hp' := (List.mem_filter.mp hp).1
    exact (C145_probability hw hidx p.2 B p.1 ops (fun h => hlast h p hp') _ (by field_simp)).symm
  rw [e, ← mean_count]
  congr 1
  funext h
  obtain ⟨s, hs, _, hmem⟩ := C51_query_exact hidx (ops h) (simSignature w (B.map h))
  rw [hs]
  have := answer_count docs hd rel s.elems s.nodup fun id hid => by
    by_contra hno
    obtain ⟨sig, h1, _⟩ := (hmem id).mp hid
    rw [hnone h id hno] at h1
    cases h1
  show (((s.elems.filter rel).length : ℕ) : ℝ) = _
  rw [this]
  congr 2
  refine List.filter_congr fun p _ => ?_
  rw [decide_eq_decide]
  exact ⟨fun hp => ⟨s, rfl, hp⟩, fun ⟨s', h1, h2⟩ => by cases h1; exact h2⟩

/-- A SimHash index of 64 bits and maximum distance 13 with two documents: a query returns more than 0.57 ids in the
mean. -/
example : ∃ idx : SimIndex 64 Nat, SimIndex.new 64 64 Nat 15 13 = .ok idx ∧
    57 / 100 < meanValue (fun h : Fin 4 → BitVec 64 =>
      (((answerIds ((idx.run [.insert 0 (simSignature 64 (([0, 1, 2] : List (Fin 4)).map h)),
        .insert 1 (simSignature 64 (([0, 1, 2, 3] : List (Fin 4)).map h))]).query
        (simSignature 64 (([0, 1] : List (Fin 4)).map h)))).filter fun _ => true).length : ℝ)) := by
  obtain ⟨idx, hidx⟩ := C51_new_returns (w := 64) (Id := Nat) 15 13 64 (by omega) (by omega) (by omega)
  refine ⟨idx, hidx, ?_⟩
  have hl1 : ∀ h : Fin 4 → BitVec 64, lastSig (assigned [SimOp.insert 0 (simSignature 64 (([0, 1, 2] : List (Fin 4)).map h)),
        .insert 1 (simSignature 64 (([0, 1, 2, 3] : List (Fin 4)).map h))]) 1 =
      some (simSignature 64 (([0, 1, 2, 3] : List (Fin 4)).map h)) := fun h => by simp [assigned, lastSig]
  have hl0 : ∀ h : Fin 4 → BitVec 64, lastSig (assigned [SimOp.insert 0 (simSignature 64 (([0, 1, 2] : List (Fin 4)).map h)),
        .insert 1 (simSignature 64 (([0, 1, 2, 3] : List (Fin 4)).map h))]) 0 =
      some (simSignature 64 (([0, 1, 2] : List (Fin 4)).map h)) := fun h => by simp [assigned, lastSig]
  obtain ⟨_, _, m1, m0, _⟩ := C145_longer_nearer (by omega) hidx (0 : Fin 4) 1 2 3 (by decide) 1 0 _ _ hl1 hl0
  rw [C149_simhash (by omega) hidx ([(0, [0, 1, 2]), (1, [0, 1, 2, 3])] : List (Nat × List (Fin 4))) [0, 1] _ (by decide)
    (by
      intro h p hp
      simp only [List.mem_cons, List.not_mem_nil, or_false] at hp
      rcases hp with rfl | rfl
      · exact hl0 h
      · exact hl1 h)
    (by
      intro h id hid
      simp only [List.map_cons, List.map_nil, List.mem_cons, List.not_mem_nil, or_false, not_or] at hid
      simp [assigned, lastSig, Ne.symm hid.1, Ne.symm hid.2])]
  obtain ⟨_, n1⟩ := binomial_numbers
  have hS : ∀ k ∈ (Finset.range (64 + 1)).filter (· < 13), k ≤ 64 := by
    intro k hk
    have := (Finset.mem_filter.mp hk).1
    rw [Finset.mem_range] at this
    omega
  simp only [List.filter_true, List.map_cons, List.map_nil, List.sum_cons, List.sum_nil, add_zero]
  have e1 : meanDistance 64 ([0, 1, 2, 3] : List (Fin 4)) [0, 1] / (64 : ℕ) = ((3 : ℕ) : ℝ) / ((3 : ℕ) + (13 : ℕ)) := by
    rw [m1]; norm_num
  have e0 : meanDistance 64 ([0, 1, 2] : List (Fin 4)) [0, 1] / (64 : ℕ) = ((1 : ℕ) : ℝ) / ((1 : ℕ) + (3 : ℕ)) := by
    rw [m0]; norm_num
  rw [e1, e0, binomial_scaled 64 3 13 (by norm_num) _ hS, binomial_scaled 64 1 3 (by norm_num) _ hS]
  have hlt : (57 : ℝ) / 100 < ((∑ k ∈ (Finset.range (64 + 1)).filter (· < 13), Nat.choose 64 k * (3 ^ k * 13 ^ (64 - k)) : ℕ) : ℝ) /
      ((3 + 13 : ℕ) : ℝ) ^ 64 := by
    rw [div_lt_div_iff₀ (by norm_num) (by positivity)]
    exact_mod_cast n1
  exact hlt.trans_le (le_add_of_nonneg_left (div_nonneg (Nat.cast_nonneg _) (pow_nonneg (Nat.cast_nonneg _) _)))

end simhash

end Verif.Props
