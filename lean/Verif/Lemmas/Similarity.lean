import Verif.Model.Similarity
import Verif.Spec.Similarity
import Verif.Lemmas.Ratio
import Verif.Lemmas.Prelude
import Mathlib.Data.List.Dedup
import Mathlib.Algebra.Order.BigOperators.Group.Finset
import Mathlib.Algebra.BigOperators.Intervals

namespace Verif
open Spec

variable {T : Type} [DecidableEq T]

theorem simMatches_cons (x y : T) (a b : List T) :
    simMatches (x :: a) (y :: b) = (if x = y then 1 else 0) + simMatches a b := by
  simp [simMatches]

theorem simMatches_eq_agree : ∀ (a b : List T), a.length = b.length → simMatches a b = agree a b := by
  intro a
  induction a with
  | nil => intro b _; simp [simMatches, agree]
  | cons x a ih =>
    intro b hb
    cases b with
    | nil => simp at hb
    | cons y b =>
      simp only [List.length_cons, Nat.add_right_cancel_iff] at hb
      rw [simMatches_cons, ih b hb]
      unfold agree
      rw [Finset.card_filter, Finset.card_filter, List.length_cons, Finset.sum_range_succ']
      simp [add_comm]

theorem agree_le (a b : List T) : agree a b ≤ a.length := by
  unfold agree
  exact (Finset.card_filter_le _ _).trans (by simp)

theorem agree_comm (a b : List T) (h : a.length = b.length) : agree a b = agree b a := by
  unfold agree
  rw [h]
  congr 1
  ext i
  simp [eq_comm]

theorem agree_eq_length_iff (a b : List T) (h : a.length = b.length) :
    agree a b = a.length ↔ a = b := by
  unfold agree
  constructor
  · intro hc
    have : (Finset.range a.length).filter (fun i => a[i]? = b[i]?) = Finset.range a.length := by
      apply Finset.eq_of_subset_of_card_le (Finset.filter_subset _ _)
      rw [hc]; simp
    rw [Finset.filter_eq_self] at this
    apply List.ext_getElem?
    intro i
    by_cases hi : i < a.length
    · exact this i (by simpa using hi)
    · rw [List.getElem?_eq_none (by omega), List.getElem?_eq_none (by omega)]
  · rintro rfl; simp

theorem agree_eq_zero_iff (a b : List T) :
    agree a b = 0 ↔ ∀ i < a.length, a[i]? ≠ b[i]? := by
  unfold agree
  rw [Finset.card_eq_zero, Finset.filter_eq_empty_iff]
  simp

theorem agree_self (a : List T) : agree a a = a.length := by
  simp [agree]

/-- The value of the similarity for lengths exactly representable. -/
theorem minhashSimilarity_eq {a b : List T} (h : a.length = b.length) (h0 : 0 < a.length)
    (hn : a.length ≤ 2 ^ 53) :
    minhashSimilarity a b = .ok (.fin (rndQ b64 ((agree a b : ℚ) / a.length))) := by
  unfold minhashSimilarity
  rw [if_pos h, simMatches_eq_agree a b h, div_ofNat b64_ok (agree_le a b) h0 (by simpa [b64] using hn)]

theorem minhashSimilarity_ok {a b : List T} (h : a.length = b.length) :
    ∃ s, minhashSimilarity a b = .ok s := by
  unfold minhashSimilarity
  rw [if_pos h]; exact ⟨_, rfl⟩

theorem minhashSimilarity_ok_iff {a b : List T} :
    (∃ s, minhashSimilarity a b = .ok s) ↔ a.length = b.length := by
  constructor
  · rintro ⟨s, hs⟩
    unfold minhashSimilarity at hs
    split_ifs at hs with h
    exact h
  · exact minhashSimilarity_ok

theorem minhashSimilarity_comm (a b : List T) : minhashSimilarity a b = minhashSimilarity b a := by
  unfold minhashSimilarity
  by_cases h : a.length = b.length
  · rw [if_pos h, if_pos h.symm, simMatches_eq_agree a b h, simMatches_eq_agree b a h.symm,
      agree_comm a b h, h]
  · rw [if_neg h, if_neg (Ne.symm h)]

theorem ratio_unit {m n : ℕ} (h : m ≤ n) : (0 : ℚ) ≤ (m : ℚ) / n ∧ (m : ℚ) / n ≤ 1 := by
  refine ⟨by positivity, ?_⟩
  rcases Nat.eq_zero_or_pos n with h0 | h0
  · subst h0; simp
  · rw [div_le_one (by exact_mod_cast h0)]; exact_mod_cast h

/-! ### The threshold pre-check -/

theorem gtThresholdLoop_spec (expected : Nat) (he : expected ≤ u32Max) :
    ∀ (l : List (T × T)) (num : Nat), l ≠ [] → num ≤ u32Max → (num < expected ∨ num < u32Max) →
    gtThresholdLoop expected l num =
      .ok (decide (expected ≤ num + (l.map fun p => if p.1 = p.2 then 1 else 0).sum)) := by
  intro l
  induction l with
  | nil => intro _ h; exact absurd rfl h
  | cons p ps ih =>
    intro num _ hnum hlt
    have hne : num ≠ u32Max := by omega
    unfold gtThresholdLoop
    have stop : ∀ {n m : Nat}, expected ≤ n → (Except.ok true : Except Panic Bool) =
        .ok (decide (expected ≤ n + m)) := by
      intro n m h
      have : expected ≤ n + m := by omega
      simp [this]
    by_cases hp : p.1 = p.2
    · rw [if_pos hp, if_neg hne]
      simp only [List.map_cons, hp, if_true, List.sum_cons]
      rw [← Nat.add_assoc]
      by_cases hle : expected ≤ num + 1
      · rw [if_pos hle]; exact stop hle
      · rw [if_neg hle]
        cases ps with
        | nil => simp [gtThresholdLoop]; omega
        | cons q qs => exact ih (num + 1) (by simp) (by omega) (by omega)
    · rw [if_neg hp]
      simp only [List.map_cons, hp, if_false, List.sum_cons]
      rw [Nat.zero_add]
      by_cases hle : expected ≤ num
      · rw [if_pos hle]; exact stop hle
      · rw [if_neg hle]
        cases ps with
        | nil => simp [gtThresholdLoop]; omega
        | cons q qs => exact ih num (by simp) (by omega) (by omega)

theorem toUnsigned_le (m : Nat) (x : Fl) : Fl.toUnsigned m x ≤ m := by
  cases x <;> simp [Fl.toUnsigned]

/-- The pre-check compares the number of agreements with the truncated product. -/
theorem similarityGreaterThanThreshold_eq {a b : List T} (h : a.length = b.length) (h0 : 0 < a.length)
    (t : Fl) :
    similarityGreaterThanThreshold a b t = .ok (decide
      (Fl.toUnsigned u32Max (Fl.mul b64 (Fl.ofNat b64 a.length) t) ≤ agree a b)) := by
  unfold similarityGreaterThanThreshold
  rw [if_pos h, gtThresholdLoop_spec _ (toUnsigned_le _ _) _ _ _ (by simp [u32Max]) (by simp [u32Max])]
  · rw [Nat.zero_add]
    have := simMatches_eq_agree a b h
    unfold simMatches at this
    rw [this]
  · intro hz
    have : (a.zip b).length = 0 := by rw [hz]; rfl
    simp only [List.length_zip] at this
    omega

/-- Values of `f64` conversions of `usize` values. -/
theorem ofNat_b64 {n : Nat} (hn : n < 2 ^ 64) : Fl.ofNat b64 n = .fin (rndQ b64 n) := by
  unfold Fl.ofNat
  refine rnd_of_bounds b64_ok (by positivity) (k := 64) (by simp [b64]) (by simp [b64]) ?_
  exact_mod_cast hn.le

theorem rndQ_nat_le {n : Nat} (h0 : 0 < n) : rndQ b64 n ≤ n * (1 + 1 / 2 ^ 53) := by
  have h1 : (2 : ℚ) ^ (0 : ℤ) ≤ n := by rw [zpow_zero]; exact_mod_cast h0
  have := rndQ_err_rel b64_ok (q := n) (k := 0) (by simp [b64]) h1
  rw [abs_le] at this
  have h2 := this.2
  simp only [b64] at h2 ⊢
  have e : (n : ℚ) * (1 + 1 / 2 ^ 53) = n / 2 ^ 53 + n := by ring
  rw [e]
  linarith

/-- Key inequality: a count that reaches the threshold after rounding reaches the truncated product. -/
theorem expected_le {m n : Nat} (hmn : m ≤ n) (h0 : 0 < n) (hn : n < 2 ^ 64) {t : Fl}
    (ht : Fl.ge (Fl.div b64 (Fl.ofNat b64 m) (Fl.ofNat b64 n)) t = true) :
    Fl.toUnsigned u32Max (Fl.mul b64 (Fl.ofNat b64 n) t) ≤ m := by
  by_cases hm : u32Max ≤ m
  · exact (toUnsigned_le _ _).trans hm
  push Not at hm
  have hm53 : m ≤ 2 ^ 53 := by
    have : u32Max < 2 ^ 53 := by simp [u32Max]
    omega
  have hp64 : 1 ≤ b64.prec := by simp [b64]
  have hmE : Fl.ofNat b64 m = .fin m := ofNat_exact b64_ok (by simpa [b64] using hm53)
  have hnE := ofNat_b64 hn
  set N := rndQ b64 (n : ℚ) with hN
  have hnq : (1 : ℚ) ≤ n := by exact_mod_cast h0
  have hN1 : (1 : ℚ) ≤ N := by
    have := rndQ_pos b64_ok (q := n) (k := 0) (by simp [b64]) (by simpa using hnq)
    simpa using this
  have hNub : N ≤ n * (1 + 1 / 2 ^ 53) := rndQ_nat_le h0
  have hN64 : N ≤ 2 ^ 64 := by
    have := rndQ_mono (f := b64) hp64 (q := n) (q' := (2 : ℚ) ^ (64 : ℤ)) (by positivity)
      (by exact_mod_cast hn.le)
    rw [rndQ_of_repr hp64 (repr_zpow b64_ok (by simp [b64]))] at this
    exact_mod_cast this
  rw [hmE, hnE] at ht
  rw [hnE]
  have hNpos : 0 < N := by linarith
  simp only [Fl.div, if_neg hNpos.ne'] at ht
  -- the quotient
  have hq0 : (0 : ℚ) ≤ m / N := by positivity
  have hfin : rnd b64 ((m : ℚ) / N) = .fin (rndQ b64 (m / N)) := by
    refine rnd_of_bounds b64_ok hq0 (k := 64) (by simp [b64]) (by simp [b64]) ?_
    rw [div_le_iff₀ hNpos]
    have : (m : ℚ) < 2 ^ 32 := by
      have : m < 2 ^ 32 := by unfold u32Max at hm; omega
      exact_mod_cast this
    have h64 : (2 : ℚ) ^ (64 : ℤ) = 2 ^ 64 := by norm_cast
    rw [h64]
    nlinarith
  rw [hfin] at ht
  have hm32 : (m : ℚ) < 2 ^ 32 := by
    have : m < 2 ^ 32 := by unfold u32Max at hm; omega
    exact_mod_cast this
  cases t with
  | nan => simp [Fl.ge, Fl.cmp] at ht
  | pinf => simp [Fl.ge, Fl.cmp] at ht
  | ninf =>
    simp [Fl.mul, hNpos, hNpos.ne', Fl.toUnsigned]
  | fin t =>
    rw [ge_fin] at ht
    simp only [Fl.mul]
    by_cases htn : t < 0
    · have h1 : rndQ b64 (N * t) ≤ 0 := rndQ_nonpos (mul_nonpos_of_nonneg_of_nonpos hNpos.le htn.le)
      have h2 : ¬ (2 : ℚ) ^ b64.emax ≤ rndQ b64 (N * t) := by
        have := two_zpow_pos b64.emax
        intro h; linarith
      unfold rnd
      rw [if_neg h2]
      split_ifs with h3
      · simp [Fl.toUnsigned]
      · have : ⌊rndQ b64 (N * t)⌋ ≤ 0 := by
          rw [← Int.floor_zero (R := ℚ)]; exact Int.floor_mono h1
        have : ⌊rndQ b64 (N * t)⌋.toNat = 0 := Int.toNat_eq_zero.mpr this
        simp [Fl.toUnsigned, this]
    · push Not at htn
      -- N * t ≤ N * rndQ (m/N) ≤ m (1+ε) ≤ m + 1/2
      have hrel : rndQ b64 ((m : ℚ) / N) ≤ m / N * (1 + 1 / 2 ^ 53) := by
        rcases Nat.eq_zero_or_pos m with hm0 | hm0
        · subst hm0; simp [rndQ_zero]
        · have hlow : (2 : ℚ) ^ (-64 : ℤ) ≤ m / N := by
            rw [le_div_iff₀ hNpos, zpow_neg]
            have h64 : (2 : ℚ) ^ (64 : ℤ) = 2 ^ 64 := by norm_cast
            rw [h64]
            have : (1 : ℚ) ≤ m := by exact_mod_cast hm0
            have h5 : ((2 : ℚ) ^ 64)⁻¹ * N ≤ 1 := by
              rw [inv_mul_le_iff₀ (by positivity)]; linarith
            linarith
          have := rndQ_err_rel b64_ok (q := (m : ℚ) / N) (k := -64) (by simp [b64]) hlow
          rw [abs_le] at this
          have h2 := this.2
          simp only [b64] at h2 ⊢
          have e : (m : ℚ) / N * (1 + 1 / 2 ^ 53) = m / N / 2 ^ 53 + m / N := by ring
          rw [e]; linarith
      have hNt : N * t ≤ m + 1 / 2 := by
        have h1 : N * t ≤ N * (m / N * (1 + 1 / 2 ^ 53)) :=
          mul_le_mul_of_nonneg_left (ht.trans hrel) hNpos.le
        have h2 : N * (m / N * (1 + 1 / 2 ^ 53)) = m * (1 + 1 / 2 ^ 53) := by field_simp
        rw [h2] at h1
        have h3 : (m : ℚ) * (1 + 1 / 2 ^ 53) ≤ m + 1 / 2 := by
          have : (m : ℚ) * (1 / 2 ^ 53) ≤ 1 / 2 := by
            rw [mul_one_div, div_le_iff₀ (by positivity)]
            linarith [show (1 : ℚ) / 2 * 2 ^ 53 = 2 ^ 52 by norm_num,
              show (2 : ℚ) ^ 32 ≤ 2 ^ 52 by norm_num]
          linarith
        linarith
      have hrepr : Repr b64 ((m : ℚ) + 1 / 2) := by
        refine ⟨2 * m + 1, -1, ?_, ?_, by simp [b64]⟩
        · push_cast; rw [zpow_neg, zpow_one]; ring
        · rw [abs_of_nonneg (by positivity)]
          have : m < 2 ^ 32 := by unfold u32Max at hm; omega
          simp only [b64]
          omega
      have hprod : rndQ b64 (N * t) ≤ m + 1 / 2 := by
        have := rndQ_mono (f := b64) hp64 (by positivity) hNt
        rwa [rndQ_of_repr hp64 hrepr] at this
      have hfin2 : rnd b64 (N * t) = .fin (rndQ b64 (N * t)) := by
        refine rnd_of_bounds b64_ok (by positivity) (k := 64) (by simp [b64]) (by simp [b64]) ?_
        have h64 : (2 : ℚ) ^ (64 : ℤ) = 2 ^ 64 := by norm_cast
        rw [h64]
        linarith [show (2 : ℚ) ^ 32 + 1 ≤ 2 ^ 64 by norm_num]
      rw [hfin2]
      simp only [Fl.toUnsigned]
      refine (min_le_left _ _).trans ?_
      have hfl : ⌊rndQ b64 (N * t)⌋ ≤ (m : ℤ) := by
        have h1 : ⌊rndQ b64 (N * t)⌋ ≤ ⌊(m : ℚ) + 1 / 2⌋ := Int.floor_mono hprod
        have h2 : ⌊(m : ℚ) + 1 / 2⌋ = (m : ℤ) := by
          rw [Int.floor_eq_iff]
          constructor
          · push_cast; linarith
          · push_cast; linarith
        omega
      omega

/-! ### Jaccard -/

theorem extend_toFinset (l : List T) : (HSet.empty.extend l : HSet T).elems.toFinset = l.toFinset := by
  ext x; simp

theorem extend_len (l : List T) : (HSet.empty.extend l : HSet T).len = l.toFinset.card := by
  rw [← extend_toFinset, List.toFinset_card_of_nodup (HSet.nodup _)]
  rfl

theorem jaccard_inter (l1 l2 : List T) :
    ((HSet.empty.extend l1 : HSet T).elems.filter fun x => (HSet.empty.extend l2 : HSet T).contains x).length
      = (l1.toFinset ∩ l2.toFinset).card := by
  rw [← List.toFinset_card_of_nodup ((HSet.nodup _).filter _)]
  congr 1
  ext x
  simp [HSet.contains]

theorem jaccardSimilarity_def (l1 l2 : List T) :
    jaccardSimilarity l1 l2 = Fl.div b32 (Fl.ofNat b32 (l1.toFinset ∩ l2.toFinset).card)
      (Fl.ofNat b32 (l1.toFinset ∪ l2.toFinset).card) := by
  unfold jaccardSimilarity
  simp only
  rw [jaccard_inter, extend_len, extend_len, Finset.card_union]

theorem jaccardSimilarity_eq {l1 l2 : List T} (h0 : l1 ≠ [] ∨ l2 ≠ [])
    (hn : (l1.toFinset ∪ l2.toFinset).card ≤ 2 ^ 24) :
    jaccardSimilarity l1 l2 = .fin (rndQ b32 (((l1.toFinset ∩ l2.toFinset).card : ℚ) /
      (l1.toFinset ∪ l2.toFinset).card)) := by
  rw [jaccardSimilarity_def]
  refine div_ofNat b32_ok (Finset.card_le_card ?_) ?_ (by simpa [b32] using hn)
  · exact Finset.inter_subset_left.trans Finset.subset_union_left
  · rw [Finset.card_pos]
    rcases h0 with h | h
    · obtain ⟨x, l, rfl⟩ := List.exists_cons_of_ne_nil h
      exact ⟨x, by simp⟩
    · obtain ⟨x, l, rfl⟩ := List.exists_cons_of_ne_nil h
      exact ⟨x, by simp⟩

end Verif
