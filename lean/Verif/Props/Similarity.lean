import Verif.Lemmas.Similarity
import Verif.Lemmas.FlNearest

/-! # Properties C08 - C12: similarity measures -/
namespace Verif.Props
open Verif.Spec

variable {T : Type} [DecidableEq T]

/-! ## C08 -/

/-- C08: the similarity panics iff the lengths differ. -/
theorem C08_panics_iff (a b : List T) :
    (∃ e, minhashSimilarity a b = .error e) ↔ a.length ≠ b.length := by
  unfold minhashSimilarity
  split_ifs with h <;> simp [h]

/-- C08: for equal non-zero lengths (up to 2^53) the result is the binary64 rounding of
(agreeing positions)/(length), and it lies in [0,1]. -/
theorem C08_rounded_ratio (a b : List T) (h : a.length = b.length) (h0 : 0 < a.length)
    (hn : a.length ≤ 2 ^ 53) :
    ∃ x : ℚ, minhashSimilarity a b = .ok (.fin x) ∧
      rnd b64 ((agree a b : ℚ) / a.length) = .fin x ∧ 0 ≤ x ∧ x ≤ 1 := by
  have hu := ratio_unit (agree_le a b)
  refine ⟨_, minhashSimilarity_eq h h0 hn, ?_, rndQ_nonneg hu.1, rndQ_le_one b64_ok hu.1 hu.2⟩
  exact rnd_of_bounds b64_ok hu.1 (k := 0) (by simp [b64]) (by simp [b64]) (by simpa using hu.2)

example : ([1, 2, 3] : List Nat).length = ([1, 5, 3] : List Nat).length ∧ agree [1, 2, 3] [1, 5, 3] = 2 := by decide

/-- C08: among the `f64` values none is nearer to (agreeing positions)/(length), and of two equally near ones the
result is the one with the even significand. -/
theorem C08_nearest_double (a b : List T) (h : a.length = b.length) (h0 : 0 < a.length) (hn : a.length ≤ 2 ^ 53) :
    ∃ x : ℚ, minhashSimilarity a b = .ok (.fin x) ∧ NearestEven Double ((agree a b : ℚ) / a.length) x := by
  obtain ⟨x, h1, h2, _⟩ := C08_rounded_ratio a b h h0 hn
  exact ⟨x, h1, rnd_double h2⟩

/-- The nearest double is not always the exact ratio: 1/3 is not a double. -/
example : ([1, 2, 3] : List Nat).length = ([1, 5, 4] : List Nat).length ∧ agree [1, 2, 3] [1, 5, 4] = 1 ∧
    ¬ Double (1 / 3) := by
  refine ⟨by decide, by decide, ?_⟩
  rintro ⟨m, e, h, hm, he, ht⟩
  by_cases h0 : 0 ≤ e
  · obtain ⟨d, rfl⟩ := Int.eq_ofNat_of_zero_le h0
    rw [zpow_natCast] at h
    have h3 : (1 : ℚ) = ((3 * (m * 2 ^ d) : ℤ) : ℚ) := by push_cast; linarith
    have h4 : (1 : ℤ) = 3 * (m * 2 ^ d) := by exact_mod_cast h3
    omega
  · obtain ⟨d, hd⟩ := Int.eq_ofNat_of_zero_le (show 0 ≤ -e by omega)
    have he' : e = -(d : ℤ) := by omega
    rw [he', zpow_neg, zpow_natCast] at h
    have h2 : ((2 : ℚ) ^ d) ≠ 0 := by positivity
    have h3 : ((2 ^ d : ℤ) : ℚ) = ((3 * m : ℤ) : ℚ) := by
      push_cast
      field_simp at h
      linarith
    have h4 : (2 : ℤ) ^ d = 3 * m := by exact_mod_cast h3
    have h5 : ∀ d : ℕ, (2 : ℤ) ^ d % 3 ≠ 0 := by
      intro d
      induction d with
      | zero => decide
      | succ d ih => rw [pow_succ]; omega
    have := h5 d
    omega

/-- C08: symmetry (including the panic). -/
theorem C08_symmetric (a b : List T) : minhashSimilarity a b = minhashSimilarity b a :=
  minhashSimilarity_comm a b

/-- C08: the similarity is exactly 1.0 iff the signatures are equal. -/
theorem C08_one_iff_equal (a b : List T) (h : a.length = b.length) (h0 : 0 < a.length)
    (hn : a.length ≤ 2 ^ 53) : minhashSimilarity a b = .ok (.fin 1) ↔ a = b := by
  rw [minhashSimilarity_eq h h0 hn]
  have hnq : (0 : ℚ) < a.length := by exact_mod_cast h0
  constructor
  · intro he
    simp only [Except.ok.injEq, Fl.fin.injEq] at he
    by_contra hne
    have hlt : agree a b < a.length :=
      lt_of_le_of_ne (agree_le a b) (fun hc => hne ((agree_eq_length_iff a b h).mp hc))
    have hq : ((agree a b : ℚ) / a.length) ≤ 1 - 1 / 2 ^ b64.prec := by
      rw [div_le_iff₀ hnq]
      have h1 : (agree a b : ℚ) + 1 ≤ a.length := by exact_mod_cast hlt
      have h2 : (a.length : ℚ) ≤ 2 ^ 53 := by exact_mod_cast hn
      have h3 : (1 : ℚ) / 2 ^ 53 * a.length ≤ 1 := by
        rw [one_div_mul_eq_div, div_le_one (by positivity)]; exact h2
      simp only [b64]
      linarith
    have := rndQ_lt_one b64_ok (ratio_unit (agree_le a b)).1 hq
    rw [he] at this
    exact lt_irrefl _ this
  · rintro rfl
    rw [agree_self, div_self hnq.ne', rndQ_one b64_ok]

/-- C08: the similarity is exactly 0.0 iff no position agrees. -/
theorem C08_zero_iff_disjoint (a b : List T) (h : a.length = b.length) (h0 : 0 < a.length)
    (hn : a.length ≤ 2 ^ 53) :
    minhashSimilarity a b = .ok (.fin 0) ↔ ∀ i < a.length, a[i]? ≠ b[i]? := by
  rw [minhashSimilarity_eq h h0 hn, ← agree_eq_zero_iff]
  have hnq : (0 : ℚ) < a.length := by exact_mod_cast h0
  constructor
  · intro he
    simp only [Except.ok.injEq, Fl.fin.injEq] at he
    by_contra hne
    have h1 : (1 : ℚ) ≤ agree a b := by exact_mod_cast Nat.one_le_iff_ne_zero.mpr hne
    have hq : (2 : ℚ) ^ (-53 : ℤ) ≤ (agree a b : ℚ) / a.length := by
      rw [le_div_iff₀ hnq]
      have h2 : (a.length : ℚ) ≤ 2 ^ 53 := by exact_mod_cast hn
      have h3 : (2 : ℚ) ^ (-53 : ℤ) * a.length ≤ 1 := by
        rw [zpow_neg, inv_mul_le_iff₀ (by positivity)]
        have : (2 : ℚ) ^ (53 : ℤ) = 2 ^ 53 := by norm_cast
        rw [this]; linarith
      linarith
    have := rndQ_pos b64_ok (by simp [b64]) hq
    rw [he] at this
    have := two_zpow_pos (-53)
    linarith
  · intro he
    simp [he, rndQ_zero]

/-- C08: two empty signatures give NaN. -/
theorem C08_empty_nan : minhashSimilarity ([] : List T) [] = .ok .nan := by
  simp only [minhashSimilarity, simMatches, List.length_nil, List.zip_nil_left, List.map_nil,
    List.sum_nil, if_true]
  rw [ofNat_exact b64_ok (by simp)]
  simp [Fl.div]

/-- The hypotheses of C08 hold for a concrete pair that agrees in one of two positions. -/
example : ([1, 2] : List Nat).length = ([1, 3] : List Nat).length ∧
    0 < ([1, 2] : List Nat).length ∧ ([1, 2] : List Nat).length ≤ 2 ^ 53 ∧
    agree ([1, 2] : List Nat) [1, 3] = 1 := by
  refine ⟨rfl, by simp, by simp, by decide⟩

/-! ## C09 -/

/-- C09: similarity orders signatures exactly by the number of agreeing positions. -/
theorem C09_similarity_order (q a b : List T) (n : Nat) (hn : n < 2 ^ 52) (h0 : 0 < n)
    (hq : q.length = n) (ha : a.length = n) (hb : b.length = n) :
    ∃ x y : ℚ, minhashSimilarity q a = .ok (.fin x) ∧ minhashSimilarity q b = .ok (.fin y) ∧
      (agree q a < agree q b ↔ x < y) ∧ (agree q a = agree q b ↔ x = y) := by
  subst hq
  refine ⟨_, _, minhashSimilarity_eq ha.symm h0 (by omega), minhashSimilarity_eq hb.symm h0 (by omega), ?_⟩
  have gap : ∀ {m m' : Nat}, m < m' → m' ≤ q.length →
      rndQ b64 ((m : ℚ) / q.length) < rndQ b64 ((m' : ℚ) / q.length) := by
    intro m m' h1 h2
    have h3 := ratio_gap b64_ok h1 h2 (by simpa [b64] using hn)
    have h4 : (0 : ℚ) < 1 / 2 ^ b64.prec := by positivity
    linarith
  rcases lt_trichotomy (agree q a) (agree q b) with h | h | h
  · have := gap h (agree_le q b)
    exact ⟨⟨fun _ => this, fun _ => h⟩, ⟨fun he => absurd he h.ne, fun he => absurd he this.ne⟩⟩
  · rw [h]; simp
  · have := gap h (agree_le q a)
    exact ⟨⟨fun he => absurd he h.asymm, fun he => absurd he this.asymm⟩,
      ⟨fun he => absurd he h.ne', fun he => absurd he this.ne'⟩⟩

/-- C09: distance orders signatures exactly by the number of agreeing positions, reversed. -/
theorem C09_distance_order (q a b : List T) (n : Nat) (hn : n < 2 ^ 52) (h0 : 0 < n)
    (hq : q.length = n) (ha : a.length = n) (hb : b.length = n) :
    ∃ x y : ℚ, minhashDistance q a = .ok (.fin x) ∧ minhashDistance q b = .ok (.fin y) ∧
      (agree q a < agree q b ↔ y < x) ∧ (agree q a = agree q b ↔ x = y) := by
  subst hq
  have val : ∀ c : List T, c.length = q.length → minhashDistance q c =
      .ok (.fin (rndQ b64 (1 - rndQ b64 ((agree q c : ℚ) / q.length)))) := by
    intro c hc
    unfold minhashDistance
    rw [minhashSimilarity_eq hc.symm h0 (by omega)]
    have hu := ratio_unit (agree_le q c)
    show Except.ok (Fl.sub b64 (.fin 1) (.fin (rndQ b64 ((agree q c : ℚ) / q.length)))) = _
    rw [one_sub_fl b64_ok (rndQ_nonneg hu.1) (rndQ_le_one b64_ok hu.1 hu.2)]
  refine ⟨_, _, val a ha, val b hb, ?_⟩
  have gap : ∀ {m m' : Nat}, m < m' → m' ≤ q.length →
      rndQ b64 (1 - rndQ b64 ((m' : ℚ) / q.length)) < rndQ b64 (1 - rndQ b64 ((m : ℚ) / q.length)) := by
    intro m m' h1 h2
    have hu := ratio_unit h2
    exact one_sub_gap b64_ok (rndQ_nonneg (ratio_unit (h1.le.trans h2)).1)
      (rndQ_le_one b64_ok hu.1 hu.2) (ratio_gap b64_ok h1 h2 (by simpa [b64] using hn))
  rcases lt_trichotomy (agree q a) (agree q b) with h | h | h
  · have := gap h (agree_le q b)
    exact ⟨⟨fun _ => this, fun _ => h⟩, ⟨fun he => absurd he h.ne, fun he => absurd he this.ne'⟩⟩
  · rw [h]; simp
  · have := gap h (agree_le q a)
    exact ⟨⟨fun he => absurd he h.asymm, fun he => absurd he this.asymm⟩,
      ⟨fun he => absurd he h.ne', fun he => absurd he this.ne⟩⟩

/-- The hypotheses of C09 hold for three signatures of length two with different agreement counts. -/
example : agree ([1, 2] : List Nat) [7, 8] < agree ([1, 2] : List Nat) [1, 3] ∧ 2 < 2 ^ 52 := by decide

/-! ## C10, C11 -/

/-- C10: the pre-check returns true whenever the similarity is at least the threshold, for every `f64`
threshold (NaN, infinities and negative values included) and every length a slice can have. -/
theorem C10_no_false_negative (a b : List T) (t s : Fl) (h0 : 0 < a.length) (hn : a.length < 2 ^ 64)
    (hs : minhashSimilarity a b = .ok s) (hge : Fl.ge s t = true) :
    similarityGreaterThanThreshold a b t = .ok true := by
  have h : a.length = b.length := minhashSimilarity_ok_iff.mp ⟨s, hs⟩
  rw [similarityGreaterThanThreshold_eq h h0]
  unfold minhashSimilarity at hs
  rw [if_pos h, simMatches_eq_agree a b h] at hs
  simp only [Except.ok.injEq] at hs
  subst hs
  simp [expected_le (agree_le a b) h0 hn hge]

/-- The hypotheses of C10 hold for equal signatures and threshold 1. -/
example : ∃ s, minhashSimilarity ([1, 2] : List Nat) [1, 2] = .ok s ∧ Fl.ge s (.fin 1) = true :=
  ⟨.fin 1, (C08_one_iff_equal _ _ rfl (by simp) (by simp)).mpr rfl, by rw [ge_fin]⟩

/-- C10: it also never overflows its `u32` counter and panics iff the lengths differ. -/
theorem C10_panics_iff (a b : List T) (t : Fl) :
    (∃ e, similarityGreaterThanThreshold a b t = .error e) ↔ a.length ≠ b.length := by
  by_cases h : a.length = b.length
  · simp only [h, ne_eq, not_true_eq_false, iff_false, not_exists]
    intro e he
    rcases Nat.eq_zero_or_pos a.length with h0 | h0
    · have ha : a = [] := List.length_eq_zero_iff.mp h0
      subst ha
      simp [similarityGreaterThanThreshold, gtThresholdLoop, ← h] at he
    · rw [similarityGreaterThanThreshold_eq h h0] at he
      cases he
  · simp [similarityGreaterThanThreshold, h]

/-- Length 1 times threshold 0.5 truncates to zero expected matches. -/
theorem half_accepts : Fl.mul b64 (Fl.ofNat b64 ([1] : List Nat).length) (.fin (1 / 2)) = .fin (1 / 2) ∧
    similarityGreaterThanThreshold ([1] : List Nat) [2] (.fin (1 / 2)) = .ok true := by
  have h1 : Fl.mul b64 (Fl.ofNat b64 ([1] : List Nat).length) (.fin (1 / 2)) = .fin (1 / 2) := by
    rw [ofNat_exact b64_ok (by simp [b64])]
    simp only [Fl.mul, List.length_singleton, Nat.cast_one, one_mul]
    rw [rnd_of_bounds b64_ok (k := 0) (by norm_num) (by simp [b64]) (by simp [b64]) (by norm_num)]
    congr 1
    apply rndQ_of_repr (by simp [b64])
    exact ⟨1, -1, by norm_num, by simp [b64], by simp [b64]⟩
  refine ⟨h1, ?_⟩
  rw [similarityGreaterThanThreshold_eq (a := [1]) (b := [2]) rfl (by simp), h1]
  have hfl : ⌊(1 / 2 : ℚ)⌋ = 0 := by rw [Int.floor_eq_iff]; norm_num
  simp only [Fl.toUnsigned, hfl]
  simp

/-- C11 is false of the code: with threshold 0.5 and signatures of length 1 that differ, the similarity is
0.0 but the pre-check answers true (`(1 as f64 * 0.5) as u32 = 0`). -/
theorem C11_no_false_positive_false :
    ¬ ∀ (a b : List Nat) (t s : Fl), a.length = b.length → 0 < a.length → a.length < 2 ^ 64 →
      Fl.ge t (.fin 0) = true → Fl.ge (.fin 1) t = true →
      minhashSimilarity a b = .ok s → similarityGreaterThanThreshold a b t = .ok true →
      Fl.ge s t = true := by
  intro hall
  have hs : minhashSimilarity [1] [2] = .ok (.fin 0) :=
    (C08_zero_iff_disjoint [1] [2] rfl (by simp) (by simp)).mpr (by
      intro i hi
      have : i = 0 := by simpa using hi
      subst this; simp)
  have := hall [1] [2] (.fin (1 / 2)) (.fin 0) rfl (by simp) (by simp)
    (by rw [ge_fin]; norm_num) (by rw [ge_fin]; norm_num) hs half_accepts.2
  rw [ge_fin] at this
  norm_num at this

/-- C11, what does hold (partial): a positive answer means that one more agreement would reach the
threshold, i.e. n * threshold < agreements + 1 up to the rounding of the product: the rounded product of
length and threshold is below agreements + 1 (unless the `u32` bound is hit). -/
theorem C11_off_by_less_than_one_partial (a b : List T) (t : Fl) (h : a.length = b.length)
    (h0 : 0 < a.length) (hp : similarityGreaterThanThreshold a b t = .ok true)
    (x : ℚ) (hx : Fl.mul b64 (Fl.ofNat b64 a.length) t = .fin x) (hm : agree a b < u32Max) :
    x < agree a b + 1 := by
  rw [similarityGreaterThanThreshold_eq h h0, hx] at hp
  simp only [Except.ok.injEq] at hp
  have hp' := of_decide_eq_true hp
  simp only [Fl.toUnsigned] at hp'
  have h1 : ⌊x⌋.toNat ≤ agree a b := by omega
  have h2 : ⌊x⌋ ≤ (agree a b : ℤ) := by omega
  have h3 := Int.lt_floor_add_one x
  have h4 : ((⌊x⌋ : ℤ) : ℚ) ≤ ((agree a b : ℤ) : ℚ) := by exact_mod_cast h2
  push_cast at h4
  linarith

/-- The hypotheses of the C11 partial statement hold for the counterexample of C11. -/
example : ([1] : List Nat).length = ([2] : List Nat).length ∧
    similarityGreaterThanThreshold ([1] : List Nat) [2] (.fin (1 / 2)) = .ok true ∧
    Fl.mul b64 (Fl.ofNat b64 ([1] : List Nat).length) (.fin (1 / 2)) = .fin (1 / 2) ∧
    agree ([1] : List Nat) [2] < u32Max :=
  ⟨rfl, half_accepts.2, half_accepts.1, by decide⟩

/-! ## C12 -/

/-- C12: the Jaccard similarity is the binary32 rounding of |A∩B|/|A∪B| and lies in [0,1]. -/
theorem C12_rounded_ratio (l1 l2 : List T) (h0 : l1 ≠ [] ∨ l2 ≠ [])
    (hn : (l1.toFinset ∪ l2.toFinset).card ≤ 2 ^ 24) :
    ∃ x : ℚ, jaccardSimilarity l1 l2 = .fin x ∧
      rnd b32 (((l1.toFinset ∩ l2.toFinset).card : ℚ) / (l1.toFinset ∪ l2.toFinset).card) = .fin x ∧
      0 ≤ x ∧ x ≤ 1 := by
  have hu := ratio_unit (m := (l1.toFinset ∩ l2.toFinset).card) (n := (l1.toFinset ∪ l2.toFinset).card)
    (Finset.card_le_card (Finset.inter_subset_left.trans Finset.subset_union_left))
  refine ⟨_, jaccardSimilarity_eq h0 hn, ?_, rndQ_nonneg hu.1, rndQ_le_one b32_ok hu.1 hu.2⟩
  exact rnd_of_bounds b32_ok hu.1 (k := 0) (by simp [b32]) (by simp [b32]) (by simpa using hu.2)

/-- C12: no `f32` value is nearer to the exact Jaccard similarity; ties go to the even significand. -/
theorem C12_nearest_single (l1 l2 : List T) (h0 : l1 ≠ [] ∨ l2 ≠ [])
    (hn : (l1.toFinset ∪ l2.toFinset).card ≤ 2 ^ 24) :
    ∃ x : ℚ, jaccardSimilarity l1 l2 = .fin x ∧
      NearestEven Single (((l1.toFinset ∩ l2.toFinset).card : ℚ) / (l1.toFinset ∪ l2.toFinset).card) x := by
  obtain ⟨x, h1, h2, _⟩ := C12_rounded_ratio l1 l2 h0 hn
  exact ⟨x, h1, rnd_single h2⟩

/-- The hypotheses are met, with similarity 2/5. -/
example : (([1, 2, 3] : List Nat) ≠ [] ∨ ([2, 3, 4, 5] : List Nat) ≠ []) ∧
    (([1, 2, 3] : List Nat).toFinset ∪ [2, 3, 4, 5].toFinset).card = 5 ∧
    (([1, 2, 3] : List Nat).toFinset ∩ [2, 3, 4, 5].toFinset).card = 2 := by decide

/-- C12: only the token sets matter (no size bound). -/
theorem C12_set_semantics (l1 l2 l1' l2' : List T) (h1 : ∀ x, x ∈ l1 ↔ x ∈ l1')
    (h2 : ∀ x, x ∈ l2 ↔ x ∈ l2') : jaccardSimilarity l1 l2 = jaccardSimilarity l1' l2' := by
  have e1 : l1.toFinset = l1'.toFinset := by ext x; simp [h1]
  have e2 : l2.toFinset = l2'.toFinset := by ext x; simp [h2]
  rw [jaccardSimilarity_def, jaccardSimilarity_def, e1, e2]

example : ∀ x : Nat, x ∈ [1, 1, 2] ↔ x ∈ [2, 1] := by intro x; simp [or_comm]

/-- C12: symmetry (no size bound). -/
theorem C12_symmetric (l1 l2 : List T) : jaccardSimilarity l1 l2 = jaccardSimilarity l2 l1 := by
  rw [jaccardSimilarity_def, jaccardSimilarity_def, Finset.inter_comm, Finset.union_comm]

/-- C12: exactly 1.0 iff the token sets are equal. -/
theorem C12_one_iff_equal (l1 l2 : List T) (h0 : l1 ≠ [] ∨ l2 ≠ [])
    (hn : (l1.toFinset ∪ l2.toFinset).card ≤ 2 ^ 24) :
    jaccardSimilarity l1 l2 = .fin 1 ↔ ∀ x, x ∈ l1 ↔ x ∈ l2 := by
  rw [jaccardSimilarity_eq h0 hn]
  set i := (l1.toFinset ∩ l2.toFinset).card with hi
  set u := (l1.toFinset ∪ l2.toFinset).card with hu
  have hsub : l1.toFinset ∩ l2.toFinset ⊆ l1.toFinset ∪ l2.toFinset :=
    Finset.inter_subset_left.trans Finset.subset_union_left
  have hle : i ≤ u := Finset.card_le_card hsub
  have hu0 : 0 < u := by
    rw [hu, Finset.card_pos]
    rcases h0 with h | h
    · obtain ⟨x, l, rfl⟩ := List.exists_cons_of_ne_nil h
      exact ⟨x, by simp⟩
    · obtain ⟨x, l, rfl⟩ := List.exists_cons_of_ne_nil h
      exact ⟨x, by simp⟩
  have huq : (0 : ℚ) < u := by exact_mod_cast hu0
  have hset : i = u ↔ ∀ x, x ∈ l1 ↔ x ∈ l2 := by
    constructor
    · intro he x
      have := Finset.eq_of_subset_of_card_le hsub (by rw [← hi, ← hu, he])
      have hx := Finset.ext_iff.mp this x
      simp only [Finset.mem_inter, List.mem_toFinset, Finset.mem_union] at hx
      tauto
    · intro h
      have e : l1.toFinset = l2.toFinset := by ext x; simp [h]
      rw [hi, hu, e]; simp
  rw [← hset]
  constructor
  · intro he
    simp only [Fl.fin.injEq] at he
    by_contra hne
    have hlt : i < u := lt_of_le_of_ne hle hne
    have hq : ((i : ℚ) / u) ≤ 1 - 1 / 2 ^ b32.prec := by
      rw [div_le_iff₀ huq]
      have h1 : (i : ℚ) + 1 ≤ u := by exact_mod_cast hlt
      have h2 : (u : ℚ) ≤ 2 ^ 24 := by exact_mod_cast hn
      have h3 : (1 : ℚ) / 2 ^ 24 * u ≤ 1 := by
        rw [one_div_mul_eq_div, div_le_one (by positivity)]; exact h2
      simp only [b32]
      linarith
    have := rndQ_lt_one b32_ok (ratio_unit hle).1 hq
    rw [he] at this
    exact lt_irrefl _ this
  · intro he
    rw [he, div_self huq.ne', rndQ_one b32_ok]

/-- C12: exactly 0.0 iff the token sets are disjoint. -/
theorem C12_zero_iff_disjoint (l1 l2 : List T) (h0 : l1 ≠ [] ∨ l2 ≠ [])
    (hn : (l1.toFinset ∪ l2.toFinset).card ≤ 2 ^ 24) :
    jaccardSimilarity l1 l2 = .fin 0 ↔ ∀ x, x ∈ l1 → x ∉ l2 := by
  rw [jaccardSimilarity_eq h0 hn]
  have hset : (l1.toFinset ∩ l2.toFinset).card = 0 ↔ ∀ x, x ∈ l1 → x ∉ l2 := by
    rw [Finset.card_eq_zero, Finset.eq_empty_iff_forall_notMem]
    simp
  rw [← hset]
  constructor
  · intro he
    simp only [Fl.fin.injEq] at he
    by_contra hne
    have h1 : (1 : ℚ) ≤ (l1.toFinset ∩ l2.toFinset).card := by
      exact_mod_cast Nat.one_le_iff_ne_zero.mpr hne
    have hle : (l1.toFinset ∩ l2.toFinset).card ≤ (l1.toFinset ∪ l2.toFinset).card :=
      Finset.card_le_card (Finset.inter_subset_left.trans Finset.subset_union_left)
    have h2 : ((l1.toFinset ∪ l2.toFinset).card : ℚ) ≤ 2 ^ 24 := by exact_mod_cast hn
    have hpos : (0 : ℚ) < (l1.toFinset ∪ l2.toFinset).card := by
      have : ((l1.toFinset ∩ l2.toFinset).card : ℚ) ≤ (l1.toFinset ∪ l2.toFinset).card := by
        exact_mod_cast hle
      linarith
    have hq : (2 : ℚ) ^ (-24 : ℤ) ≤
        ((l1.toFinset ∩ l2.toFinset).card : ℚ) / (l1.toFinset ∪ l2.toFinset).card := by
      rw [le_div_iff₀ hpos]
      have h3 : (2 : ℚ) ^ (-24 : ℤ) * (l1.toFinset ∪ l2.toFinset).card ≤ 1 := by
        rw [zpow_neg, inv_mul_le_iff₀ (by positivity)]
        have : (2 : ℚ) ^ (24 : ℤ) = 2 ^ 24 := by norm_cast
        rw [this]; linarith
      linarith
    have := rndQ_pos b32_ok (by simp [b32]) hq
    rw [he] at this
    have := two_zpow_pos (-24)
    linarith
  · intro he
    simp [he, rndQ_zero]

/-- C12: two empty inputs give NaN. -/
theorem C12_empty_nan : jaccardSimilarity ([] : List T) [] = .nan := by
  rw [jaccardSimilarity_def]
  simp only [List.toFinset_nil, Finset.inter_self, Finset.union_self, Finset.card_empty]
  rw [ofNat_exact b32_ok (by simp)]
  simp [Fl.div]

/-- C12: the distance is the binary32 value of one minus the similarity. -/
theorem C12_distance (l1 l2 : List T) (h0 : l1 ≠ [] ∨ l2 ≠ [])
    (hn : (l1.toFinset ∪ l2.toFinset).card ≤ 2 ^ 24) :
    ∃ x : ℚ, jaccardSimilarity l1 l2 = .fin x ∧ jaccardDistance l1 l2 = rnd b32 (1 - x) := by
  obtain ⟨x, hx, _⟩ := C12_rounded_ratio l1 l2 h0 hn
  exact ⟨x, hx, by unfold jaccardDistance; rw [hx]; rfl⟩

/-- The hypotheses of C12 hold for two overlapping token lists with repetitions. -/
example : (([1, 1, 2] : List Nat) ≠ [] ∨ ([2, 3] : List Nat) ≠ []) ∧
    (([1, 1, 2] : List Nat).toFinset ∪ ([2, 3] : List Nat).toFinset).card = 3 ∧
    (([1, 1, 2] : List Nat).toFinset ∩ ([2, 3] : List Nat).toFinset).card = 1 := by decide

end Verif.Props
