import Verif.Props.Similarity
import Mathlib.Tactic.Linarith
import Mathlib.Tactic.FieldSimp
import Mathlib.Tactic.Positivity

/-! # Property C121: the distances are metrics -/
namespace Verif.Props
open Verif.Spec

variable {T : Type} [DecidableEq T]

/-! ## The exact quantities -/

/-- Two signatures that both agree often with a third one agree with each other. -/
theorem agree_triangle (a b c : List T) (h1 : a.length = b.length) :
    agree a b + agree b c ≤ agree a c + a.length := by
  have hsub : (Finset.range a.length).filter (fun i => a[i]? = b[i]?) ∩
      (Finset.range b.length).filter (fun i => b[i]? = c[i]?) ⊆
      (Finset.range a.length).filter fun i => a[i]? = c[i]? := by
    intro i
    simp only [Finset.mem_inter, Finset.mem_filter, Finset.mem_range]
    rintro ⟨⟨hi, e1⟩, _, e2⟩
    exact ⟨hi, e1.trans e2⟩
  have hun : (Finset.range a.length).filter (fun i => a[i]? = b[i]?) ∪
      (Finset.range b.length).filter (fun i => b[i]? = c[i]?) ⊆ Finset.range a.length := by
    intro i
    simp only [Finset.mem_union, Finset.mem_filter, Finset.mem_range]
    rintro (⟨hi, _⟩ | ⟨hi, _⟩) <;> omega
  have := Finset.card_union_add_card_inter ((Finset.range a.length).filter (fun i => a[i]? = b[i]?))
    ((Finset.range b.length).filter (fun i => b[i]? = c[i]?))
  have c1 := Finset.card_le_card hsub
  have c2 := Finset.card_le_card hun
  rw [Finset.card_range] at c2
  unfold agree
  omega

/-- The exact Jaccard distance of two sets. -/
def jaccardGap (A B : Finset T) : ℚ := 1 - ((A ∩ B).card : ℚ) / (A ∪ B).card

/-- Monotone fractions: from `p ≤ s` follows `p / (k + p) ≤ s / (k + s)`. -/
theorem frac_mono {p s k : ℚ} (hk : 0 ≤ k) (hp : 0 ≤ p) (hps : p ≤ s) (h : 0 < k + p) : p / (k + p) ≤ s / (k + s) := by
  rw [div_le_div_iff₀ h (by linarith)]
  nlinarith

/-- In terms of the symmetric difference. -/
theorem jaccardGap_eq (A B : Finset T) (h : (A ∪ B).Nonempty) :
    jaccardGap A B = 2 * ((A ∪ B).card - (A ∩ B).card : ℚ) /
      (A.card + B.card + ((A ∪ B).card - (A ∩ B).card : ℚ)) := by
  have hu : (0 : ℚ) < (A ∪ B).card := by exact_mod_cast h.card_pos
  have hc : ((A ∪ B).card : ℚ) + (A ∩ B).card = A.card + B.card := by
    exact_mod_cast Finset.card_union_add_card_inter A B
  unfold jaccardGap
  rw [← hc]
  rw [show ((A ∪ B).card : ℚ) + (A ∩ B).card + ((A ∪ B).card - (A ∩ B).card) = 2 * (A ∪ B).card by ring,
    mul_div_mul_left _ _ (by norm_num), sub_div, div_self hu.ne']

/-- The symmetric difference is a metric. -/
theorem symm_triangle (A B C : Finset T) :
    ((A ∪ C).card - (A ∩ C).card : ℚ) ≤ ((A ∪ B).card - (A ∩ B).card) + ((B ∪ C).card - (B ∩ C).card) := by
  have key : ∀ X Y : Finset T, ((X ∪ Y).card - (X ∩ Y).card : ℚ) = (symmDiff X Y).card := by
    intro X Y
    have h1 : (X ∪ Y) \ (X ∩ Y) = symmDiff X Y := by
      ext x
      simp only [Finset.mem_sdiff, Finset.mem_union, Finset.mem_inter, Finset.mem_symmDiff]
      tauto
    have h2 := Finset.card_sdiff_add_card_eq_card (s := X ∩ Y) (t := X ∪ Y)
      (Finset.inter_subset_left.trans Finset.subset_union_left)
    rw [h1] at h2
    rw [← h2]; push_cast; ring
  rw [key, key, key]
  have : symmDiff A C ⊆ symmDiff A B ∪ symmDiff B C := by
    intro x
    simp only [Finset.mem_union, Finset.mem_symmDiff]
    tauto
  exact_mod_cast (Finset.card_le_card this).trans (Finset.card_union_le _ _)

/-- The size of a set is at most the size of another one and their symmetric difference. -/
theorem card_le_symm (A B : Finset T) : (A.card : ℚ) ≤ B.card + ((A ∪ B).card - (A ∩ B).card) := by
  have hc : ((A ∪ B).card : ℚ) + (A ∩ B).card = A.card + B.card := by
    exact_mod_cast Finset.card_union_add_card_inter A B
  have : ((A ∩ B).card : ℚ) ≤ B.card := by exact_mod_cast Finset.card_le_card Finset.inter_subset_right
  linarith

theorem symm_nonneg (A B : Finset T) : (0 : ℚ) ≤ (A ∪ B).card - (A ∩ B).card := by
  have : ((A ∩ B).card : ℚ) ≤ (A ∪ B).card := by
    exact_mod_cast Finset.card_le_card (Finset.inter_subset_left.trans Finset.subset_union_left)
  linarith

/-- The exact Jaccard distance satisfies the triangle inequality. -/
theorem jaccardGap_triangle (A B C : Finset T) (hab : (A ∪ B).Nonempty) (hbc : (B ∪ C).Nonempty)
    (hac : (A ∪ C).Nonempty) : jaccardGap A C ≤ jaccardGap A B + jaccardGap B C := by
  have hu : ∀ {X Y : Finset T}, (X ∪ Y).Nonempty →
      (0 : ℚ) < X.card + Y.card + ((X ∪ Y).card - (X ∩ Y).card) := by
    intro X Y h
    have h1 : (0 : ℚ) < (X ∪ Y).card := by exact_mod_cast h.card_pos
    have hc : ((X ∪ Y).card : ℚ) + (X ∩ Y).card = X.card + Y.card := by
      exact_mod_cast Finset.card_union_add_card_inter X Y
    linarith
  rw [jaccardGap_eq A C hac, jaccardGap_eq A B hab, jaccardGap_eq B C hbc]
  have u1 := hu hab
  have u2 := hu hbc
  have u3 := hu hac
  have t := symm_triangle A B C
  have p1 := symm_nonneg A B
  have p2 := symm_nonneg B C
  have p3 := symm_nonneg A C
  have q1 : (B.card : ℚ) ≤ C.card + ((B ∪ C).card - (B ∩ C).card) := card_le_symm B C
  have q2 : (B.card : ℚ) ≤ A.card + ((A ∪ B).card - (A ∩ B).card) := by
    have := card_le_symm B A
    rwa [Finset.union_comm B A, Finset.inter_comm B A] at this
  have ca : (0 : ℚ) ≤ A.card := by positivity
  have cc : (0 : ℚ) ≤ C.card := by positivity
  generalize ((A ∪ B).card - (A ∩ B).card : ℚ) = p at *
  generalize ((B ∪ C).card - (B ∩ C).card : ℚ) = q at *
  generalize ((A ∪ C).card - (A ∩ C).card : ℚ) = r at *
  generalize (A.card : ℚ) = x at *
  generalize (B.card : ℚ) = y at *
  generalize (C.card : ℚ) = z at *
  have e1 : r / (x + z + r) ≤ (p + q) / (x + z + (p + q)) := frac_mono (by linarith) p3 t u3
  have e2 : p / (x + z + (p + q)) ≤ p / (x + y + p) := div_le_div_of_nonneg_left p1 u1 (by linarith)
  have e3 : q / (x + z + (p + q)) ≤ q / (y + z + q) := div_le_div_of_nonneg_left p2 u2 (by linarith)
  rw [add_div] at e1
  rw [mul_div_assoc, mul_div_assoc, mul_div_assoc]
  linarith

/-! ## The computed values -/

/-- The value that `compute_minhash_distance` returns. -/
theorem minhashDistance_eq {a b : List T} (h : a.length = b.length) (h0 : 0 < a.length) (hn : a.length ≤ 2 ^ 53) :
    minhashDistance a b = .ok (.fin (rndQ b64 (1 - rndQ b64 ((agree a b : ℚ) / a.length)))) := by
  unfold minhashDistance
  rw [minhashSimilarity_eq h h0 hn]
  have hu := ratio_unit (agree_le a b)
  show Except.ok (Fl.sub b64 (.fin 1) (.fin (rndQ b64 ((agree a b : ℚ) / a.length)))) = _
  rw [one_sub_fl b64_ok (rndQ_nonneg hu.1) (rndQ_le_one b64_ok hu.1 hu.2)]

/-- Two roundings. -/
theorem one_sub_err {f : Fmt} (h : f.Ok) {q : ℚ} (h0 : 0 ≤ q) (h1 : q ≤ 1) :
    |rndQ f (1 - rndQ f q) - (1 - q)| ≤ 1 / 2 ^ f.prec := by
  have e1 := rndQ_err_unit h h0 h1
  have e2 := rndQ_err_unit h (q := 1 - rndQ f q) (by linarith [rndQ_le_one h h0 h1]) (by linarith [rndQ_nonneg (f := f) h0])
  have e3 : rndQ f (1 - rndQ f q) - (1 - q) = (rndQ f (1 - rndQ f q) - (1 - rndQ f q)) - (rndQ f q - q) := by ring
  have e4 : (1 : ℚ) / 2 ^ f.prec = 1 / 2 ^ (f.prec + 1) + 1 / 2 ^ (f.prec + 1) := by
    rw [pow_succ]; field_simp; norm_num
  rw [e3, e4]
  exact (abs_sub _ _).trans (add_le_add e2 e1)

/-- C121: the triangle inequality fails for computed MinHash distances, already with five hashes: two signatures that
differ from a third in one position each are farther apart than the sum, whether the sum is exact or an `f64` sum. -/
theorem C121_minhash_triangle_false :
    ∃ (a b c : List UInt64) (x y z : ℚ), a.length = 5 ∧ b.length = 5 ∧ c.length = 5 ∧
      minhashDistance a b = .ok (.fin x) ∧ minhashDistance b c = .ok (.fin y) ∧ minhashDistance a c = .ok (.fin z) ∧
      x + y < z ∧ Fl.lt (rnd b64 (x + y)) (.fin z) = true := by
  refine ⟨[1, 2, 3, 4, 5], [0, 2, 3, 4, 5], [0, 0, 3, 4, 5], _, _, _, rfl, rfl, rfl,
    minhashDistance_eq rfl (by simp) (by simp), minhashDistance_eq rfl (by simp) (by simp),
    minhashDistance_eq rfl (by simp) (by simp), ?_, ?_⟩ <;> decide +kernel

/-- C121: what holds. The computed MinHash distance is symmetric, is zero exactly for equal signatures, differs from the
share of differing positions by at most 2^-53, and satisfies the triangle inequality up to three such errors. -/
theorem C121_minhash_partial (a b c : List T) (hab : a.length = b.length) (hbc : b.length = c.length) (h0 : 0 < a.length)
    (hn : a.length ≤ 2 ^ 53) :
    ∃ x y z : ℚ, minhashDistance a b = .ok (.fin x) ∧ minhashDistance b c = .ok (.fin y) ∧
      minhashDistance a c = .ok (.fin z) ∧ minhashDistance b a = .ok (.fin x) ∧ (x = 0 ↔ a = b) ∧ 0 ≤ x ∧ x ≤ 1 ∧
      |x - (a.length - agree a b : ℚ) / a.length| ≤ 1 / 2 ^ 53 ∧ z ≤ x + y + 3 / 2 ^ 53 := by
  have hnq : (0 : ℚ) < a.length := by exact_mod_cast h0
  have er : ∀ {u v : List T}, u.length = a.length →
      |rndQ b64 (1 - rndQ b64 ((agree u v : ℚ) / u.length)) - (1 - (agree u v : ℚ) / a.length)| ≤ 1 / 2 ^ 53 := by
    intro u v hu
    have hr := ratio_unit (agree_le u v)
    have := one_sub_err b64_ok hr.1 hr.2
    rw [hu] at this ⊢
    exact this
  have e1 := er (u := a) (v := b) rfl
  have e2 := er (u := b) (v := c) hab.symm
  have e3 := er (u := a) (v := c) rfl
  have u1 := ratio_unit (agree_le a b)
  have s0 := rndQ_nonneg (f := b64) u1.1
  have s1 := rndQ_le_one b64_ok u1.1 u1.2
  refine ⟨_, _, _, minhashDistance_eq hab h0 hn, minhashDistance_eq hbc (by omega) (by omega),
    minhashDistance_eq (hab.trans hbc) h0 hn, ?_, ?_, rndQ_nonneg (by linarith),
    rndQ_le_one b64_ok (by linarith) (by linarith), ?_, ?_⟩
  · rw [minhashDistance_eq hab.symm (by omega) (by omega), agree_comm b a hab.symm, hab]
  · have hone := C08_one_iff_equal a b hab h0 hn
    rw [minhashSimilarity_eq hab h0 hn] at hone
    simp only [Except.ok.injEq, Fl.fin.injEq] at hone
    rw [← hone]
    constructor
    · intro hz
      by_contra hne
      have hlt : agree a b < a.length := lt_of_le_of_ne (agree_le a b) fun hc => hne (by
        rw [hc, div_self hnq.ne', rndQ_one b64_ok])
      have hq : ((agree a b : ℚ) / a.length) ≤ 1 - 1 / 2 ^ b64.prec := by
        rw [div_le_iff₀ hnq]
        have h1 : (agree a b : ℚ) + 1 ≤ a.length := by exact_mod_cast hlt
        have h2 : (a.length : ℚ) ≤ 2 ^ 53 := by exact_mod_cast hn
        have h3 : (1 : ℚ) / 2 ^ 53 * a.length ≤ 1 := by
          rw [one_div_mul_eq_div, div_le_one (by positivity)]; exact h2
        simp only [b64]
        linarith
      have hr : rndQ b64 ((agree a b : ℚ) / a.length) ≤ 1 - 1 / 2 ^ 53 := by
        have hm := rndQ_mono (f := b64) (by simp [b64]) u1.1 hq
        have hv : rndQ b64 (1 - 1 / 2 ^ b64.prec) = 1 - 1 / 2 ^ 53 := by decide +kernel
        rwa [hv] at hm
      have hp : (2 : ℚ) ^ (-53 : ℤ) ≤ 1 - rndQ b64 ((agree a b : ℚ) / a.length) := by
        have : (2 : ℚ) ^ (-53 : ℤ) = 1 / 2 ^ 53 := by rw [zpow_neg, one_div]; norm_cast
        rw [this]; linarith
      have := rndQ_pos b64_ok (by simp [b64]) hp
      rw [hz] at this
      have := two_zpow_pos (-53)
      linarith
    · intro h
      rw [h, sub_self, rndQ_zero]
  · rw [sub_div, div_self hnq.ne']
    exact e1
  · have ht : (agree a b : ℚ) / a.length + (agree b c : ℚ) / a.length ≤ (agree a c : ℚ) / a.length + 1 := by
      rw [← add_div, div_add_one hnq.ne']
      exact div_le_div_of_nonneg_right (by exact_mod_cast agree_triangle a b c hab) hnq.le
    rw [abs_le] at e1 e2 e3
    have e53 : (3 : ℚ) / 2 ^ 53 = 3 * (1 / 2 ^ 53) := by ring
    rw [e53]
    linarith [e1.1, e2.1, e3.2]

/-- C121: when the number of hashes is a power of two, such as 128, there is no rounding: the computed distance is the
share of differing positions and the triangle inequality holds exactly. -/
theorem C121_minhash_exact_partial (k : Nat) (hk : k ≤ 53) (a b c : List T) (ha : a.length = 2 ^ k) (hb : b.length = 2 ^ k)
    (hc : c.length = 2 ^ k) :
    ∃ x y z : ℚ, minhashDistance a b = .ok (.fin x) ∧ minhashDistance b c = .ok (.fin y) ∧
      minhashDistance a c = .ok (.fin z) ∧ x = (2 ^ k - agree a b : ℚ) / 2 ^ k ∧ z ≤ x + y := by
  have h0 : 0 < 2 ^ k := Nat.two_pow_pos k
  have hn : 2 ^ k ≤ 2 ^ 53 := Nat.pow_le_pow_right (by norm_num) hk
  have h2 : (0 : ℚ) < 2 ^ k := by positivity
  have rep : ∀ m : ℕ, m ≤ 2 ^ k → rndQ b64 ((m : ℚ) / 2 ^ k) = (m : ℚ) / 2 ^ k := by
    intro m hm
    apply rndQ_of_repr (by simp [b64])
    refine ⟨m, -(k : ℤ), ?_, ?_, ?_⟩
    · rw [zpow_neg, zpow_natCast]; push_cast; rw [div_eq_mul_inv]
    · have : (m : ℤ) ≤ 2 ^ 53 := by exact_mod_cast hm.trans hn
      simpa [b64] using this
    · simp only [b64]; omega
  have val : ∀ u v : List T, u.length = 2 ^ k → v.length = 2 ^ k →
      minhashDistance u v = .ok (.fin ((2 ^ k - agree u v : ℚ) / 2 ^ k)) := by
    intro u v hu hv
    rw [minhashDistance_eq (hu.trans hv.symm) (by omega) (by omega)]
    have hle : agree u v ≤ 2 ^ k := hu ▸ agree_le u v
    have e1 : (agree u v : ℚ) / u.length = (agree u v : ℚ) / 2 ^ k := by rw [hu]; push_cast; rfl
    have e2 : 1 - (agree u v : ℚ) / 2 ^ k = ((2 ^ k - agree u v : ℕ) : ℚ) / 2 ^ k := by
      rw [Nat.cast_sub hle, sub_div]; push_cast; rw [div_self h2.ne']
    rw [e1, rep _ hle, e2, rep _ (Nat.sub_le _ _), Nat.cast_sub hle]
    push_cast
    rfl
  refine ⟨_, _, _, val a b ha hb, val b c hb hc, val a c ha hc, rfl, ?_⟩
  rw [← add_div]
  gcongr
  have := agree_triangle a b c (ha.trans hb.symm)
  rw [ha] at this
  have : (agree a b : ℚ) + agree b c ≤ agree a c + 2 ^ k := by exact_mod_cast this
  linarith

/-- A case for the two theorems: four hashes, each pair differs somewhere. -/
example : ([1, 2, 3, 4] : List Nat).length = 2 ^ 2 ∧ agree ([1, 2, 3, 4] : List Nat) [1, 2, 3, 5] = 3 ∧
    agree ([1, 2, 3, 5] : List Nat) [1, 7, 7, 5] = 2 ∧ agree ([1, 2, 3, 4] : List Nat) [1, 7, 7, 5] = 1 := by decide

/-! ## Jaccard distance -/

/-- The value that `compute_jaccard_distance` returns. -/
theorem jaccardDistance_eq {l1 l2 : List T} (h0 : l1 ≠ [] ∨ l2 ≠ [])
    (hn : (l1.toFinset ∪ l2.toFinset).card ≤ 2 ^ 24) :
    jaccardDistance l1 l2 = .fin (rndQ b32 (1 - rndQ b32 (((l1.toFinset ∩ l2.toFinset).card : ℚ) /
      (l1.toFinset ∪ l2.toFinset).card))) := by
  unfold jaccardDistance
  rw [jaccardSimilarity_eq h0 hn]
  have hu := ratio_unit (Finset.card_le_card
    (Finset.inter_subset_left.trans Finset.subset_union_left : l1.toFinset ∩ l2.toFinset ⊆ l1.toFinset ∪ l2.toFinset))
  rw [one_sub_fl b32_ok (rndQ_nonneg hu.1) (rndQ_le_one b32_ok hu.1 hu.2)]

/-- C121: the triangle inequality fails for computed Jaccard distances: `{1}` and `{2, 3}` are at distance 1, but the
distances to `{1, 2, 3}` add up to less, whether the sum is exact or an `f32` sum. -/
theorem C121_jaccard_triangle_false :
    ∃ (a b c : List Nat) (x y z : ℚ), jaccardDistance a b = .fin x ∧ jaccardDistance b c = .fin y ∧
      jaccardDistance a c = .fin z ∧ x + y < z ∧ Fl.lt (rnd b32 (x + y)) (.fin z) = true := by
  refine ⟨[1], [1, 2, 3], [2, 3], _, _, _, jaccardDistance_eq (by simp) (by decide), jaccardDistance_eq (by simp) (by decide),
    jaccardDistance_eq (by simp) (by decide), ?_, ?_⟩ <;> decide +kernel

/-- C121: what holds. The computed Jaccard distance is symmetric, zero exactly for equal token sets, differs from the
exact one by at most 2^-24, and satisfies the triangle inequality up to three such errors. -/
theorem C121_jaccard_partial (a b c : List T) (hab : a ≠ [] ∨ b ≠ []) (hbc : b ≠ [] ∨ c ≠ []) (hac : a ≠ [] ∨ c ≠ [])
    (nab : (a.toFinset ∪ b.toFinset).card ≤ 2 ^ 24) (nbc : (b.toFinset ∪ c.toFinset).card ≤ 2 ^ 24)
    (nac : (a.toFinset ∪ c.toFinset).card ≤ 2 ^ 24) :
    ∃ x y z : ℚ, jaccardDistance a b = .fin x ∧ jaccardDistance b c = .fin y ∧ jaccardDistance a c = .fin z ∧
      jaccardDistance b a = .fin x ∧ (x = 0 ↔ ∀ t, t ∈ a ↔ t ∈ b) ∧ 0 ≤ x ∧ x ≤ 1 ∧
      |x - (1 - ((a.toFinset ∩ b.toFinset).card : ℚ) / (a.toFinset ∪ b.toFinset).card)| ≤ 1 / 2 ^ 24 ∧
      z ≤ x + y + 3 / 2 ^ 24 := by
  have ne : ∀ {u v : List T}, (u ≠ [] ∨ v ≠ []) → (u.toFinset ∪ v.toFinset).Nonempty := by
    rintro u v (h | h)
    · obtain ⟨x, l, rfl⟩ := List.exists_cons_of_ne_nil h
      exact ⟨x, by simp⟩
    · obtain ⟨x, l, rfl⟩ := List.exists_cons_of_ne_nil h
      exact ⟨x, by simp⟩
  have sub : ∀ X Y : Finset T, (X ∩ Y).card ≤ (X ∪ Y).card := fun X Y =>
    Finset.card_le_card (Finset.inter_subset_left.trans Finset.subset_union_left)
  have er : ∀ u v : List T, |rndQ b32 (1 - rndQ b32 (((u.toFinset ∩ v.toFinset).card : ℚ) /
      (u.toFinset ∪ v.toFinset).card)) - jaccardGap u.toFinset v.toFinset| ≤ 1 / 2 ^ 24 := by
    intro u v
    have hr := ratio_unit (sub u.toFinset v.toFinset)
    exact one_sub_err b32_ok hr.1 hr.2
  have e1 := er a b
  have e2 := er b c
  have e3 := er a c
  have u1 := ratio_unit (sub a.toFinset b.toFinset)
  have s0 := rndQ_nonneg (f := b32) u1.1
  have s1 := rndQ_le_one b32_ok u1.1 u1.2
  refine ⟨_, _, _, jaccardDistance_eq hab nab, jaccardDistance_eq hbc nbc, jaccardDistance_eq hac nac, ?_, ?_,
    rndQ_nonneg (by linarith), rndQ_le_one b32_ok (by linarith) (by linarith), e1, ?_⟩
  · rw [jaccardDistance_eq hab.symm (by rwa [Finset.union_comm]), Finset.inter_comm, Finset.union_comm]
  · have hone := C12_one_iff_equal a b hab nab
    rw [jaccardSimilarity_eq hab nab] at hone
    simp only [Fl.fin.injEq] at hone
    rw [← hone]
    have hpos : 0 < (a.toFinset ∪ b.toFinset).card := (ne hab).card_pos
    have hnq : (0 : ℚ) < (a.toFinset ∪ b.toFinset).card := by exact_mod_cast hpos
    have hsub := sub a.toFinset b.toFinset
    generalize (a.toFinset ∪ b.toFinset).card = n at *
    generalize (a.toFinset ∩ b.toFinset).card = m at *
    constructor
    · intro hz
      by_contra hne
      have hlt : m < n := lt_of_le_of_ne hsub fun hc => hne (by rw [hc, div_self hnq.ne', rndQ_one b32_ok])
      have hq : ((m : ℚ) / n) ≤ 1 - 1 / 2 ^ b32.prec := by
        rw [div_le_iff₀ hnq]
        have h1 : (m : ℚ) + 1 ≤ n := by exact_mod_cast hlt
        have h2 : (n : ℚ) ≤ 2 ^ 24 := by exact_mod_cast nab
        have h3 : (1 : ℚ) / 2 ^ 24 * n ≤ 1 := by
          rw [one_div_mul_eq_div, div_le_one (by positivity)]; exact h2
        simp only [b32]
        linarith
      have hr : rndQ b32 ((m : ℚ) / n) ≤ 1 - 1 / 2 ^ 24 := by
        have hm := rndQ_mono (f := b32) (by simp [b32]) u1.1 hq
        have hv : rndQ b32 (1 - 1 / 2 ^ b32.prec) = 1 - 1 / 2 ^ 24 := by decide +kernel
        rwa [hv] at hm
      have hp : (2 : ℚ) ^ (-24 : ℤ) ≤ 1 - rndQ b32 ((m : ℚ) / n) := by
        have : (2 : ℚ) ^ (-24 : ℤ) = 1 / 2 ^ 24 := by rw [zpow_neg, one_div]; norm_cast
        rw [this]; linarith
      have := rndQ_pos b32_ok (by simp [b32]) hp
      rw [hz] at this
      have := two_zpow_pos (-24)
      linarith
    · intro h
      rw [h, sub_self, rndQ_zero]
  · have ht := jaccardGap_triangle a.toFinset b.toFinset c.toFinset (ne hab) (ne hbc) (ne hac)
    rw [abs_le] at e1 e2 e3
    have e24 : (3 : ℚ) / 2 ^ 24 = 3 * (1 / 2 ^ 24) := by ring
    rw [e24]
    linarith [e1.1, e2.1, e3.2]

/-- A case: overlapping token lists with repetitions. -/
example : (([1, 1, 2] : List Nat).toFinset ∪ ([2, 3] : List Nat).toFinset).card = 3 ∧
    (([2, 3] : List Nat).toFinset ∪ ([3, 3, 4] : List Nat).toFinset).card = 3 ∧
    (([1, 1, 2] : List Nat).toFinset ∪ ([3, 3, 4] : List Nat).toFinset).card = 4 := by decide

end Verif.Props
