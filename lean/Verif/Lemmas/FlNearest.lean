import Verif.Lemmas.Fl
import Verif.Spec.Float
import Mathlib.Algebra.Order.Round

/-! The rounding function of the model is rounding to nearest, ties to even. -/
namespace Verif
open Verif.Spec

theorem rne_nearest (t : ℚ) (k : ℤ) : |(rne t : ℚ) - t| ≤ |(k : ℚ) - t| := by
  by_cases hk : k = rne t
  · rw [hk]
  · have h1 := rne_err t
    have h2 : (1 : ℚ) ≤ |(k : ℚ) - rne t| := by
      have : 1 ≤ |k - rne t| := Int.one_le_abs (sub_ne_zero.mpr hk)
      exact_mod_cast this
    have h3 : |(k : ℚ) - rne t| ≤ |(k : ℚ) - t| + |(rne t : ℚ) - t| := by
      have := abs_sub_le (k : ℚ) t (rne t)
      rwa [abs_sub_comm t] at this
    linarith

theorem rne_tie (t : ℚ) (k : ℤ) (hk : k ≠ rne t) (h : |(rne t : ℚ) - t| = |(k : ℚ) - t|) :
    (k = rne t + 1 ∨ k = rne t - 1) ∧ Even (rne t) := by
  have h1 : (⌊t⌋ : ℚ) ≤ t := Int.floor_le t
  have h2 : t < ⌊t⌋ + 1 := Int.lt_floor_add_one t
  have he := rne_err t
  have h4 : |(k : ℚ) - t| ≤ 1 / 2 := h ▸ he
  rw [abs_le] at h4
  have h5 : (k : ℚ) < ⌊t⌋ + 2 := by linarith
  have h6 : (⌊t⌋ : ℚ) - 1 < k := by linarith
  have h5' : k < ⌊t⌋ + 2 := by exact_mod_cast h5
  have h6' : ⌊t⌋ - 1 < k := by exact_mod_cast h6
  have hk2 : k = ⌊t⌋ ∨ k = ⌊t⌋ + 1 := by omega
  by_cases c1 : t - ⌊t⌋ < 1 / 2
  · exfalso
    have e : rne t = ⌊t⌋ := by unfold rne; rw [if_pos c1]
    rcases hk2 with rfl | rfl
    · exact hk e.symm
    · push_cast at h4; linarith
  · by_cases c2 : 1 / 2 < t - ⌊t⌋
    · exfalso
      have e : rne t = ⌊t⌋ + 1 := by unfold rne; rw [if_neg c1, if_pos c2]
      rcases hk2 with rfl | rfl
      · linarith
      · exact hk e.symm
    · by_cases c3 : ⌊t⌋ % 2 = 0
      · have e : rne t = ⌊t⌋ := by unfold rne; rw [if_neg c1, if_neg c2, if_pos c3]
        refine ⟨by omega, ?_⟩
        rw [e, Int.even_iff]; exact c3
      · have e : rne t = ⌊t⌋ + 1 := by unfold rne; rw [if_neg c1, if_neg c2, if_neg c3]
        refine ⟨by omega, ?_⟩
        rw [e, Int.even_iff]; omega

theorem rne_abs_le {t : ℚ} {N : ℤ} (h : |t| ≤ N) : |rne t| ≤ N := by
  rw [abs_le] at h ⊢
  constructor
  · have := rne_mono (q := ((-N : ℤ) : ℚ)) (q' := t) (by push_cast; exact h.1)
    rwa [rne_intCast] at this
  · have := rne_mono (q := t) (q' := (N : ℚ)) h.2
    rwa [rne_intCast] at this

/-- Scaled by its unit in the last place, `q` has at most `prec` bits before the point. -/
theorem scaled_le {f : Fmt} {q : ℚ} (hq : q ≠ 0) : |q / (2 : ℚ) ^ ulpExp f q| ≤ ((2 ^ f.prec : ℤ) : ℚ) := by
  have hu := two_zpow_pos (ulpExp f q)
  rw [abs_div, abs_of_pos hu, div_le_iff₀ hu]
  have h1 := lt_two_zpow_log |q|
  refine h1.le.trans ?_
  push_cast
  rw [← zpow_natCast, ← zpow_add₀ (by norm_num)]
  refine zpow_le_zpow_right₀ (by norm_num) ?_
  have : Int.log 2 |q| - (f.prec - 1) ≤ ulpExp f q := le_max_left _ _
  omega

theorem binary_of_scaled {f : Fmt} (hp : 1 ≤ f.prec) {n e : ℤ} (hn : |n| ≤ 2 ^ f.prec) (he : f.emin ≤ e) :
    ∃ m e' : ℤ, (n : ℚ) * (2 : ℚ) ^ e = m * (2 : ℚ) ^ e' ∧ |m| < 2 ^ f.prec ∧ e ≤ e' ∧ e' ≤ e + 1 := by
  rcases hn.lt_or_eq with h | h
  · exact ⟨n, e, rfl, h, le_rfl, by omega⟩
  · obtain ⟨p, hpe⟩ : ∃ p, f.prec = p + 1 := ⟨f.prec - 1, by omega⟩
    rw [hpe] at h ⊢
    have h2 : (2 : ℤ) ^ p < 2 ^ (p + 1) := by
      have : (0 : ℤ) < 2 ^ p := by positivity
      rw [pow_succ]; omega
    have h3 : (2 : ℚ) ^ (e + 1) = 2 ^ e * 2 := by rw [zpow_add₀ (by norm_num), zpow_one]
    rcases abs_eq (show (0 : ℤ) ≤ 2 ^ (p + 1) by positivity) |>.mp h with h | h
    · refine ⟨2 ^ p, e + 1, ?_, ?_, by omega, le_rfl⟩
      · rw [h, h3]; push_cast; ring
      · rw [abs_of_pos (by positivity)]; exact h2
    · refine ⟨-2 ^ p, e + 1, ?_, ?_, by omega, le_rfl⟩
      · rw [h, h3]; push_cast; ring
      · rw [abs_neg, abs_of_pos (by positivity)]; exact h2

/-- A value that is not a multiple of the unit in the last place is below the binade of `q`, hence strictly farther
than some multiple. -/
theorem far_of_fine {f : Fmt} (hp : 1 ≤ f.prec) {q : ℚ} (hq : q ≠ 0) {y : ℚ} (hy : Binary f.prec f.emin y)
    (hne : ¬ ∃ k : ℤ, y = k * (2 : ℚ) ^ ulpExp f q) :
    ∃ k : ℤ, |(k : ℚ) * (2 : ℚ) ^ ulpExp f q - q| < |y - q| := by
  obtain ⟨m, e', rfl, hm, he'⟩ := hy
  have hlt : e' < ulpExp f q := by
    by_contra hc
    push Not at hc
    obtain ⟨d, hd⟩ := Int.le.dest hc
    refine hne ⟨m * 2 ^ d, ?_⟩
    rw [← hd, zpow_add₀ (by norm_num), zpow_natCast]
    push_cast; ring
  have hu : ulpExp f q = Int.log 2 |q| - (f.prec - 1) := by
    unfold ulpExp at hlt ⊢
    rcases max_choice (Int.log 2 |q| - (f.prec - 1 : ℤ)) f.emin with h | h
    · exact h
    · omega
  have hB : (2 : ℚ) ^ (f.prec - 1) * 2 ^ ulpExp f q = 2 ^ Int.log 2 |q| := by
    rw [hu, ← zpow_natCast, ← zpow_add₀ (by norm_num)]
    congr 1
    push_cast [Nat.cast_sub hp]; ring
  have hBq : (2 : ℚ) ^ Int.log 2 |q| ≤ |q| := two_zpow_log_le (abs_pos.mpr hq)
  have hyB : |(m : ℚ) * (2 : ℚ) ^ e'| < 2 ^ Int.log 2 |q| := by
    rw [abs_mul, abs_of_pos (two_zpow_pos e')]
    have h1 : (|(m : ℚ)|) < 2 ^ f.prec := by exact_mod_cast hm
    have h2 : (2 : ℚ) ^ e' ≤ 2 ^ (ulpExp f q - 1) := zpow_le_zpow_right₀ (by norm_num) (by omega)
    calc |(m : ℚ)| * 2 ^ e' < 2 ^ f.prec * 2 ^ e' := mul_lt_mul_of_pos_right h1 (two_zpow_pos _)
      _ ≤ 2 ^ f.prec * 2 ^ (ulpExp f q - 1) := mul_le_mul_of_nonneg_left h2 (by positivity)
      _ = 2 ^ Int.log 2 |q| := by
        rw [← hB]
        obtain ⟨p, hpe⟩ : ∃ p, f.prec = p + 1 := ⟨f.prec - 1, by omega⟩
        rw [hpe, zpow_sub₀ (by norm_num), zpow_one, Nat.add_sub_cancel, pow_succ]
        field_simp
  rw [abs_lt] at hyB
  rcases lt_or_gt_of_ne hq with h | h
  · refine ⟨-2 ^ (f.prec - 1), ?_⟩
    rw [abs_of_neg h] at hBq hyB hB
    push_cast
    rw [neg_mul, hB, abs_of_nonneg (by linarith), abs_of_pos (by linarith)]
    linarith
  · refine ⟨2 ^ (f.prec - 1), ?_⟩
    rw [abs_of_pos h] at hBq hyB hB
    push_cast
    rw [hB, abs_of_nonpos (by linarith), abs_of_neg (by linarith)]
    linarith

theorem rndQ_nearest {f : Fmt} (hp : 1 ≤ f.prec) (q : ℚ) : NearestEven (Binary f.prec f.emin) q (rndQ f q) := by
  by_cases hq : q = 0
  · subst hq
    rw [rndQ_zero]
    refine ⟨⟨0, f.emin, by simp, by rw [abs_zero]; positivity, le_rfl⟩, fun y _ => by simp, fun y _ hy h => ?_⟩
    simp only [sub_self, abs_zero, sub_zero] at h
    exact absurd (abs_eq_zero.mp h.symm) hy
  · have hu := two_zpow_pos (ulpExp f q)
    have hx : rndQ f q = rne (q / 2 ^ ulpExp f q) * 2 ^ ulpExp f q := by unfold rndQ; rw [if_neg hq]
    have hmul : ∀ k : ℤ, |(k : ℚ) * 2 ^ ulpExp f q - q| = |(k : ℚ) - q / 2 ^ ulpExp f q| * 2 ^ ulpExp f q := by
      intro k
      rw [← abs_of_pos hu, ← abs_mul, abs_of_pos hu]
      congr 1
      field_simp
    have hle : ∀ k : ℤ, |rndQ f q - q| ≤ |(k : ℚ) * 2 ^ ulpExp f q - q| := by
      intro k
      rw [hx, hmul, hmul]
      exact mul_le_mul_of_nonneg_right (rne_nearest _ k) hu.le
    refine ⟨?_, fun y hy => ?_, fun y hy hne h => ?_⟩
    · obtain ⟨m, e', h1, h2, h3, _⟩ := binary_of_scaled hp (rne_abs_le (scaled_le hq)) (le_max_right _ f.emin)
      exact ⟨m, e', hx.trans h1, h2, (le_max_right _ _).trans h3⟩
    · by_cases hk : ∃ k : ℤ, y = k * (2 : ℚ) ^ ulpExp f q
      · obtain ⟨k, rfl⟩ := hk
        exact hle k
      · obtain ⟨k, hk⟩ := far_of_fine hp hq hy hk
        exact (hle k).trans hk.le
    · by_cases hk : ∃ k : ℤ, y = k * (2 : ℚ) ^ ulpExp f q
      · obtain ⟨k, rfl⟩ := hk
        rw [hx, hmul, hmul] at h
        have h' := mul_right_cancel₀ hu.ne' h
        have hkn : k ≠ rne (q / 2 ^ ulpExp f q) := by
          rintro rfl
          exact hne hx.symm
        obtain ⟨h1, h2⟩ := rne_tie _ k hkn h'
        exact ⟨_, k, _, hx, rfl, h1, h2⟩
      · obtain ⟨k, hk⟩ := far_of_fine hp hq hy hk
        exact absurd h ((hle k).trans_lt hk).ne

theorem floatValue_binary {p : Nat} {emin etop : ℤ} {y : ℚ} (h : FloatValue p emin etop y) : Binary p emin y := by
  obtain ⟨m, e, h1, h2, h3, _⟩ := h
  exact ⟨m, e, h1, h2, h3⟩

/-- A value of the unbounded format below the overflow bound is a value of the format. -/
theorem floatValue_of_binary {p : Nat} {emin etop : ℤ} (ht : emin ≤ etop) {x : ℚ} (h : Binary p emin x)
    (hx : |x| < 2 ^ (etop + p)) : FloatValue p emin etop x := by
  obtain ⟨m, e, rfl, h2, h3⟩ := h
  by_cases he : e ≤ etop
  · exact ⟨m, e, rfl, h2, h3, he⟩
  · push Not at he
    obtain ⟨d, hd⟩ : ∃ d : ℕ, e = etop + d := by
      obtain ⟨d, hd⟩ := Int.le.dest he.le
      exact ⟨d, hd.symm⟩
    refine ⟨m * 2 ^ d, etop, ?_, ?_, ht, le_rfl⟩
    · rw [hd, zpow_add₀ (by norm_num), zpow_natCast]; push_cast; ring
    · rw [hd, zpow_add₀ (by norm_num), zpow_natCast] at hx
      have h5 : (m : ℚ) * (2 ^ etop * 2 ^ d) = ((m * 2 ^ d : ℤ) : ℚ) * 2 ^ etop := by push_cast; ring
      rw [h5, abs_mul, abs_of_pos (two_zpow_pos etop), zpow_add₀ (by norm_num), mul_comm ((2 : ℚ) ^ etop),
        zpow_natCast] at hx
      have h7 := lt_of_mul_lt_mul_right hx (two_zpow_pos etop).le
      exact_mod_cast h7

/-- A finite result of the rounding is the nearest value of the format. -/
theorem rnd_nearest {f : Fmt} (hp : 1 ≤ f.prec) (ht : f.emin ≤ f.emax - f.prec) {q x : ℚ} (h : rnd f q = .fin x) :
    NearestEven (FloatValue f.prec f.emin (f.emax - f.prec)) q x := by
  have hx : x = rndQ f q ∧ |x| < 2 ^ f.emax := by
    unfold rnd at h
    split_ifs at h with h1 h2
    have := (Fl.fin.inj h).symm
    refine ⟨this, ?_⟩
    rw [this, abs_lt]
    exact ⟨not_le.mp h2, not_le.mp h1⟩
  obtain ⟨h1, h2, h3⟩ := rndQ_nearest hp q
  rw [← hx.1] at h1 h2 h3
  exact ⟨floatValue_of_binary ht h1 (by rw [sub_add_cancel]; exact hx.2), fun y hy => h2 y (floatValue_binary hy),
    fun y hy => h3 y (floatValue_binary hy)⟩

theorem rnd_double {q x : ℚ} (h : rnd b64 q = .fin x) : NearestEven Double q x :=
  rnd_nearest (f := b64) (by decide) (by decide) h

theorem rnd_single {q x : ℚ} (h : rnd b32 q = .fin x) : NearestEven Single q x :=
  rnd_nearest (f := b32) (by decide) (by decide) h

end Verif
