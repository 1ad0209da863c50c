import Verif.Lemmas.Params
import Verif.Lemmas.Ratio
import Mathlib.Data.Real.Basic
import Mathlib.Tactic.Linarith

/-! # Properties C13, C14: the LSH parameter search -/
namespace Verif.Props

/-- C13: for every `powf`, similarity and probability the search terminates (any fuel above `n` suffices, so
the result is the same for all of them) and, for `n ≥ 1`, returns `b ≥ 1`, `r ≥ 1` with `b = n / r`, hence
`b * r ≤ n`. -/
theorem C13_params_well_formed (powf : Fl → Fl → Fl) (s p : Fl) (n : Nat) (hn : 1 ≤ n) :
    ∃ b r, (∀ fuel, n ≤ fuel → calculateMinhashParamsWithProba powf s n p fuel = some (b, r)) ∧
      1 ≤ b ∧ 1 ≤ r ∧ b = n / r ∧ b * r ≤ n := by
  obtain ⟨r, e, h1, h2, h3, h4⟩ := brLoop_spec (fun b r => Fl.gt (proba powf s b r) p) n n 1
    (le_refl _) hn (by omega)
  refine ⟨n / r, r, ?_, Nat.div_pos h2 h1, h1, rfl, Nat.div_mul_le_self n r⟩
  intro fuel hf
  obtain ⟨r', e', h1', h2', h3', h4'⟩ := brLoop_spec (fun b r => Fl.gt (proba powf s b r) p) n fuel 1
    (le_refl _) hn (by omega)
  have : r' = r := by
    rcases lt_trichotomy r' r with hlt | heq | hgt
    · obtain ⟨ha, hb⟩ := h3 (r' + 1) (by omega) (by omega)
      rcases h4' with h | h
      · rw [Nat.add_sub_cancel] at hb; omega
      · rw [h] at ha; cases ha
    · exact heq
    · obtain ⟨ha, hb⟩ := h3' (r + 1) (by omega) (by omega)
      rcases h4 with h | h
      · rw [Nat.add_sub_cancel] at hb; omega
      · rw [h] at ha; cases ha
  subst this
  unfold calculateMinhashParamsWithProba calculateBAndR
  rw [Nat.div_one] at e'
  exact e'

/-- C13 for the default probability. -/
theorem C13_params_default (powf : Fl → Fl → Fl) (s : Fl) (n : Nat) (hn : 1 ≤ n) :
    ∃ b r, (∀ fuel, n ≤ fuel → calculateMinhashParams powf s n fuel = some (b, r)) ∧
      1 ≤ b ∧ 1 ≤ r ∧ b = n / r ∧ b * r ≤ n :=
  C13_params_well_formed powf s (rnd b64 (99 / 100)) n hn

/-- C13: also for `n = 0` the search terminates (with no bands). -/
theorem C13_params_zero (powf : Fl → Fl → Fl) (s p : Fl) (fuel : Nat) (hf : 1 ≤ fuel) :
    calculateMinhashParamsWithProba powf s 0 p fuel = some (0, 1) := by
  obtain ⟨k, rfl⟩ : ∃ k, fuel = k + 1 := ⟨fuel - 1, by omega⟩
  rfl

/-- C13 instance: a `powf` under which the search moves (accepting every step until `b = 1`). -/
example : calculateMinhashParamsWithProba (fun _ _ => .fin 0) (.fin 1) 10 .ninf 20 = some (1, 6) := by
  have h : ∀ b r, Fl.gt (proba (fun _ _ => .fin 0) (.fin 1) b r) .ninf = true := by
    intro b r
    simp only [proba, Fl.sub, sub_zero]
    rw [rnd_of_bounds b64_ok (k := 0) (by norm_num) (by simp [b64]) (by simp [b64]) (by norm_num)]
    rfl
  simp [calculateMinhashParamsWithProba, calculateBAndR, brLoop, h]

/-! ## C14 -/

/-- The probability that two sets of similarity `s` share at least one of `b` bands of `r` rows (MMDS 3.4.2),
in real arithmetic. -/
noncomputable def shareProba (s : ℝ) (b r : Nat) : ℝ := 1 - (1 - s ^ r) ^ b

open Classical in
/-- The search of `calculate_b_and_r` carried out in real arithmetic: the loop is the modelled one. -/
noncomputable def realSearch (s : ℝ) (n : Nat) (p : ℝ) : Option (Nat × Nat) :=
  brLoop (fun b r => decide (shareProba s b r > p)) n n n 1

theorem shareProba_anti (s : ℝ) (h0 : 0 ≤ s) (h1 : s ≤ 1) {b b' r r' : Nat} (hb : b' ≤ b) (hr : r ≤ r') :
    shareProba s b' r' ≤ shareProba s b r := by
  unfold shareProba
  have h2 : s ^ r' ≤ s ^ r := pow_le_pow_of_le_one h0 h1 hr
  have h3 : s ^ r ≤ 1 := pow_le_one₀ h0 h1
  have h4 : 0 ≤ s ^ r := pow_nonneg h0 r
  have h5 : (1 - s ^ r) ^ b' ≤ (1 - s ^ r') ^ b' := pow_le_pow_left₀ (by linarith) (by linarith) _
  have h6 : (1 - s ^ r) ^ b ≤ (1 - s ^ r) ^ b' := pow_le_pow_of_le_one (by linarith) (by linarith) hb
  linarith

/-- C14: in real arithmetic the returned `(b, r)` has `b = n / r`; if `r > 1` two sets with the given
similarity share a band with probability above `p`; and no larger band width that the search may try does. -/
theorem C14_params_optimal (s p : ℝ) (n : Nat) (hn : 1 ≤ n) (h0 : 0 ≤ s) (h1 : s ≤ 1) :
    ∃ r, realSearch s n p = some (n / r, r) ∧ 1 ≤ r ∧ r ≤ n ∧
      (1 < r → p < shareProba s (n / r) r) ∧
      ∀ r', r < r' → 1 < n / (r' - 1) → shareProba s (n / r') r' ≤ p := by
  classical
  obtain ⟨r, e, h2, h3, h4, h5⟩ := brLoop_spec (fun b r => decide (shareProba s b r > p)) n n 1
    (le_refl _) hn (by omega)
  refine ⟨r, ?_, h2, h3, ?_, ?_⟩
  · unfold realSearch
    rw [Nat.div_one] at e
    convert e
  · intro hr
    exact of_decide_eq_true (h4 r hr (le_refl _)).1
  · intro r' hr' hdiv
    rcases h5 with h | h
    · exfalso
      have : n / (r' - 1) ≤ n / r := Nat.div_le_div_left (by omega) (by omega)
      omega
    · have hle : shareProba s (n / (r + 1)) (r + 1) ≤ p := not_lt.mp (of_decide_eq_false h)
      refine (shareProba_anti s h0 h1 (Nat.div_le_div_left ?_ (by omega)) ?_).trans hle <;> omega

/-- C14 for the floating-point search itself: if the returned `r` is above 1, the computed probability for
`(b, r)` exceeds the requested one; and the search stopped because either `b ≤ 1` or the computed probability
for the next band width does not exceed it. -/
theorem C14_float_search (powf : Fl → Fl → Fl) (s p : Fl) (n : Nat) (hn : 1 ≤ n) :
    ∃ r, calculateMinhashParamsWithProba powf s n p n = some (n / r, r) ∧
      (1 < r → Fl.gt (proba powf s (n / r) r) p = true) ∧
      (n / r ≤ 1 ∨ Fl.gt (proba powf s (n / (r + 1)) (r + 1)) p = false) := by
  obtain ⟨r, e, h2, h3, h4, h5⟩ := brLoop_spec (fun b r => Fl.gt (proba powf s b r) p) n n 1
    (le_refl _) hn (by omega)
  refine ⟨r, ?_, fun hr => (h4 r hr (le_refl _)).1, h5⟩
  rw [Nat.div_one] at e
  exact e

/-- The hypotheses of C14 hold for s = 1/2, n = 128, and the conclusion is not trivial there: with r = 2 the
probability is above 1/2. -/
example : (1 : Nat) ≤ 128 ∧ (0 : ℝ) ≤ 1 / 2 ∧ (1 / 2 : ℝ) ≤ 1 ∧ (1 / 2 : ℝ) < shareProba (1 / 2) 64 2 := by
  refine ⟨by norm_num, by norm_num, by norm_num, ?_⟩
  unfold shareProba
  norm_num

end Verif.Props
