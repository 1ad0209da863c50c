import Verif.Props.Params
import Verif.Lemmas.FlNearest

/-! # C14 for the parameter search in floating point, given an accurate `powf` -/
namespace Verif.Props
open Verif.Spec

/-- `powf` raises every double of the unit interval to every power below 2^53 with an absolute error of at most
`ε`, and does not leave the unit interval. (An assumption about the platform's libm; for glibc `ε = 2^-52` is far on
the safe side.) -/
def AccuratePowf (powf : Fl → Fl → Fl) (ε : ℚ) : Prop :=
  ∀ x : ℚ, Double x → 0 ≤ x → x ≤ 1 → ∀ k : Nat, k < 2 ^ 53 →
    ∃ v, powf (.fin x) (.fin k) = .fin v ∧ 0 ≤ v ∧ v ≤ 1 ∧ |v - x ^ k| ≤ ε

theorem pow_close {x y : ℚ} (hx0 : 0 ≤ x) (hx1 : x ≤ 1) (hy0 : 0 ≤ y) (hy1 : y ≤ 1) (b : Nat) :
    |x ^ b - y ^ b| ≤ b * |x - y| := by
  induction b with
  | zero => simp
  | succ b ih =>
    have e : x ^ (b + 1) - y ^ (b + 1) = x ^ b * (x - y) + (x ^ b - y ^ b) * y := by ring
    rw [e]
    refine (abs_add_le _ _).trans ?_
    rw [abs_mul, abs_mul, abs_of_nonneg (pow_nonneg hx0 b), abs_of_nonneg hy0]
    have h1 : x ^ b * |x - y| ≤ 1 * |x - y| :=
      mul_le_mul_of_nonneg_right (pow_le_one₀ hx0 hx1) (abs_nonneg _)
    have h2 : |x ^ b - y ^ b| * y ≤ |x ^ b - y ^ b| * 1 := mul_le_mul_of_nonneg_left hy1 (abs_nonneg _)
    push_cast
    linarith

/-- Subtraction from one inside the unit interval. -/
theorem one_sub_unit {v : ℚ} (h0 : 0 ≤ v) (h1 : v ≤ 1) :
    ∃ w, Fl.sub b64 (.fin 1) (.fin v) = .fin w ∧ Double w ∧ 0 ≤ w ∧ w ≤ 1 ∧ |w - (1 - v)| ≤ 1 / 2 ^ 54 := by
  have h : rnd b64 (1 - v) = .fin (rndQ b64 (1 - v)) :=
    rnd_of_bounds b64_ok (k := 0) (by linarith) (by simp [b64]) (by simp [b64]) (by rw [zpow_zero]; linarith)
  exact ⟨_, h, (rnd_double h).1, rndQ_nonneg (by linarith), rndQ_le_one b64_ok (by linarith) (by linarith),
    rndQ_err_unit b64_ok (by linarith) (by linarith)⟩

/-- The computed probability is close to the exact one. -/
theorem proba_close {powf : Fl → Fl → Fl} {ε : ℚ} (hp : AccuratePowf powf ε) {s : ℚ} (hs : Double s) (h0 : 0 ≤ s)
    (h1 : s ≤ 1) {b r : Nat} (hb : b < 2 ^ 53) (hr : r < 2 ^ 53) :
    ∃ c, proba powf (.fin s) b r = .fin c ∧ |c - bandProba s b r| ≤ (b + 1) * (ε + 1 / 2 ^ 54) := by
  obtain ⟨v, ev, v0, v1, hv⟩ := hp s hs h0 h1 r hr
  obtain ⟨w, ew, dw, w0, w1, hw⟩ := one_sub_unit v0 v1
  obtain ⟨v', ev', v0', v1', hv'⟩ := hp w dw w0 w1 b hb
  obtain ⟨w', ew', dw', w0', w1', hw'⟩ := one_sub_unit v0' v1'
  have hB : Fl.ofNat b64 b = .fin b := ofNat_exact b64_ok (by simp only [b64]; omega)
  have hR : Fl.ofNat b64 r = .fin r := ofNat_exact b64_ok (by simp only [b64]; omega)
  refine ⟨w', ?_, ?_⟩
  · unfold proba
    rw [hB, hR, ev, ew, ev', ew']
  · have p0 : 0 ≤ s ^ r := pow_nonneg h0 r
    have p1 : s ^ r ≤ 1 := pow_le_one₀ h0 h1
    have hin : |w - (1 - s ^ r)| ≤ ε + 1 / 2 ^ 54 := by
      have e : w - (1 - s ^ r) = (w - (1 - v)) + (s ^ r - v) := by ring
      rw [e]
      refine (abs_add_le _ _).trans ?_
      rw [abs_sub_comm (s ^ r)]
      linarith
    have hpow := pow_close w0 w1 (y := 1 - s ^ r) (by linarith) (by linarith) b
    have hpow2 : |w ^ b - (1 - s ^ r) ^ b| ≤ b * (ε + 1 / 2 ^ 54) :=
      hpow.trans (mul_le_mul_of_nonneg_left hin (Nat.cast_nonneg b))
    unfold bandProba
    have e : w' - (1 - (1 - s ^ r) ^ b) = (w' - (1 - v')) + ((w ^ b - v') + ((1 - s ^ r) ^ b - w ^ b)) := by ring
    rw [e]
    refine (abs_add_le _ _).trans ?_
    have := abs_add_le (w ^ b - v') ((1 - s ^ r) ^ b - w ^ b)
    rw [abs_sub_comm (w ^ b) v', abs_sub_comm ((1 - s ^ r) ^ b)] at this
    linarith

theorem bandProba_anti {s : ℚ} (h0 : 0 ≤ s) (h1 : s ≤ 1) {b b' r r' : Nat} (hb : b' ≤ b) (hr : r ≤ r') :
    bandProba s b' r' ≤ bandProba s b r := by
  unfold bandProba
  have h2 : s ^ r' ≤ s ^ r := pow_le_pow_of_le_one h0 h1 hr
  have h3 : s ^ r ≤ 1 := pow_le_one₀ h0 h1
  have h4 : 0 ≤ s ^ r := pow_nonneg h0 r
  have h5 : (1 - s ^ r) ^ b' ≤ (1 - s ^ r') ^ b' := pow_le_pow_left₀ (by linarith) (by linarith) _
  have h6 : (1 - s ^ r) ^ b ≤ (1 - s ^ r) ^ b' := pow_le_pow_of_le_one (by linarith) (by linarith) hb
  linarith

theorem bandProba_mono {s s' : ℚ} (h0 : 0 ≤ s) (h : s ≤ s') (h1 : s' ≤ 1) (b r : Nat) :
    bandProba s b r ≤ bandProba s' b r := by
  unfold bandProba
  have h2 : s ^ r ≤ s' ^ r := pow_le_pow_left₀ h0 h r
  have h3 : s' ^ r ≤ 1 := pow_le_one₀ (h0.trans h) h1
  have h5 : (1 - s' ^ r) ^ b ≤ (1 - s ^ r) ^ b := pow_le_pow_left₀ (by linarith) (by linarith) _
  linarith

/-- C14 for the floating-point code: with a `powf` of absolute error at most `ε`, the returned `(b, r)` has `b = n / r`;
if `r > 1`, two sets of the given similarity share a band with an exact probability above the requested one, up to
`(b+1)(ε + 2^-54)`; and no larger band width that the search may try exceeds it by more than that (for the next `b`). -/
theorem C14_float_accuracy (powf : Fl → Fl → Fl) (ε : ℚ) (hpow : AccuratePowf powf ε) (s p : ℚ) (hs : Double s)
    (h0 : 0 ≤ s) (h1 : s ≤ 1) (n : Nat) (hn : 1 ≤ n) (hn2 : n < 2 ^ 53) :
    ∃ r, calculateMinhashParamsWithProba powf (.fin s) n (.fin p) n = some (n / r, r) ∧ 1 ≤ r ∧ r ≤ n ∧
      (1 < r → p - ((n / r : Nat) + 1) * (ε + 1 / 2 ^ 54) < bandProba s (n / r) r) ∧
      ∀ r', r < r' → 1 < n / (r' - 1) →
        bandProba s (n / r') r' ≤ p + ((n / (r + 1) : Nat) + 1) * (ε + 1 / 2 ^ 54) := by
  obtain ⟨r, e, h2, h3, h4, h5⟩ := brLoop_spec (fun b r => Fl.gt (proba powf (.fin s) b r) (.fin p)) n n 1
    (le_refl _) hn (by omega)
  have small : ∀ k, n / k < 2 ^ 53 := fun k => (Nat.div_le_self n k).trans_lt hn2
  refine ⟨r, ?_, h2, h3, ?_, ?_⟩
  · rw [Nat.div_one] at e
    exact e
  · intro hr
    have h := (h4 r hr (le_refl _)).1
    obtain ⟨c, ec, hc⟩ := proba_close hpow hs h0 h1 (small r) (r := r) (by omega)
    simp only [ec] at h
    rw [gt_fin] at h
    rw [abs_le] at hc
    linarith [hc.2]
  · intro r' hr' hdiv
    rcases h5 with h | h
    · exfalso
      have : n / (r' - 1) ≤ n / r := Nat.div_le_div_left (by omega) (by omega)
      omega
    · have hrn : r + 1 < 2 ^ 53 := by
        have : r' - 1 ≤ n := by
          by_contra hc
          rw [Nat.div_eq_of_lt (by omega)] at hdiv
          omega
        have h2n : 2 * (r' - 1) ≤ n := by
          have := Nat.div_mul_le_self n (r' - 1)
          nlinarith
        omega
      obtain ⟨c, ec, hc⟩ := proba_close hpow hs h0 h1 (small (r + 1)) hrn
      simp only [ec] at h
      have hle : c ≤ p := by
        by_contra hlt
        rw [gt_fin.mpr (not_le.mp hlt)] at h
        cases h
      rw [abs_le] at hc
      have ha : bandProba s (n / r') r' ≤ bandProba s (n / (r + 1)) (r + 1) :=
        bandProba_anti h0 h1 (Nat.div_le_div_left (by omega) (by omega)) (by omega)
      linarith [hc.1]

/-- C14: with the default probability and `powf` accurate to 2^-52, the exact probability of sharing a band is
above 0.99 up to `(b+2)·2^-51`, unless `r = 1`. -/
theorem C14_float_default (powf : Fl → Fl → Fl) (hpow : AccuratePowf powf (1 / 2 ^ 52)) (s : ℚ) (hs : Double s)
    (h0 : 0 ≤ s) (h1 : s ≤ 1) (n : Nat) (hn : 1 ≤ n) (hn2 : n < 2 ^ 53) :
    ∃ r, calculateMinhashParams powf (.fin s) n n = some (n / r, r) ∧ 1 ≤ r ∧ r ≤ n ∧
      (1 < r → 99 / 100 - ((n / r : Nat) + 2) / 2 ^ 51 < bandProba s (n / r) r) ∧
      ∀ r', r < r' → 1 < n / (r' - 1) → bandProba s (n / r') r' ≤ 99 / 100 + ((n / (r + 1) : Nat) + 2) / 2 ^ 51 := by
  have e : rnd b64 (99 / 100) = .fin (rndQ b64 (99 / 100)) :=
    rnd_of_bounds b64_ok (k := 0) (by norm_num) (by simp [b64]) (by simp [b64]) (by norm_num)
  have herr := rndQ_err_unit b64_ok (q := 99 / 100) (by norm_num) (by norm_num)
  have hp : b64.prec + 1 = 54 := rfl
  rw [hp, abs_le] at herr
  obtain ⟨r, er, h2, h3, h4, h5⟩ := C14_float_accuracy powf _ hpow s (rndQ b64 (99 / 100)) hs h0 h1 n hn hn2
  refine ⟨r, ?_, h2, h3, fun hr => ?_, fun r' hr' hd => ?_⟩
  · unfold calculateMinhashParams
    rw [e]
    exact er
  · have := h4 hr
    have hb : (0 : ℚ) ≤ (n / r : Nat) := Nat.cast_nonneg _
    norm_num at this herr ⊢
    linarith [herr.1]
  · have := h5 r' hr' hd
    have hb : (0 : ℚ) ≤ (n / (r + 1) : Nat) := Nat.cast_nonneg _
    norm_num at this herr ⊢
    linarith [herr.2]

/-- The correctly rounded power (on natural exponents). -/
def exactPowf : Fl → Fl → Fl
  | .fin x, .fin k => rnd b64 (x ^ k.num.toNat)
  | _, _ => .nan

/-- C14 instance: the correctly rounded power is accurate to 2^-54. -/
theorem exactPowf_accurate : AccuratePowf exactPowf (1 / 2 ^ 54) := by
  intro x _ h0 h1 k _
  have e : exactPowf (.fin x) (.fin k) = rnd b64 (x ^ k) := by simp [exactPowf]
  have p0 : 0 ≤ x ^ k := pow_nonneg h0 k
  have p1 : x ^ k ≤ 1 := pow_le_one₀ h0 h1
  exact ⟨rndQ b64 (x ^ k), e.trans (rnd_of_bounds b64_ok (k := 0) p0 (by simp [b64]) (by simp [b64])
    (by rw [zpow_zero]; exact p1)), rndQ_nonneg p0, rndQ_le_one b64_ok p0 p1, rndQ_err_unit b64_ok p0 p1⟩

example : AccuratePowf exactPowf (1 / 2 ^ 52) ∧ Double (1 / 2) ∧ (128 : Nat) < 2 ^ 53 := by
  refine ⟨fun x hx h0 h1 k hk => ?_, ⟨1, -1, by norm_num, by norm_num, by norm_num, by norm_num⟩, by norm_num⟩
  obtain ⟨v, e, v0, v1, hv⟩ := exactPowf_accurate x hx h0 h1 k hk
  exact ⟨v, e, v0, v1, hv.trans (by norm_num)⟩

/-- C14 instance: the two values of the documentation, for every `powf` that is accurate to 2^-52. -/
theorem C14_documented (powf : Fl → Fl → Fl) (hpow : AccuratePowf powf (1 / 2 ^ 52)) :
    calculateMinhashParams powf (rnd b64 (1 / 2)) 128 128 = some (42, 3) ∧
    calculateMinhashParams powf (rnd b64 (7 / 10)) 196 196 = some (39, 5) := by
  have key : ∀ (q : ℚ) (n r : Nat), 0 ≤ q → q ≤ 1 → 1 ≤ r → r + 1 < n → n < 2 ^ 20 → 1 < n / r →
      991 / 1000 < bandProba (q - 1 / 2 ^ 54) (n / r) r → bandProba (q + 1 / 2 ^ 54) (n / (r + 1)) (r + 1) < 989 / 1000 →
      0 ≤ q - 1 / 2 ^ 54 → q + 1 / 2 ^ 54 ≤ 1 →
      calculateMinhashParams powf (rnd b64 q) n n = some (n / r, r) := by
    intro q n r q0 q1 hr hrn hn hd hlow hhigh hq0 hq1
    have e : rnd b64 q = .fin (rndQ b64 q) :=
      rnd_of_bounds b64_ok (k := 0) q0 (by simp [b64]) (by simp [b64]) (by rw [zpow_zero]; exact q1)
    have herr := rndQ_err_unit b64_ok q0 q1
    have hp : b64.prec + 1 = 54 := rfl
    rw [hp, abs_le] at herr
    have s0 := rndQ_nonneg (f := b64) q0
    have s1 := rndQ_le_one b64_ok q0 q1
    obtain ⟨r0, er, h2, h3, h4, h5⟩ := C14_float_default powf hpow (rndQ b64 q) (rnd_double e).1 s0 s1 n (by omega)
      (by omega)
    have hm1 := bandProba_mono hq0 (by linarith [herr.1] : q - 1 / 2 ^ 54 ≤ rndQ b64 q) s1 (n / r) r
    have hm2 := bandProba_mono s0 (by linarith [herr.2] : rndQ b64 q ≤ q + 1 / 2 ^ 54) hq1 (n / (r + 1)) (r + 1)
    have small : ∀ k, ((n / k : Nat) : ℚ) ≤ 2 ^ 20 := fun k => by
      exact_mod_cast (Nat.div_le_self n k).trans hn.le
    have : r0 = r := by
      rcases lt_trichotomy r0 r with hlt | heq | hgt
      · have hdiv : n / r ≤ n / (r - 1) := Nat.div_le_div_left (by omega) (by omega)
        have := h5 r hlt (by omega)
        have hk : ((n / (r0 + 1) : Nat) + 2 : ℚ) / 2 ^ 51 ≤ (2 ^ 20 + 2) / 2 ^ 51 :=
          div_le_div_of_nonneg_right (by linarith [small (r0 + 1)]) (by positivity)
        have hc : ((2 : ℚ) ^ 20 + 2) / 2 ^ 51 < 1 / 1000 := by norm_num
        linarith
      · exact heq
      · have := h4 (by omega)
        have ha := bandProba_anti s0 s1 (b := n / (r + 1)) (b' := n / r0) (r := r + 1) (r' := r0)
          (Nat.div_le_div_left (by omega) (by omega)) (by omega)
        have hk : ((n / r0 : Nat) + 2 : ℚ) / 2 ^ 51 ≤ (2 ^ 20 + 2) / 2 ^ 51 :=
          div_le_div_of_nonneg_right (by linarith [small r0]) (by positivity)
        have hc : ((2 : ℚ) ^ 20 + 2) / 2 ^ 51 < 1 / 1000 := by norm_num
        linarith
    subst this
    rw [e]
    exact er
  constructor
  · have := key (1 / 2) 128 3 (by norm_num) (by norm_num) (by norm_num) (by norm_num) (by norm_num) (by norm_num)
      (by norm_num [bandProba]) (by norm_num [bandProba]) (by norm_num) (by norm_num)
    exact this
  · have := key (7 / 10) 196 5 (by norm_num) (by norm_num) (by norm_num) (by norm_num) (by norm_num) (by norm_num)
      (by norm_num [bandProba]) (by norm_num [bandProba]) (by norm_num) (by norm_num)
    exact this

end Verif.Props
