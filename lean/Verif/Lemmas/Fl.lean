import Verif.Model.Fl
import Mathlib.Tactic.Linarith
import Mathlib.Tactic.Ring
import Mathlib.Tactic.FieldSimp
import Mathlib.Tactic.NormNum
import Mathlib.Tactic.Positivity
import Mathlib.Tactic.GCongr
import Mathlib.Tactic.Push

/-! Lemmas on the rounding function. -/
namespace Verif

theorem rne_intCast (n : ℤ) : rne (n : ℚ) = n := by
  simp [rne]

theorem rne_floor_or (q : ℚ) : rne q = ⌊q⌋ ∨ rne q = ⌊q⌋ + 1 := by
  unfold rne; split_ifs <;> simp

theorem rne_mono {q q' : ℚ} (h : q ≤ q') : rne q ≤ rne q' := by
  have hf : ⌊q⌋ ≤ ⌊q'⌋ := Int.floor_mono h
  rcases lt_or_eq_of_le hf with hlt | heq
  · rcases rne_floor_or q with h1 | h1 <;> rcases rne_floor_or q' with h2 | h2 <;> omega
  · unfold rne
    rw [heq]
    split_ifs <;> first | omega | (exfalso; linarith)

theorem rne_err (q : ℚ) : |(rne q : ℚ) - q| ≤ 1 / 2 := by
  have h1 : (⌊q⌋ : ℚ) ≤ q := Int.floor_le q
  have h2 : q < ⌊q⌋ + 1 := Int.lt_floor_add_one q
  unfold rne
  rw [abs_le]
  split_ifs <;> push_cast <;> constructor <;> linarith

theorem two_zpow_pos (e : ℤ) : (0 : ℚ) < 2 ^ e := zpow_pos (by norm_num) e

/-- `m * 2^e` is exactly representable when `|m| ≤ 2^prec` and `e ≥ emin`. -/
def Repr (f : Fmt) (q : ℚ) : Prop :=
  ∃ m e : ℤ, q = m * (2 : ℚ) ^ e ∧ |m| ≤ 2 ^ f.prec ∧ f.emin ≤ e

theorem log_le_of_lt {q : ℚ} (hq : 0 < q) {k : ℤ} (h : q < 2 ^ k) : Int.log 2 q < k := by
  by_contra hc
  push Not at hc
  have h1 : ((2 : ℕ) : ℚ) ^ Int.log 2 q ≤ q := Int.zpow_log_le_self (by norm_num) hq
  have h2 : (2 : ℚ) ^ k ≤ 2 ^ Int.log 2 q := zpow_le_zpow_right₀ (by norm_num) hc
  push_cast at h1
  linarith

theorem lt_two_zpow_log (q : ℚ) : q < (2 : ℚ) ^ (Int.log 2 q + 1) := by
  have := Int.lt_zpow_succ_log_self (b := 2) (by norm_num) q
  push_cast at this
  exact this

theorem two_zpow_log_le {q : ℚ} (hq : 0 < q) : (2 : ℚ) ^ (Int.log 2 q) ≤ q := by
  have := Int.zpow_log_le_self (b := 2) (by norm_num) hq
  push_cast at this
  exact this

theorem rndQ_zero (f : Fmt) : rndQ f 0 = 0 := by simp [rndQ]

theorem rndQ_of_repr {f : Fmt} (hp : 1 ≤ f.prec) {q : ℚ} (h : Repr f q) : rndQ f q = q := by
  obtain ⟨m, e, hq, hm, he⟩ := h
  unfold rndQ
  split_ifs with h0
  · exact h0.symm
  · -- q = k * 2^(ulpExp) for an integer k
    have hpos : 0 < |q| := abs_pos.mpr h0
    have key : ∃ k : ℤ, q = k * (2 : ℚ) ^ ulpExp f q := by
      by_cases hle : ulpExp f q ≤ e
      · refine ⟨m * 2 ^ (e - ulpExp f q).toNat, ?_⟩
        rw [hq]
        push_cast
        rw [mul_assoc, ← zpow_natCast, ← zpow_add₀ (by norm_num : (2 : ℚ) ≠ 0)]
        congr 2
        rw [hq] at hle
        have := Int.toNat_of_nonneg (sub_nonneg.mpr hle)
        omega
      · push Not at hle
        -- then |m| = 2^prec
        have hu : ulpExp f q = Int.log 2 |q| - (f.prec - 1) := by
          unfold ulpExp at hle ⊢
          rcases max_choice (Int.log 2 |q| - ((f.prec : ℤ) - 1)) f.emin with h | h <;> omega
        have habs : |q| = |m| * (2 : ℚ) ^ e := by
          rw [hq, abs_mul, abs_of_pos (two_zpow_pos e), Int.cast_abs]
        have h1 := two_zpow_log_le hpos
        have hm' : ((|m| : ℤ) : ℚ) ≤ 2 ^ f.prec := by exact_mod_cast hm
        have hlog : Int.log 2 |q| ≤ f.prec + e := by
          have : |q| < (2 : ℚ) ^ ((f.prec : ℤ) + e + 1) := by
            rw [habs, add_assoc, zpow_add₀ (by norm_num), zpow_natCast, zpow_add₀ (by norm_num)]
            have := two_zpow_pos e
            have hp2 : (0 : ℚ) < 2 ^ f.prec := by positivity
            rw [zpow_one]
            nlinarith [mul_pos this hp2]
          have := log_le_of_lt hpos this
          omega
        have heq : Int.log 2 |q| = f.prec + e := by omega
        -- |q| ≥ 2^(prec+e)
        rw [heq] at h1
        have hge : (2 : ℚ) ^ f.prec ≤ |m| := by
          rw [habs, zpow_add₀ (by norm_num), zpow_natCast] at h1
          exact le_of_mul_le_mul_right h1 (two_zpow_pos e)
        have hmeq : |m| = 2 ^ f.prec := by
          have : ((2 : ℤ) ^ f.prec) ≤ |m| := by exact_mod_cast hge
          omega
        have hue : ulpExp f q = e + 1 := by rw [hu, heq]; omega
        have hdvd : (2 : ℤ) ∣ m := by
          rw [← dvd_abs, hmeq]
          exact dvd_pow_self 2 (by omega)
        obtain ⟨k, hk⟩ := hdvd
        refine ⟨k, ?_⟩
        rw [hue, hq, hk, zpow_add₀ (by norm_num)]
        push_cast
        ring
    obtain ⟨k, hk⟩ := key
    have : q / (2 : ℚ) ^ ulpExp f q = k := by
      rw [div_eq_iff (two_zpow_pos _).ne']
      exact hk
    rw [this, rne_intCast]
    exact hk.symm

theorem rndQ_nonneg {f : Fmt} {q : ℚ} (h : 0 ≤ q) : 0 ≤ rndQ f q := by
  unfold rndQ
  split_ifs with h0
  · exact le_refl _
  · have h1 : (0 : ℤ) ≤ rne (q / 2 ^ ulpExp f q) := by
      rw [← rne_intCast 0]
      exact rne_mono (by simp only [Int.cast_zero]; exact div_nonneg h (two_zpow_pos _).le)
    exact mul_nonneg (by exact_mod_cast h1) (two_zpow_pos _).le

theorem rndQ_nonpos {f : Fmt} {q : ℚ} (h : q ≤ 0) : rndQ f q ≤ 0 := by
  unfold rndQ
  split_ifs with h0
  · exact le_refl _
  · have h1 : rne (q / 2 ^ ulpExp f q) ≤ 0 := by
      rw [← rne_intCast 0]
      exact rne_mono (by simp only [Int.cast_zero]; exact div_nonpos_of_nonpos_of_nonneg h (two_zpow_pos _).le)
    exact mul_nonpos_of_nonpos_of_nonneg (by exact_mod_cast h1) (two_zpow_pos _).le

theorem rndQ_mono {f : Fmt} (hp : 1 ≤ f.prec) {q q' : ℚ} (h0 : 0 ≤ q) (h : q ≤ q') :
    rndQ f q ≤ rndQ f q' := by
  rcases eq_or_lt_of_le h0 with hz | hpos
  · subst hz
    rw [rndQ_zero]
    exact rndQ_nonneg h
  have hpos' : 0 < q' := lt_of_lt_of_le hpos h
  have hlog : Int.log 2 |q| ≤ Int.log 2 |q'| := by
    rw [abs_of_pos hpos, abs_of_pos hpos']
    exact Int.log_mono_right hpos h
  have hu : ulpExp f q ≤ ulpExp f q' := by
    unfold ulpExp
    exact max_le_max (by omega) (le_refl _)
  unfold rndQ
  rw [if_neg hpos.ne', if_neg hpos'.ne']
  rcases eq_or_lt_of_le hu with he | hlt
  · rw [he]
    have : rne (q / 2 ^ ulpExp f q') ≤ rne (q' / 2 ^ ulpExp f q') :=
      rne_mono (div_le_div_of_nonneg_right h (two_zpow_pos _).le)
    exact mul_le_mul_of_nonneg_right (by exact_mod_cast this) (two_zpow_pos _).le
  · have hu' : ulpExp f q' = Int.log 2 |q'| - (f.prec - 1) := by
      unfold ulpExp at hlt ⊢
      rcases max_choice (Int.log 2 |q'| - ((f.prec : ℤ) - 1)) f.emin with h | h
      · exact h
      · rw [h] at hlt
        have := le_max_right (Int.log 2 |q| - ((f.prec : ℤ) - 1)) f.emin
        omega
    have hl : Int.log 2 |q| ≤ ulpExp f q + f.prec - 1 := by
      have := le_max_left (Int.log 2 |q| - ((f.prec : ℤ) - 1)) f.emin
      unfold ulpExp; omega
    rw [abs_of_pos hpos] at hl
    rw [abs_of_pos hpos'] at hu'
    -- upper bound for q
    have hub : rne (q / 2 ^ ulpExp f q) ≤ 2 ^ f.prec := by
      have : q / 2 ^ ulpExp f q ≤ ((2 ^ f.prec : ℤ) : ℚ) := by
        rw [div_le_iff₀ (two_zpow_pos _)]
        push_cast
        rw [← zpow_natCast, ← zpow_add₀ (by norm_num)]
        refine le_trans (lt_two_zpow_log q).le (zpow_le_zpow_right₀ (by norm_num) (by omega))
      rw [← rne_intCast (2 ^ f.prec)]
      exact rne_mono this
    have hlb : 2 ^ (f.prec - 1) ≤ rne (q' / 2 ^ ulpExp f q') := by
      have : ((2 ^ (f.prec - 1) : ℤ) : ℚ) ≤ q' / 2 ^ ulpExp f q' := by
        rw [le_div_iff₀ (two_zpow_pos _)]
        push_cast
        rw [← zpow_natCast, ← zpow_add₀ (by norm_num)]
        refine le_trans (zpow_le_zpow_right₀ (by norm_num) ?_) (two_zpow_log_le hpos')
        omega
      rw [← rne_intCast (2 ^ (f.prec - 1))]
      exact rne_mono this
    calc (rne (q / 2 ^ ulpExp f q) : ℚ) * 2 ^ ulpExp f q
        ≤ 2 ^ f.prec * 2 ^ ulpExp f q :=
          mul_le_mul_of_nonneg_right (by exact_mod_cast hub) (two_zpow_pos _).le
      _ = 2 ^ ((f.prec : ℤ) + ulpExp f q) := by rw [zpow_add₀ (by norm_num), zpow_natCast]
      _ ≤ 2 ^ (((f.prec - 1 : ℕ) : ℤ) + ulpExp f q') :=
          zpow_le_zpow_right₀ (by norm_num) (by omega)
      _ = 2 ^ (f.prec - 1) * 2 ^ ulpExp f q' := by rw [zpow_add₀ (by norm_num), zpow_natCast]
      _ ≤ _ := mul_le_mul_of_nonneg_right (by exact_mod_cast hlb) (two_zpow_pos _).le

theorem rndQ_err (f : Fmt) {q : ℚ} (h : q ≠ 0) : |rndQ f q - q| ≤ 2 ^ ulpExp f q / 2 := by
  unfold rndQ
  rw [if_neg h]
  have h1 := rne_err (q / 2 ^ ulpExp f q)
  have hp := two_zpow_pos (ulpExp f q)
  have : (rne (q / 2 ^ ulpExp f q) : ℚ) * 2 ^ ulpExp f q - q
      = ((rne (q / 2 ^ ulpExp f q) : ℚ) - q / 2 ^ ulpExp f q) * 2 ^ ulpExp f q := by
    field_simp
  rw [this, abs_mul, abs_of_pos hp]
  nlinarith

end Verif
