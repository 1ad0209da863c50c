import Verif.Model.SimHashBits
import Verif.Lemmas.SimHash
import Verif.Lemmas.Ratio
import Verif.Lemmas.FlNearest
import Mathlib.Analysis.Real.Pi.Bounds

/-!
# Properties C92, C93: angle and high bits of SimHash values

`w = 2 ^ k` with `k ≤ 20`; the code has `k = 6` (`u64`) and `k = 7` (`u128`).
-/
namespace Verif.Props
open Verif Verif.Spec
variable {w : Nat}

/-- The value of `std::f64::consts::PI`. -/
def piQ : ℚ := 884279719003555 / 281474976710656

theorem div_exact {k : Nat} (hk : k ≤ 20) :
    Fl.div b64 pi64 (Fl.ofNat b64 (2 ^ k)) = .fin (piQ / 2 ^ k) := by
  have h2 : (2 : ℕ) ^ k ≤ 2 ^ b64.prec := Nat.pow_le_pow_right (by decide) (by simp [b64]; omega)
  rw [ofNat_exact b64_ok h2]
  have hne : ((2 ^ k : ℕ) : ℚ) ≠ 0 := by positivity
  have h1 : (1 : ℚ) ≤ 2 ^ k := one_le_pow₀ (by norm_num)
  have hrepr : Repr b64 (piQ / 2 ^ k) := by
    refine ⟨884279719003555, -48 - k, ?_, by norm_num [b64], by simp [b64]; omega⟩
    rw [zpow_sub₀ (by norm_num), zpow_natCast, piQ]
    norm_num
    ring
  unfold Fl.div pi64
  simp only [if_neg hne]
  push_cast
  have := rnd_of_bounds b64_ok (q := piQ / 2 ^ k) (by unfold piQ; positivity) (k := 2) (by simp [b64]) (by simp [b64])
    (by rw [div_le_iff₀ (by positivity)]; unfold piQ; norm_num; linarith)
  rw [rndQ_of_repr (by simp [b64]) hrepr] at this
  exact this

theorem angle_eq {k : Nat} (hw : w = 2 ^ k) (hk : k ≤ 20) (x y : BitVec w) :
    hammingAngle x y = .fin (rndQ b64 ((hammingDistance x y : ℚ) * (piQ / 2 ^ k))) := by
  subst hw
  unfold hammingAngle bitLength
  have hd : hammingDistance x y ≤ 2 ^ k := by
    rw [hamming_card]
    exact (Finset.card_le_univ _).trans (by simp)
  have h2 : (2 : ℕ) ^ k ≤ 2 ^ b64.prec := Nat.pow_le_pow_right (by decide) (by simp [b64]; omega)
  rw [div_exact hk, ofNat_exact b64_ok (hd.trans h2)]
  have hdq : (hammingDistance x y : ℚ) ≤ 2 ^ k := by exact_mod_cast hd
  have h1 : (0 : ℚ) < 2 ^ k := by positivity
  refine rnd_of_bounds b64_ok (by unfold piQ; positivity) (k := 2) (by simp [b64]) (by simp [b64]) ?_
  rw [← mul_div_assoc, div_le_iff₀ h1]
  unfold piQ
  norm_num
  linarith

theorem angle_err {k : Nat} {d : Nat} (hk : k ≤ 20) (hd : d ≤ 2 ^ k) :
    |rndQ b64 ((d : ℚ) * (piQ / 2 ^ k)) - (d : ℚ) * (piQ / 2 ^ k)| ≤ piQ / 2 ^ 53 := by
  have h1 : (0 : ℚ) < 2 ^ k := by positivity
  have h2 : (2 : ℚ) ^ k ≤ 2 ^ 20 := pow_le_pow_right₀ (by norm_num) hk
  rcases Nat.eq_zero_or_pos d with rfl | hpos
  · simp only [Nat.cast_zero, zero_mul, rndQ_zero, sub_self, abs_zero]
    unfold piQ; positivity
  · have hd1 : (1 : ℚ) ≤ d := by exact_mod_cast hpos
    have hd2 : (d : ℚ) ≤ 2 ^ k := by exact_mod_cast hd
    have hlow : (2 : ℚ) ^ (-20 : ℤ) ≤ (d : ℚ) * (piQ / 2 ^ k) := by
      rw [← mul_div_assoc, le_div_iff₀ h1]
      unfold piQ
      norm_num at h2 ⊢
      linarith
    refine (rndQ_err_rel b64_ok (k := -20) (by simp [b64]) hlow).trans ?_
    have : (d : ℚ) * (piQ / 2 ^ k) ≤ piQ := by
      rw [← mul_div_assoc, div_le_iff₀ h1]
      have : (0 : ℚ) < piQ := by norm_num [piQ]
      nlinarith
    simp only [b64]
    gcongr

theorem angle_lt {k : Nat} (hk : k ≤ 20) {d d' : Nat} (hlt : d < d') (hle : d' ≤ 2 ^ k) :
    rndQ b64 ((d : ℚ) * (piQ / 2 ^ k)) < rndQ b64 ((d' : ℚ) * (piQ / 2 ^ k)) := by
  have e1 := abs_le.mp (angle_err hk (hlt.le.trans hle))
  have e2 := abs_le.mp (angle_err hk hle)
  have hc : piQ / 2 ^ 20 ≤ piQ / 2 ^ k := by
    have : (0 : ℚ) < piQ := by norm_num [piQ]
    gcongr
    norm_num
  have hs : (d : ℚ) + 1 ≤ d' := by exact_mod_cast hlt
  have hpos : (0 : ℚ) < piQ / 2 ^ k := by unfold piQ; positivity
  have hm : ((d : ℚ) + 1) * (piQ / 2 ^ k) ≤ d' * (piQ / 2 ^ k) := mul_le_mul_of_nonneg_right hs hpos.le
  have hn : 2 * (piQ / 2 ^ 53) < piQ / 2 ^ 20 := by norm_num [piQ]
  rw [add_mul, one_mul] at hm
  linarith [e1.1, e1.2, e2.1, e2.2]

theorem angle_inj {k : Nat} (hk : k ≤ 20) {d d' : Nat} (hd : d ≤ 2 ^ k) (hd' : d' ≤ 2 ^ k)
    (h : rndQ b64 ((d : ℚ) * (piQ / 2 ^ k)) = rndQ b64 ((d' : ℚ) * (piQ / 2 ^ k))) : d = d' := by
  rcases lt_trichotomy d d' with hl | hl | hl
  · exact absurd h (angle_lt hk hl hd').ne
  · exact hl
  · exact absurd h (angle_lt hk hl hd).ne'

/-! ### C92 -/

/-- C92: the constant in these statements is the `f64` nearest to the number π. -/
theorem C92_pi : Double (884279719003555 / 281474976710656) ∧
    ∀ y : ℚ, Double y → y ≠ 884279719003555 / 281474976710656 →
      |(884279719003555 / 281474976710656 : ℝ) - Real.pi| < |(y : ℝ) - Real.pi| := by
  have h1 := Real.pi_gt_d20
  have h2 := Real.pi_lt_d20
  refine ⟨⟨884279719003555, -48, by norm_num [zpow_neg], by norm_num, by norm_num, by norm_num⟩, ?_⟩
  rintro y ⟨m, e, hy, hm, he, _⟩ hne
  have hx : |(884279719003555 / 281474976710656 : ℝ) - Real.pi| < 2 / 10 ^ 16 := by
    rw [abs_lt]; constructor <;> norm_num at h1 h2 ⊢ <;> linarith
  refine hx.trans_le ?_
  by_cases hs : -51 ≤ e
  · -- a multiple of 2^-51
    obtain ⟨d, hd⟩ := Int.eq_ofNat_of_zero_le (show 0 ≤ e + 51 by omega)
    have hy' : y = (m * 2 ^ d : ℤ) / 2 ^ 51 := by
      rw [hy, show e = (d : ℤ) - 51 by omega, zpow_sub₀ (by norm_num)]
      push_cast
      rw [zpow_natCast, mul_div_assoc]
      norm_num
    have hne' : m * 2 ^ d ≠ 7074237752028440 := by
      intro h
      apply hne
      rw [hy', h]
      norm_num
    have hyr : (y : ℝ) = ((m * 2 ^ d : ℤ) : ℝ) / 2 ^ 51 := by rw [hy']; push_cast; ring
    generalize m * 2 ^ d = M at hyr hne'
    rcases lt_or_gt_of_ne hne' with h | h
    · have : (M : ℝ) ≤ 7074237752028439 := by exact_mod_cast Int.le_sub_one_of_lt h
      rw [abs_of_nonpos]
      · rw [hyr]
        have : (M : ℝ) / 2 ^ 51 ≤ 7074237752028439 / 2 ^ 51 := by gcongr
        norm_num at h1 h2 this ⊢; linarith
      · rw [hyr]
        have : (M : ℝ) / 2 ^ 51 ≤ 7074237752028439 / 2 ^ 51 := by gcongr
        norm_num at h1 h2 this ⊢; linarith
    · have : (7074237752028441 : ℝ) ≤ M := by exact_mod_cast h
      have : (7074237752028441 : ℝ) / 2 ^ 51 ≤ M / 2 ^ 51 := by gcongr
      rw [abs_of_nonneg]
      · rw [hyr]
        norm_num at h1 h2 this ⊢; linarith
      · rw [hyr]
        norm_num at h1 h2 this ⊢; linarith
  · -- below 2
    have hlt : y ≤ 2 := by
      have h53 : (m : ℚ) ≤ 2 ^ 53 := by exact_mod_cast (abs_lt.mp hm).2.le
      have he' : (2 : ℚ) ^ e ≤ 2 ^ (-52 : ℤ) := zpow_le_zpow_right₀ (by norm_num) (by omega)
      have hp := two_zpow_pos e
      rw [hy]
      calc (m : ℚ) * 2 ^ e ≤ 2 ^ 53 * 2 ^ e := by gcongr
        _ ≤ 2 ^ 53 * 2 ^ (-52 : ℤ) := by gcongr
        _ = 2 := by norm_num [zpow_neg]
    have hlt' : (y : ℝ) ≤ 2 := by exact_mod_cast hlt
    rw [abs_of_nonpos (by linarith)]
    norm_num at h1 ⊢; linarith

/-- C92: the angle is the `f64` nearest to distance · PI / bits, where PI is the `f64` constant. -/
theorem C92_nearest {k : Nat} (hw : w = 2 ^ k) (hk : k ≤ 20) (x y : BitVec w) :
    ∃ a : ℚ, hammingAngle x y = .fin a ∧
      NearestEven Double ((diffBits x y).card * (884279719003555 / 281474976710656) / w) a := by
  refine ⟨_, angle_eq hw hk x y, ?_⟩
  have h := angle_eq hw hk x y
  have hs : rnd b64 ((hammingDistance x y : ℚ) * (piQ / 2 ^ k)) =
      .fin (rndQ b64 ((hammingDistance x y : ℚ) * (piQ / 2 ^ k))) := by
    rw [← h]
    unfold hammingAngle bitLength
    subst hw
    have hd : hammingDistance x y ≤ 2 ^ k := by
      rw [hamming_card]
      exact (Finset.card_le_univ _).trans (by simp)
    have h2 : (2 : ℕ) ^ k ≤ 2 ^ b64.prec := Nat.pow_le_pow_right (by decide) (by simp [b64]; omega)
    rw [div_exact hk, ofNat_exact b64_ok (hd.trans h2)]
    rfl
  have := rnd_double hs
  rw [hamming_card] at this ⊢
  have he : ((diffBits x y).card : ℚ) * (piQ / 2 ^ k) =
      (diffBits x y).card * (884279719003555 / 281474976710656) / w := by
    have hwq : (w : ℚ) = 2 ^ k := by exact_mod_cast congrArg (Nat.cast (R := ℚ)) hw
    rw [hwq, piQ]; ring
  rwa [he] at this ⊢

/-- C92: the angle is within 5 · 10⁻¹⁶ of the real number distance · π / bits. -/
theorem C92_accuracy {k : Nat} (hw : w = 2 ^ k) (hk : k ≤ 20) (x y : BitVec w) :
    ∃ a : ℚ, hammingAngle x y = .fin a ∧
      |(a : ℝ) - (diffBits x y).card * Real.pi / w| ≤ 5 / 10 ^ 16 := by
  refine ⟨_, angle_eq hw hk x y, ?_⟩
  have hd : hammingDistance x y ≤ 2 ^ k := by
    rw [hamming_card, ← hw]
    exact (Finset.card_le_univ _).trans (by simp)
  have h1 := angle_err hk hd
  rw [hamming_card] at h1 hd ⊢
  generalize (diffBits x y).card = d at *
  generalize rndQ b64 ((d : ℚ) * (piQ / 2 ^ k)) = a at *
  have h2 : |(a : ℝ) - d * ((piQ : ℝ) / 2 ^ k)| ≤ (piQ : ℝ) / 2 ^ 53 := by exact_mod_cast h1
  have hp : |(piQ : ℝ) - Real.pi| ≤ 13 / 10 ^ 17 := by
    have ha := Real.pi_gt_d20
    have hb := Real.pi_lt_d20
    unfold piQ
    push_cast
    rw [abs_le]
    constructor <;> norm_num at * <;> linarith
  have h3 : |(d : ℝ) * ((piQ : ℝ) / 2 ^ k) - d * Real.pi / w| ≤ 13 / 10 ^ 17 := by
    have hd' : (d : ℝ) / 2 ^ k ≤ 1 := by
      rw [div_le_one (by positivity)]
      exact_mod_cast hd
    have : (d : ℝ) * ((piQ : ℝ) / 2 ^ k) - d * Real.pi / w = (d / 2 ^ k) * (piQ - Real.pi) := by
      rw [hw]; push_cast; ring
    rw [this, abs_mul, abs_of_nonneg (by positivity)]
    calc _ ≤ 1 * |(piQ : ℝ) - Real.pi| := by gcongr
      _ ≤ _ := by rw [one_mul]; exact hp
  have h4 : (piQ : ℝ) / 2 ^ 53 ≤ 35 / 10 ^ 17 := by
    unfold piQ
    norm_num
  calc _ = |((a : ℝ) - d * ((piQ : ℝ) / 2 ^ k)) + (d * ((piQ : ℝ) / 2 ^ k) - d * Real.pi / w)| := by ring_nf
    _ ≤ _ := abs_add_le _ _
    _ ≤ _ := by linarith

/-- C92: the angle orders pairs exactly as the distance does, rounding included. -/
theorem C92_order {k : Nat} (hw : w = 2 ^ k) (hk : k ≤ 20) (x y x' y' : BitVec w) :
    Fl.lt (hammingAngle x y) (hammingAngle x' y') = true ↔ (diffBits x y).card < (diffBits x' y').card := by
  have hb : ∀ a b : BitVec w, hammingDistance a b ≤ 2 ^ k := fun a b => by
    rw [hamming_card, ← hw]
    exact (Finset.card_le_univ _).trans (by simp)
  rw [angle_eq hw hk, angle_eq hw hk, ← hamming_card, ← hamming_card]
  simp only [Fl.lt, Fl.cmp, beq_iff_eq, Option.some.injEq, compare_lt_iff_lt]
  constructor
  · intro h
    by_contra hc
    push Not at hc
    rcases hc.lt_or_eq with h1 | h1
    · exact absurd h (not_lt.mpr (angle_lt hk h1 (hb _ _)).le)
    · rw [h1] at h
      exact absurd h (lt_irrefl _)
  · exact fun h => angle_lt hk h (hb _ _)

/-- C92: the angle is 0 exactly for equal values and the constant PI exactly for complements. -/
theorem C92_ends {k : Nat} (hw : w = 2 ^ k) (hk : k ≤ 20) (x y : BitVec w) :
    (hammingAngle x y = .fin 0 ↔ x = y) ∧
      (hammingAngle x y = .fin (884279719003555 / 281474976710656) ↔ y = ~~~x) := by
  have hd : hammingDistance x y ≤ 2 ^ k := by
    rw [hamming_card, ← hw]
    exact (Finset.card_le_univ _).trans (by simp)
  rw [angle_eq hw hk]
  simp only [Fl.fin.injEq]
  constructor
  · have h0 : rndQ b64 (((0 : ℕ) : ℚ) * (piQ / 2 ^ k)) = 0 := by simp [rndQ_zero]
    constructor
    · intro h
      have := angle_inj hk hd (Nat.zero_le _) (h.trans h0.symm)
      rw [hamming_card, Finset.card_eq_zero] at this
      apply BitVec.eq_of_getLsbD_eq
      intro i hi
      by_contra hc
      have hm : (⟨i, hi⟩ : Fin w) ∈ diffBits x y := by
        simp only [diffBits, Finset.mem_filter, Finset.mem_univ, true_and]
        exact hc
      rw [this] at hm
      simp at hm
    · rintro rfl
      have : hammingDistance x x = 0 := by rw [hamming_card]; simp [diffBits]
      rw [this]
      exact h0
  · have hrepr : Repr b64 piQ := ⟨884279719003555, -48, by norm_num [piQ], by norm_num [b64], by simp [b64]⟩
    have h1 : rndQ b64 (((2 ^ k : ℕ) : ℚ) * (piQ / 2 ^ k)) = 884279719003555 / 281474976710656 := by
      have : ((2 ^ k : ℕ) : ℚ) * (piQ / 2 ^ k) = piQ := by
        push_cast
        rw [mul_div_assoc', mul_div_cancel_left₀ _ (by positivity)]
      rw [this, rndQ_of_repr (by simp [b64]) hrepr, piQ]
    constructor
    · intro h
      have := angle_inj hk hd le_rfl (h.trans h1.symm)
      have hu : diffBits x y = Finset.univ := by
        apply Finset.eq_univ_of_card
        rw [← hamming_card, this, Fintype.card_fin, hw]
      apply BitVec.eq_of_getLsbD_eq
      intro i hi
      have hm : (⟨i, hi⟩ : Fin w) ∈ diffBits x y := by rw [hu]; exact Finset.mem_univ _
      simp only [diffBits, Finset.mem_filter, Finset.mem_univ, true_and] at hm
      rw [BitVec.getLsbD_not]
      cases hx : x.getLsbD i <;> cases hy : y.getLsbD i <;> simp_all
    · rintro rfl
      have : hammingDistance x (~~~x) = 2 ^ k := by
        rw [hamming_card]
        have hu : diffBits x (~~~x) = Finset.univ := by
          apply Finset.eq_univ_of_forall
          intro i
          simp [diffBits]
        rw [hu, Finset.card_univ, Fintype.card_fin, hw]
      rw [this]
      exact h1

example : hammingAngle (0b1011#64) (0b0110#64) = .fin (2652839157010665 / 18014398509481984) := by decide +kernel

/-! ### C93 -/

/-- C93: `to_u32_high_bits` keeps the 32 most significant bits. -/
theorem C93_high32 (hw : 32 ≤ w) (x : BitVec w) (i : Nat) (hi : i < 32) :
    (toU32HighBits x).getLsbD i = x.getLsbD (w - 32 + i) := by
  unfold toU32HighBits shr
  rw [Nat.mod_eq_of_lt (by omega)]
  simp [hi]

/-- C93: `to_u64_high_bits` keeps the 64 most significant bits. -/
theorem C93_high64 (hw : 64 ≤ w) (x : BitVec w) (i : Nat) (hi : i < 64) :
    (toU64HighBits x).getLsbD i = x.getLsbD (w - 64 + i) := by
  unfold toU64HighBits shr
  rw [Nat.mod_eq_of_lt (by omega)]
  simp [hi]

/-- C93: the high bits respect the order of the values, so sorting by them agrees with sorting by the values. -/
theorem C93_order (hw : 64 ≤ w) (x y : BitVec w) (h : x.toNat ≤ y.toNat) :
    (toU64HighBits x).toNat ≤ (toU64HighBits y).toNat ∧ (toU32HighBits x).toNat ≤ (toU32HighBits y).toNat := by
  have hx := x.isLt
  have hy := y.isLt
  have key : ∀ n, n ≤ w → ∀ z : BitVec w, z.toNat / 2 ^ (w - n) < 2 ^ n := fun n hn z => by
    rw [Nat.div_lt_iff_lt_mul (by positivity), ← pow_add]
    rw [show n + (w - n) = w by omega]
    exact z.isLt
  unfold toU64HighBits toU32HighBits shr
  rw [Nat.mod_eq_of_lt (by omega), Nat.mod_eq_of_lt (by omega)]
  simp only [BitVec.toNat_setWidth, BitVec.toNat_ushiftRight, Nat.shiftRight_eq_div_pow]
  rw [Nat.mod_eq_of_lt (key 64 hw x), Nat.mod_eq_of_lt (key 64 hw y), Nat.mod_eq_of_lt (key 32 (by omega) x),
    Nat.mod_eq_of_lt (key 32 (by omega) y)]
  exact ⟨Nat.div_le_div_right h, Nat.div_le_div_right h⟩

example : toU32HighBits 0x0123456789ABCDEF#64 = 0x01234567#32 ∧ toU64HighBits 0x0123456789ABCDEF#64 = 0x0123456789ABCDEF#64 ∧
    toU64HighBits 0x0123456789ABCDEF0011223344556677#128 = 0x0123456789ABCDEF#64 := by decide +kernel

end Verif.Props
