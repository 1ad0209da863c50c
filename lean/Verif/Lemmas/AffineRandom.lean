import Verif.Lemmas.Affine
import Mathlib.Data.Int.ModEq
import Mathlib.Data.Int.Interval
import Mathlib.Order.Interval.Finset.Nat
import Mathlib.RingTheory.Coprime.Lemmas
import Mathlib.Tactic.LinearCombination
import Mathlib.Tactic.Ring

/-! # How many slopes make two token hashes collide -/
namespace Verif

/-- Two hashes with the same value differ, after the multiplication, by a small multiple of the modulus. -/
theorem affine_multiple {W p K a b x y : Nat} (hp : 0 < p) (hK : 2 ^ W ≤ (K + 1) * p)
    (h : affineNat W p a b x = affineNat W p a b y) :
    ∃ k : ℤ, -K ≤ k ∧ k ≤ K ∧ (2 : ℤ) ^ W ∣ a * ((x : ℤ) - y) - k * p := by
  unfold affineNat at h
  have hX := Nat.div_add_mod ((x * a + b) % 2 ^ W) p
  have hY := Nat.div_add_mod ((y * a + b) % 2 ^ W) p
  have hq : ∀ z, (z * a + b) % 2 ^ W / p ≤ K := by
    intro z
    have h1 : (z * a + b) % 2 ^ W < 2 ^ W := Nat.mod_lt _ (by positivity)
    have := Nat.div_lt_of_lt_mul (lt_of_lt_of_le h1 (by rw [Nat.mul_comm] at hK; exact hK))
    omega
  have eX := Nat.div_add_mod (x * a + b) (2 ^ W)
  have eY := Nat.div_add_mod (y * a + b) (2 ^ W)
  have hx := hq x
  have hy := hq y
  rw [h] at hX
  rw [← hX] at eX
  rw [← hY] at eY
  obtain ⟨qx, e1⟩ : ∃ q, q = (x * a + b) % 2 ^ W / p := ⟨_, rfl⟩
  obtain ⟨qy, e2⟩ : ∃ q, q = (y * a + b) % 2 ^ W / p := ⟨_, rfl⟩
  obtain ⟨dx, e3⟩ : ∃ q, q = (x * a + b) / 2 ^ W := ⟨_, rfl⟩
  obtain ⟨dy, e4⟩ : ∃ q, q = (y * a + b) / 2 ^ W := ⟨_, rfl⟩
  obtain ⟨r, e5⟩ : ∃ q, q = (y * a + b) % 2 ^ W % p := ⟨_, rfl⟩
  rw [← e1, ← e3, ← e5] at eX
  rw [← e2, ← e4, ← e5] at eY
  rw [← e1] at hx
  rw [← e2] at hy
  refine ⟨(qx : ℤ) - qy, by omega, by omega, (dx : ℤ) - dy, ?_⟩
  have eX' := congrArg (fun n : Nat => (n : ℤ)) eX
  have eY' := congrArg (fun n : Nat => (n : ℤ)) eY
  simp only [Nat.cast_add, Nat.cast_mul, Nat.cast_pow, Nat.cast_ofNat] at eX' eY'
  linear_combination eY' - eX'

theorem two_pow_coprime_odd {n : Nat} {c : ℤ} (hc : c % 2 = 1) : IsCoprime ((2 : ℤ) ^ n) c := by
  apply IsCoprime.pow_left
  exact ⟨-(c / 2), 1, by omega⟩

theorem two_pow_dvd_of_mul {W v : Nat} (hv : v ≤ W) {a c : ℤ} (hc : c % 2 = 1) (h : (2 : ℤ) ^ W ∣ a * (2 ^ v * c)) :
    (2 : ℤ) ^ (W - v) ∣ a := by
  have e : (2 : ℤ) ^ W = 2 ^ v * 2 ^ (W - v) := by rw [← pow_add]; congr 1; omega
  rw [e, show a * (2 ^ v * c) = 2 ^ v * (a * c) by ring] at h
  have h1 := Int.dvd_of_mul_dvd_mul_left (by positivity) h
  exact (two_pow_coprime_odd hc).dvd_of_dvd_mul_right h1

/-- The slopes below `N` for which two hashes at difference `2^v c` (`c` odd) can have the same value. -/
noncomputable def badSlopes (W K p N : Nat) (δ : ℤ) : Finset Nat :=
  open Classical in (Finset.Ico 1 N).filter fun a => ∃ k : ℤ, -K ≤ k ∧ k ≤ K ∧ (2 : ℤ) ^ W ∣ a * δ - k * p

/-- Low bits differ: at most two slopes for every multiple. -/
theorem badSlopes_low {W K p N v : Nat} {c : ℤ} (hc : c % 2 = 1) (hv : v ≤ W) (hN : N ≤ 2 ^ (W - v)) :
    (badSlopes W K p N (2 ^ v * c)).card ≤ 2 * K := by
  classical
  have hk : ∀ a ∈ badSlopes W K p N (2 ^ v * c), ∃ k : ℤ, (-K ≤ k ∧ k ≤ K ∧ (2 : ℤ) ^ W ∣ a * (2 ^ v * c) - k * p) := by
    intro a ha
    exact (Finset.mem_filter.mp ha).2
  have hr : ∀ a ∈ badSlopes W K p N (2 ^ v * c), 1 ≤ a ∧ a < N := by
    intro a ha
    exact Finset.mem_Ico.mp (Finset.mem_filter.mp ha).1
  choose! f hf using hk
  have hcard : ((Finset.Icc (-(K : ℤ)) K).erase 0).card = 2 * K := by
    rw [Finset.card_erase_of_mem (by simp), Int.card_Icc]
    omega
  rw [← hcard]
  refine Finset.card_le_card_of_injOn f ?_ ?_
  · intro a ha
    obtain ⟨h1, h2, h3⟩ := hf a ha
    have hra := hr a ha
    refine Finset.mem_coe.mpr (Finset.mem_erase.mpr ⟨fun h0 => ?_, Finset.mem_Icc.mpr ⟨h1, h2⟩⟩)
    rw [h0, zero_mul, sub_zero] at h3
    have h4 := Int.le_of_dvd (by omega) (two_pow_dvd_of_mul hv hc h3)
    have h5 : (a : ℤ) < N := by exact_mod_cast hra.2
    have h6 : (N : ℤ) ≤ 2 ^ (W - v) := by exact_mod_cast hN
    omega
  · intro a ha a' ha' he
    have h3 := (hf a ha).2.2
    have h3' := (hf a' ha').2.2
    have he' : f a = f a' := he
    rw [he'] at h3
    have h4 : (2 : ℤ) ^ W ∣ ((a : ℤ) - a') * (2 ^ v * c) := by
      have := dvd_sub h3 h3'
      rwa [show (a : ℤ) * (2 ^ v * c) - f a' * p - (a' * (2 ^ v * c) - f a' * p) = ((a : ℤ) - a') * (2 ^ v * c) by ring] at this
    have h5 := two_pow_dvd_of_mul hv hc h4
    have hra := hr a ha
    have hra' := hr a' ha'
    have h6 : (N : ℤ) ≤ 2 ^ (W - v) := by exact_mod_cast hN
    have h7 : ((a : ℤ) - a') = 0 := Int.eq_zero_of_abs_lt_dvd h5 (by rw [abs_lt]; omega)
    omega

/-- Only high bits differ: the slopes are the multiples of a power of two. -/
theorem badSlopes_high {W K p N v s : Nat} {c : ℤ} (hc : c % 2 = 1) (hv : v ≤ W) (hp : (p : ℤ) % 2 = 1) (hK : K < 2 ^ v)
    (hs : s ≤ v) (hN : N ≤ 2 ^ (W - s)) : (badSlopes W K p N (2 ^ v * c)).card ≤ 2 ^ (v - s) - 1 := by
  classical
  have hd : ∀ a ∈ badSlopes W K p N (2 ^ v * c), 1 ≤ a ∧ a < N ∧ 2 ^ (W - v) ∣ a := by
    intro a ha
    obtain ⟨h1, k, h2, h3, h4⟩ := Finset.mem_filter.mp ha
    have h1 := Finset.mem_Ico.mp h1
    refine ⟨h1.1, h1.2, ?_⟩
    have h5 : (2 : ℤ) ^ v ∣ k * p := by
      have h6 : (2 : ℤ) ^ v ∣ 2 ^ W := pow_dvd_pow _ hv
      have h7 : (2 : ℤ) ^ v ∣ a * (2 ^ v * c) := ⟨a * c, by ring⟩
      have := dvd_sub h7 (h6.trans h4)
      rwa [sub_sub_cancel] at this
    have h8 : (2 : ℤ) ^ v ∣ k := (two_pow_coprime_odd hp).dvd_of_dvd_mul_right h5
    have hK' : (K : ℤ) < 2 ^ v := by exact_mod_cast hK
    have h0 : k = 0 := Int.eq_zero_of_abs_lt_dvd h8 (by rw [abs_lt]; omega)
    rw [h0, zero_mul, sub_zero] at h4
    have := two_pow_dvd_of_mul hv hc h4
    exact_mod_cast this
  have hcard : (Finset.Ico 1 (2 ^ (v - s))).card = 2 ^ (v - s) - 1 := by rw [Nat.card_Ico]
  rw [← hcard]
  refine Finset.card_le_card_of_injOn (fun a => a / 2 ^ (W - v)) ?_ ?_
  · intro a ha
    obtain ⟨h1, h2, h3⟩ := hd a ha
    refine Finset.mem_coe.mpr (Finset.mem_Ico.mpr ⟨?_, ?_⟩)
    · exact (Nat.div_pos_iff).mpr ⟨by positivity, Nat.le_of_dvd (by omega) h3⟩
    · rw [Nat.div_lt_iff_lt_mul (by positivity), ← pow_add]
      exact lt_of_lt_of_le h2 (hN.trans (le_of_eq (by congr 1; omega)))
  · intro a ha a' ha' he
    have h3 := (hd a ha).2.2
    have h3' := (hd a' ha').2.2
    have he' : a / 2 ^ (W - v) = a' / 2 ^ (W - v) := he
    rw [← Nat.div_mul_cancel h3, ← Nat.div_mul_cancel h3', he']

/-- Two numbers that differ in the low `m` bits differ by an odd multiple of a smaller power of two. -/
theorem difference_low {m x y : Nat} (h : x % 2 ^ m ≠ y % 2 ^ m) :
    ∃ (v : Nat) (c : ℤ), v < m ∧ c % 2 = 1 ∧ (x : ℤ) - y = 2 ^ v * c := by
  have hne : (x : ℤ) - y ≠ 0 := by
    intro h0
    apply h
    have : x = y := by omega
    rw [this]
  obtain ⟨v, o, ho, e⟩ := odd_part (a := ((x : ℤ) - y).natAbs) (by omega) |> fun ⟨v, o, e, ho⟩ => (⟨v, o, ho, e⟩ :
    ∃ v o, o % 2 = 1 ∧ ((x : ℤ) - y).natAbs = 2 ^ v * o)
  have hv : v < m := by
    by_contra hv
    apply h
    have h1 : (2 : ℤ) ^ m ∣ (x : ℤ) - y := by
      rw [← Int.natAbs_dvd_natAbs, e]
      rw [Int.natAbs_pow]
      exact (pow_dvd_pow 2 (by omega)).trans ⟨o, rfl⟩
    have h2 : (y : ℤ) ≡ x [ZMOD ((2 ^ m : Nat) : ℤ)] := (Int.modEq_iff_dvd).mpr (by exact_mod_cast h1)
    exact ((Int.natCast_modEq_iff).mp h2).symm
  rcases Int.natAbs_eq ((x : ℤ) - y) with h1 | h1
  · exact ⟨v, o, hv, by omega, by rw [h1, e]; push_cast; ring⟩
  · exact ⟨v, -o, hv, by omega, by rw [h1, e]; push_cast; ring⟩

end Verif
