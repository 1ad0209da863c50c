import Verif.Lemmas.AffineRandom
import Mathlib.Tactic.Linarith

/-! # How often token hashes are small -/
namespace Verif

/-- A shift is a bijection of the residues. -/
theorem residue_card (p c lo hi : Nat) (hhi : hi ≤ p) :
    ((Finset.range p).filter fun b => lo ≤ (c + b) % p ∧ (c + b) % p < hi).card = hi - lo := by
  rw [← Nat.card_Ico]
  refine Finset.card_bij (fun b _ => (c + b) % p) ?_ ?_ ?_
  · intro b hb
    exact Finset.mem_Ico.mpr (Finset.mem_filter.mp hb).2
  · intro b hb b' hb' e
    have h1 := Finset.mem_range.mp (Finset.mem_filter.mp hb).1
    have h2 := Finset.mem_range.mp (Finset.mem_filter.mp hb').1
    have h3 : b ≡ b' [MOD p] := Nat.ModEq.add_left_cancel' c e
    exact Nat.ModEq.eq_of_lt_of_lt h3 h1 h2
  · intro r hr
    have hr := Finset.mem_Ico.mp hr
    have hp : 0 < p := by omega
    have hc := Nat.mod_lt c hp
    have e : (c + (r + (p - c % p)) % p) % p = r := by
      rw [Nat.add_mod_mod]
      have h1 := Nat.div_add_mod c p
      have h2 : c + (r + (p - c % p)) = r + p * (c / p + 1) := by
        rw [Nat.mul_add, Nat.mul_one]; omega
      rw [h2, Nat.add_mul_mod_self_left, Nat.mod_eq_of_lt (by omega)]
    refine ⟨(r + (p - c % p)) % p, Finset.mem_filter.mpr ⟨Finset.mem_range.mpr (Nat.mod_lt _ hp), ?_⟩, e⟩
    rw [e]
    exact hr

/-- The wraparound shifts the residue by `K` or not at all. -/
theorem affine_residue {W p K a b x : Nat} (hN : 2 ^ W = K * p + K) (hb : b < p) (hp : p ≤ 2 ^ W) :
    (x * a % 2 ^ W + b) % p = affineNat W p a b x ∨ (x * a % 2 ^ W + b) % p = (affineNat W p a b x + K) % p := by
  unfold affineNat
  have hc : x * a % 2 ^ W < 2 ^ W := Nat.mod_lt _ (by positivity)
  have e : (x * a + b) % 2 ^ W = (x * a % 2 ^ W + b) % 2 ^ W := by rw [Nat.mod_add_mod]
  rw [e]
  generalize x * a % 2 ^ W = c at *
  by_cases h : c + b < 2 ^ W
  · left
    rw [Nat.mod_eq_of_lt h]
  · right
    have h2 : (c + b) % 2 ^ W = c + b - 2 ^ W := by
      rw [Nat.mod_eq_sub_mod (by omega), Nat.mod_eq_of_lt (by omega)]
    rw [h2, Nat.mod_add_mod]
    have h3 : c + b = c + b - 2 ^ W + K + p * K := by
      rw [Nat.mul_comm p K]; omega
    conv_lhs => rw [h3]
    rw [Nat.add_mul_mod_self_left]

theorem small_of_residue {W p K a b x τ : Nat} (hN : 2 ^ W = K * p + K) (hb : b < p) (hp : p ≤ 2 ^ W)
    (h1 : K ≤ (x * a % 2 ^ W + b) % p) (h2 : (x * a % 2 ^ W + b) % p < τ) : affineNat W p a b x < τ := by
  have hlt : affineNat W p a b x < p := Nat.mod_lt _ (by omega)
  rcases affine_residue (a := a) (x := x) hN hb hp with h | h
  · omega
  · by_cases h3 : affineNat W p a b x + K < p
    · rw [Nat.mod_eq_of_lt h3] at h
      omega
    · by_cases hK : K ≤ p
      · have h4 : (affineNat W p a b x + K) % p = affineNat W p a b x + K - p := by
          rw [Nat.mod_eq_sub_mod (by omega)]
          exact Nat.mod_eq_of_lt (by omega)
        omega
      · have := Nat.mod_lt (x * a % 2 ^ W + b) (show 0 < p by omega)
        omega

theorem residue_of_small {W p K a b x τ : Nat} (hN : 2 ^ W = K * p + K) (hb : b < p) (hp : p ≤ 2 ^ W) (hτ : τ + K ≤ p)
    (h : affineNat W p a b x < τ) : (x * a % 2 ^ W + b) % p < τ + K := by
  rcases affine_residue (a := a) (x := x) hN hb hp with h1 | h1
  · omega
  · rw [h1, Nat.mod_eq_of_lt (by omega)]
    omega

/-- For every slope a hash is below `τ` for at least `τ - K` intercepts. -/
theorem small_ge {W p K : Nat} (a x : Nat) {τ : Nat} (hN : 2 ^ W = K * p + K) (hp : p ≤ 2 ^ W) (hτ : τ ≤ p) :
    τ - K ≤ ((Finset.range p).filter fun b => affineNat W p a b x < τ).card := by
  rw [← residue_card p (x * a % 2 ^ W) K τ hτ]
  refine Finset.card_le_card fun b hb => ?_
  obtain ⟨h1, h2, h3⟩ := Finset.mem_filter.mp hb
  exact Finset.mem_filter.mpr ⟨h1, small_of_residue hN (Finset.mem_range.mp h1) hp h2 h3⟩

/-- For every slope a hash is below `τ` for at most `τ + K` intercepts. -/
theorem small_le {W p K : Nat} (a x : Nat) {τ : Nat} (hN : 2 ^ W = K * p + K) (hp : p ≤ 2 ^ W) (hτ : τ + K ≤ p) :
    ((Finset.range p).filter fun b => affineNat W p a b x < τ).card ≤ τ + K := by
  have h0 := residue_card p (x * a % 2 ^ W) 0 (τ + K) hτ
  rw [Nat.sub_zero] at h0
  rw [← h0]
  refine Finset.card_le_card fun b hb => ?_
  obtain ⟨h1, h2⟩ := Finset.mem_filter.mp hb
  exact Finset.mem_filter.mpr ⟨h1, Nat.zero_le _, residue_of_small hN (Finset.mem_range.mp h1) hp hτ h2⟩

/-- The slopes below `N` that bring a difference close to a multiple of the modulus. -/
noncomputable def nearSlopes (W K p N M : Nat) (δ : ℤ) : Finset Nat :=
  open Classical in (Finset.Ico 1 N).filter fun a => ∃ j f : ℤ, 0 ≤ j ∧ j < K ∧ -(M : ℤ) < f ∧ f < M ∧
    (2 : ℤ) ^ W ∣ a * δ - (j * p + f)

/-- If two hashes are small for the same coefficients, the slope is one of these. -/
theorem near_of_small {W p K a b x y τ : Nat} (hN : 2 ^ W = K * p + K) (hK : 0 < K) (hKp : K ≤ p)
    (hx : affineNat W p a b x < τ) (hy : affineNat W p a b y < τ) :
    ∃ j f : ℤ, 0 ≤ j ∧ j < K ∧ -((τ + K : ℕ) : ℤ) < f ∧ f < ((τ + K : ℕ) : ℤ) ∧
      (2 : ℤ) ^ W ∣ a * ((x : ℤ) - y) - (j * p + f) := by
  unfold affineNat at hx hy
  have hX := Nat.div_add_mod ((x * a + b) % 2 ^ W) p
  have hY := Nat.div_add_mod ((y * a + b) % 2 ^ W) p
  have hq : ∀ z, (z * a + b) % 2 ^ W / p ≤ K := by
    intro z
    have h1 : (z * a + b) % 2 ^ W < 2 ^ W := Nat.mod_lt _ (by positivity)
    have h2 : 2 ^ W ≤ p * (K + 1) := by rw [hN]; linarith [Nat.mul_comm p K]
    have := Nat.div_lt_of_lt_mul (lt_of_lt_of_le h1 h2)
    omega
  have eX := Nat.div_add_mod (x * a + b) (2 ^ W)
  have eY := Nat.div_add_mod (y * a + b) (2 ^ W)
  have hqx := hq x
  have hqy := hq y
  rw [← hX] at eX
  rw [← hY] at eY
  generalize (x * a + b) % 2 ^ W / p = qx at *
  generalize (y * a + b) % 2 ^ W / p = qy at *
  generalize (x * a + b) / 2 ^ W = dx at *
  generalize (y * a + b) / 2 ^ W = dy at *
  generalize (x * a + b) % 2 ^ W % p = rx at *
  generalize (y * a + b) % 2 ^ W % p = ry at *
  have eX' := congrArg (fun n : Nat => (n : ℤ)) eX
  have eY' := congrArg (fun n : Nat => (n : ℤ)) eY
  have hN' : (2 : ℤ) ^ W = K * p + K := by exact_mod_cast hN
  simp only [Nat.cast_add, Nat.cast_mul, Nat.cast_pow, Nat.cast_ofNat] at eX' eY'
  push_cast
  rcases lt_or_ge qx qy with hlt | hge
  · refine ⟨(qx : ℤ) - qy + K, (rx : ℤ) - ry + K, by omega, by omega, by omega, by omega, (dx : ℤ) - dy - 1, ?_⟩
    linear_combination eY' - eX' + hN'
  · by_cases h : qx - qy = K
    · have h' : (qx : ℤ) - qy = K := by omega
      refine ⟨0, (rx : ℤ) - ry - K, by omega, by omega, by omega, by omega, (dx : ℤ) - dy + 1, ?_⟩
      linear_combination eY' - eX' - hN' + p * h'
    · refine ⟨(qx : ℤ) - qy, (rx : ℤ) - ry, by omega, by omega, by omega, by omega, (dx : ℤ) - dy, ?_⟩
      linear_combination eY' - eX'

/-- There are few such slopes. -/
theorem nearSlopes_card {W s p M v : Nat} {c : ℤ} (hc : c % 2 = 1) (hv : v ≤ W) (hs : s ≤ W) (hp : p ≤ 2 ^ (W - s))
    (hM : 0 < M) :
    (nearSlopes W (2 ^ s) p p M (2 ^ v * c)).card ≤ 2 ^ s * ((2 * M - 2) / 2 ^ v + 1) * 2 ^ (v - s) := by
  classical
  have hk : ∀ a ∈ nearSlopes W (2 ^ s) p p M (2 ^ v * c), ∃ jf : ℤ × ℤ, 0 ≤ jf.1 ∧ jf.1 < 2 ^ s ∧ -(M : ℤ) < jf.2 ∧
      jf.2 < M ∧ (2 : ℤ) ^ W ∣ a * (2 ^ v * c) - (jf.1 * p + jf.2) := by
    intro a ha
    obtain ⟨j, f, h1, h2, h3, h4, h5⟩ := (Finset.mem_filter.mp ha).2
    exact ⟨(j, f), h1, by exact_mod_cast h2, h3, h4, h5⟩
  have hr : ∀ a ∈ nearSlopes W (2 ^ s) p p M (2 ^ v * c), 1 ≤ a ∧ a < p := by
    intro a ha
    exact Finset.mem_Ico.mp (Finset.mem_filter.mp ha).1
  choose! F hF using hk
  have hcard : (Finset.Ico (0 : ℤ) (2 ^ s) ×ˢ Finset.Ico (0 : ℤ) (((2 * M - 2) / 2 ^ v + 1 : ℕ)) ×ˢ
      Finset.range (2 ^ (v - s))).card = 2 ^ s * ((2 * M - 2) / 2 ^ v + 1) * 2 ^ (v - s) := by
    rw [Finset.card_product, Finset.card_product, Int.card_Ico, Int.card_Ico, Finset.card_range, sub_zero, sub_zero,
      Int.toNat_natCast, Nat.mul_assoc]
    congr 1
  have h2v : (0 : ℤ) < 2 ^ v := by positivity
  rw [← hcard]
  refine Finset.card_le_card_of_injOn (fun a => ((F a).1, ((F a).2 + M - 1) / 2 ^ v, a / 2 ^ (W - v))) ?_ ?_
  · intro a ha
    obtain ⟨h1, h2, h3, h4, -⟩ := hF a ha
    have hra := hr a ha
    refine Finset.mem_coe.mpr (Finset.mem_product.mpr ⟨Finset.mem_Ico.mpr ⟨h1, h2⟩, Finset.mem_product.mpr
      ⟨Finset.mem_Ico.mpr ⟨?_, ?_⟩, Finset.mem_range.mpr ?_⟩⟩)
    · exact Int.ediv_nonneg (by omega) h2v.le
    · have h5 : ((F a).2 + M - 1) / 2 ^ v ≤ ((2 * M - 2 : ℕ) : ℤ) / 2 ^ v :=
        Int.ediv_le_ediv h2v (by omega)
      push_cast
      push_cast at h5
      omega
    · rw [Nat.div_lt_iff_lt_mul (by positivity), ← pow_add]
      exact lt_of_lt_of_le hra.2 (hp.trans (Nat.pow_le_pow_right (by norm_num) (by omega)))
  · intro a ha a' ha' he
    simp only [Prod.mk.injEq] at he
    obtain ⟨e1, e2, e3⟩ := he
    obtain ⟨-, -, -, -, h5⟩ := hF a ha
    obtain ⟨-, -, -, -, h5'⟩ := hF a' ha'
    have hdvd : (2 : ℤ) ^ v ∣ 2 ^ W := pow_dvd_pow _ hv
    have hlow : ∀ z : Nat, (2 : ℤ) ^ W ∣ z * (2 ^ v * c) - ((F z).1 * p + (F z).2) →
        (2 : ℤ) ^ v ∣ (F z).1 * p + (F z).2 := by
      intro z hz
      have h7 : (2 : ℤ) ^ v ∣ z * (2 ^ v * c) := ⟨z * c, by ring⟩
      have := dvd_sub h7 (hdvd.trans hz)
      rwa [sub_sub_cancel] at this
    have h6 := dvd_sub (hlow a h5) (hlow a' h5')
    rw [e1, show (F a').1 * (p : ℤ) + (F a).2 - ((F a').1 * p + (F a').2) = ((F a).2 + M - 1) - ((F a').2 + M - 1) by
      ring] at h6
    have h8 : ((F a).2 + M - 1) % 2 ^ v = ((F a').2 + M - 1) % 2 ^ v := 
      Int.emod_eq_emod_iff_emod_sub_eq_zero.mpr (Int.emod_eq_zero_of_dvd h6)
    have h9 : (F a).2 = (F a').2 := by
      have q1 := Int.mul_ediv_add_emod ((F a).2 + M - 1) (2 ^ v)
      have q2 := Int.mul_ediv_add_emod ((F a').2 + M - 1) (2 ^ v)
      rw [e2, h8] at q1
      linarith
    rw [e1, h9] at h5
    have h10 := dvd_sub h5 h5'
    rw [show (a : ℤ) * (2 ^ v * c) - ((F a').1 * p + (F a').2) - (a' * (2 ^ v * c) - ((F a').1 * p + (F a').2)) =
      ((a : ℤ) - a') * (2 ^ v * c) by ring] at h10
    have h11 := two_pow_dvd_of_mul hv hc h10
    have h12 : (a' : ℕ) ≡ a [MOD 2 ^ (W - v)] := by
      rw [← Int.natCast_modEq_iff, Int.modEq_iff_dvd]
      exact_mod_cast h11
    rw [← Nat.div_add_mod a (2 ^ (W - v)), ← Nat.div_add_mod a' (2 ^ (W - v)), e3]
    have : a' % 2 ^ (W - v) = a % 2 ^ (W - v) := h12
    rw [this]

/-- The bound when the difference shows in the low bits. -/
theorem nearSlopes_le {W s p M v : Nat} {c : ℤ} (hc : c % 2 = 1) (hv : v ≤ W) (hs : s ≤ W) (hp : p ≤ 2 ^ (W - s))
    (hM : 0 < M) (hsmall : 2 ^ v ≤ (2 ^ s - 1) * (2 * M - 1) + 1) :
    (nearSlopes W (2 ^ s) p p M (2 ^ v * c)).card ≤ 2 ^ s * (2 * M - 1) := by
  refine (nearSlopes_card hc hv hs hp hM).trans ?_
  have hdiv : (2 * M - 2) / 2 ^ v * 2 ^ v ≤ 2 * M - 2 := Nat.div_mul_le_self _ _
  have hle : (2 * M - 2) / 2 ^ v ≤ 2 * M - 2 := Nat.div_le_self _ _
  rcases le_total v s with h | h
  · rw [Nat.sub_eq_zero_of_le h, pow_zero, Nat.mul_one]
    exact Nat.mul_le_mul_left _ (by omega)
  · have e : 2 ^ s * 2 ^ (v - s) = 2 ^ v := by rw [← pow_add]; congr 1; omega
    have e2 : 2 ^ s * ((2 * M - 2) / 2 ^ v + 1) * 2 ^ (v - s) = (2 * M - 2) / 2 ^ v * 2 ^ v + 2 ^ v := by
      calc _ = ((2 * M - 2) / 2 ^ v + 1) * (2 ^ s * 2 ^ (v - s)) := by ring
        _ = _ := by rw [e]; ring
    rw [e2]
    have hpos : 1 ≤ 2 ^ s := Nat.one_le_two_pow
    have e3 : 2 ^ s * (2 * M - 1) = (2 ^ s - 1) * (2 * M - 1) + (2 * M - 1) := by
      obtain ⟨k, hk⟩ : ∃ k, 2 ^ s = k + 1 := ⟨2 ^ s - 1, by omega⟩
      rw [hk]
      simp only [Nat.add_sub_cancel]
      ring
    omega

end Verif
