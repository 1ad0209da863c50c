import Verif.Lemmas.MinHasher
import Mathlib.Data.Nat.ModEq
import Mathlib.Data.Nat.Factorization.Basic
import Mathlib.Data.Finset.Card

/-! # Collisions of the affine hashes -/
namespace Verif

/-- The affine hash over natural numbers. -/
def affineNat (W p a b x : Nat) : Nat := (x * a + b) % 2 ^ W % p

theorem affine64_toNat (a b h : UInt64) : (affine64 a b h).toNat = affineNat 64 mersenne61 a.toNat b.toNat h.toNat := by
  unfold affine64 affineNat
  rw [UInt64.toNat_mod, UInt64.toNat_add, UInt64.toNat_mul, Nat.mod_add_mod]
  rfl

theorem affine32_toNat (a b h : UInt32) : (affine32 a b h).toNat = affineNat 32 mersenne31 a.toNat b.toNat h.toNat := by
  unfold affine32 affineNat
  rw [UInt32.toNat_mod, UInt32.toNat_add, UInt32.toNat_mul, Nat.mod_add_mod]
  rfl

/-- A positive number is an odd multiple of a power of two. -/
theorem odd_part {a : Nat} (ha : 0 < a) : ∃ v o, a = 2 ^ v * o ∧ o % 2 = 1 := by
  obtain ⟨v, o, h, e⟩ := Nat.exists_eq_two_pow_mul_odd (n := a) (by omega)
  exact ⟨v, o, e, Nat.odd_iff.mp h⟩

theorem affine_inner_iff {W v o b x y : Nat} (ho : o % 2 = 1) (hv : v ≤ W) :
    (x * (2 ^ v * o) + b) % 2 ^ W = (y * (2 ^ v * o) + b) % 2 ^ W ↔ x % 2 ^ (W - v) = y % 2 ^ (W - v) := by
  have hp : (2 : Nat) ^ W = 2 ^ v * 2 ^ (W - v) := by rw [← pow_add]; congr 1; omega
  have hc : Nat.gcd (2 ^ (W - v)) o = 1 := by
    apply Nat.Coprime.pow_left
    rw [Nat.coprime_two_left]
    exact Nat.odd_iff.mpr ho
  constructor
  · intro h
    have h1 : x * (2 ^ v * o) + b ≡ y * (2 ^ v * o) + b [MOD 2 ^ W] := h
    have h2 := Nat.ModEq.add_right_cancel' b h1
    rw [show x * (2 ^ v * o) = 2 ^ v * (x * o) by ring, show y * (2 ^ v * o) = 2 ^ v * (y * o) by ring, hp] at h2
    have h3 := Nat.ModEq.mul_left_cancel' (by positivity) h2
    exact Nat.ModEq.cancel_right_of_coprime hc h3
  · intro h
    have h1 : x ≡ y [MOD 2 ^ (W - v)] := h
    have h2 := (h1.mul_right o).mul_left' (2 ^ v)
    rw [← hp] at h2
    have h3 := h2.add_right b
    rw [show 2 ^ v * (x * o) = x * (2 ^ v * o) by ring, show 2 ^ v * (y * o) = y * (2 ^ v * o) by ring] at h3
    exact h3

/-- At most `(2^W - 1) / p + 1` classes share a value. -/
theorem affine_few {W p v o b : Nat} {Tok : Type} (ho : o % 2 = 1) (hv : v ≤ W) (x : Tok → Nat)
    (T : Finset Tok) (hd : ∀ t ∈ T, ∀ u ∈ T, t ≠ u → x t % 2 ^ (W - v) ≠ x u % 2 ^ (W - v))
    (he : ∀ t ∈ T, ∀ u ∈ T, affineNat W p (2 ^ v * o) b (x t) = affineNat W p (2 ^ v * o) b (x u)) :
    T.card ≤ (2 ^ W - 1) / p + 1 := by
  let z : Tok → Nat := fun t => (x t * (2 ^ v * o) + b) % 2 ^ W
  have hm : ∀ t ∈ T, z t / p ∈ Finset.range ((2 ^ W - 1) / p + 1) := by
    intro t _
    have : z t < 2 ^ W := Nat.mod_lt _ (by positivity)
    rw [Finset.mem_range, Nat.lt_succ_iff]
    exact Nat.div_le_div_right (by omega)
  have hinj : Set.InjOn (fun t => z t / p) T := by
    intro t ht u hu h
    by_contra hne
    have hz : z t ≠ z u := fun hz => hd t ht u hu hne ((affine_inner_iff ho hv).mp hz)
    apply hz
    have := he t ht u hu
    unfold affineNat at this
    rw [← Nat.div_add_mod (z t) p, ← Nat.div_add_mod (z u) p]
    show p * (z t / p) + z t % p = _
    rw [show z t / p = z u / p from h, show z t % p = z u % p from this]
  have := Finset.card_le_card_of_injOn (fun t => z t / p) hm hinj
  rwa [Finset.card_range] at this

end Verif
