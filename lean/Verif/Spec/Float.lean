import Mathlib.Algebra.Order.Field.Rat
import Mathlib.Algebra.Order.Ring.Rat
import Mathlib.Algebra.Field.Rat

/-! # Specification vocabulary for floating point: binary fractions, independent of the model's rounding. -/
namespace Verif.Spec

/-- The finite values of a binary format with `p` bits of precision and least exponent `emin`, without an upper
bound on the exponent. -/
def Binary (p : Nat) (emin : ℤ) (x : ℚ) : Prop := ∃ m e : ℤ, x = m * (2 : ℚ) ^ e ∧ |m| < 2 ^ p ∧ emin ≤ e

/-- The finite values of a binary format. -/
def FloatValue (p : Nat) (emin etop : ℤ) (x : ℚ) : Prop :=
  ∃ m e : ℤ, x = m * (2 : ℚ) ^ e ∧ |m| < 2 ^ p ∧ emin ≤ e ∧ e ≤ etop

/-- The finite values of `f64`. -/
def Double : ℚ → Prop := FloatValue 53 (-1074) 971

/-- The finite values of `f32`. -/
def Single : ℚ → Prop := FloatValue 24 (-149) 104

/-- `x` is the value nearest to `q` and, of two nearest values, the one with the even significand. -/
def NearestEven (P : ℚ → Prop) (q x : ℚ) : Prop :=
  P x ∧ (∀ y, P y → |x - q| ≤ |y - q|) ∧
  ∀ y, P y → y ≠ x → |x - q| = |y - q| →
    ∃ n k e : ℤ, x = n * (2 : ℚ) ^ e ∧ y = k * (2 : ℚ) ^ e ∧ (k = n + 1 ∨ k = n - 1) ∧ Even n

/-- Two sets of similarity `s` share at least one of `b` bands of `r` independent rows with this probability. -/
def bandProba (s : ℚ) (b r : Nat) : ℚ := 1 - (1 - s ^ r) ^ b

end Verif.Spec
