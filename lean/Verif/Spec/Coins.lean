import Mathlib.Algebra.BigOperators.Group.Finset.Basic
import Mathlib.Data.Fintype.Pi
import Mathlib.Data.Real.Basic

/-! # Specification vocabulary: independent coins -/
namespace Verif.Spec

open Classical in
/-- Probability of an event when coins that show heads with probability `p` are tossed independently. -/
noncomputable def coins {ι : Type} [Fintype ι] [DecidableEq ι] (p : ℝ) (F : (ι → Bool) → Prop) : ℝ :=
  ∑ f : ι → Bool, if F f then ∏ i, (if f i then p else 1 - p) else 0

/-- Number of heads. -/
def heads {ι : Type} [Fintype ι] (f : ι → Bool) : Nat := (Finset.univ.filter fun i => f i = true).card

/-- One of the `b` rows of `r` coins shows only heads. -/
def FullRow (b r : Nat) (f : Fin (b * r) → Bool) : Prop :=
  ∃ i < b, ∀ j : Fin (b * r), i * r ≤ j.val → j.val < (i + 1) * r → f j = true

end Verif.Spec
