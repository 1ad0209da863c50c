import Verif.Spec.Ideal
import Mathlib.Data.BitVec
import Mathlib.Algebra.BigOperators.Group.Finset.Basic
import Mathlib.Data.Fintype.BigOperators

/-! # Specification vocabulary: random hash functions -/
namespace Verif.Spec

/-- There are `2^w` bit patterns. -/
instance {w : Nat} : Fintype (BitVec w) := Fintype.ofEquiv (Fin (2 ^ w)) BitVec.equivFin.symm.toEquiv

/-- Mean value of a quantity when an element of a finite type is drawn uniformly. -/
noncomputable def meanValue {Ω : Type} [Fintype Ω] (f : Ω → ℝ) : ℝ := (∑ x, f x) / Fintype.card Ω

end Verif.Spec
