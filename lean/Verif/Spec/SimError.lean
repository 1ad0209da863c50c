import Mathlib.Analysis.SpecialFunctions.Exp

/-! # The error bound of one pair of documents, in terms of the mean distance of their SimHash signatures -/
namespace Verif.Spec

open Classical in
/-- A bound for the probability that signatures of `w` bits whose mean distance is `μ` are on the other side of the
maximum distance `d` (exclusive). -/
noncomputable def simError (w d : Nat) (μ : ℝ) : ℝ :=
  if μ < d then Real.exp (-(2 * (d - μ) ^ 2 / w)) else Real.exp (-(2 * (μ - d + 1) ^ 2 / w))

end Verif.Spec
