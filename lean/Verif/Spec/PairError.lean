import Mathlib.Analysis.SpecialFunctions.Exp

/-! # The error bound of one pair of documents, in terms of their Jaccard similarity -/
namespace Verif.Spec

open Classical in
/-- A bound for the probability that an index of `b` bands of `r` rows and threshold `t` decides wrongly about two
documents of Jaccard similarity `s`: below the threshold the estimate must be off by the distance (but for the rounding
of one division); otherwise the estimate must be off, or no band agrees. -/
noncomputable def pairError (b r : Nat) (t s : ℝ) : ℝ :=
  if t ≤ s then Real.exp (-(2 * (b * r : ℕ) * (s - t) ^ 2)) + (1 - s ^ r) ^ b
  else Real.exp (-(2 * (b * r : ℕ) * (max 0 (t - s - 1 / 2 ^ 54)) ^ 2))

end Verif.Spec
