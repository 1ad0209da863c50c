import Mathlib.Analysis.SpecialFunctions.Exp

/-! # The error bound of one document when documents are ranked by their Jaccard similarity to a query -/
namespace Verif.Spec

open Classical in
/-- A bound for the probability that a document of Jaccard similarity `x` to the query ends up on the wrong side of the
limit `s`, or lies above it and shares no band with the query. -/
noncomputable def sideError (b r : Nat) (s x : ℝ) : ℝ :=
  if s < x then Real.exp (-(2 * (b * r : ℕ) * (x - s) ^ 2)) + (1 - x ^ r) ^ b
  else Real.exp (-(2 * (b * r : ℕ) * (s - x) ^ 2))

end Verif.Spec
