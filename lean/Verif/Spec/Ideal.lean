import Mathlib.Data.Fintype.Perm
import Mathlib.Data.Real.Basic

/-! # Specification vocabulary: idealised MinHash -/
namespace Verif.Spec

/-- The MinHash signature of a token list under ideal hash functions: every component has its own permutation of the
tokens, and is the least rank that the permuted tokens have. -/
def idealSignature {Tok : Type} (rank : Tok → Nat) (ps : List (Equiv.Perm Tok)) (tokens : List Tok) : List Nat :=
  ps.map fun p => ((tokens.map fun t => rank (p t)).min?).getD 0

/-- Jaccard similarity of the token sets. -/
noncomputable def jaccard {Tok : Type} [DecidableEq Tok] (A B : List Tok) : ℝ :=
  ((A.toFinset ∩ B.toFinset).card : ℝ) / (A.toFinset ∪ B.toFinset).card

open Classical in
/-- Probability of an event when an element of a finite type is drawn uniformly. -/
noncomputable def proportion {Ω : Type} [Fintype Ω] (P : Ω → Prop) : ℝ :=
  ((Finset.univ.filter P).card : ℝ) / Fintype.card Ω

end Verif.Spec
