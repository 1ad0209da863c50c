import Verif.Spec.Similarity
import Verif.Spec.Ideal
import Mathlib.GroupTheory.Perm.Basic
import Mathlib.Data.Fintype.Perm
import Mathlib.Algebra.BigOperators.Group.Finset.Basic
import Mathlib.Data.Finset.Prod

/-! # Mean agreement of signatures and collisions of tokens -/
namespace Verif.Spec
variable {Tok V : Type} [Fintype Tok] [DecidableEq Tok] [DecidableEq V]

/-- The mean fraction of `n` components at which the signatures of two documents agree, when the hash values are
assigned to the tokens by a permutation drawn uniformly. -/
noncomputable def meanAgreement (n : Nat) (sig : Equiv.Perm Tok → List Tok → List V) (A B : List Tok) : ℝ :=
  ((∑ p : Equiv.Perm Tok, agree (sig p A) (sig p B) : Nat) : ℝ) / (n * Fintype.card (Equiv.Perm Tok))

/-- The fraction of components shared by two different tokens drawn uniformly. -/
noncomputable def collisionRate (n : Nat) (single : Tok → List V) : ℝ :=
  ((∑ p ∈ (Finset.univ : Finset Tok).offDiag, agree (single p.1) (single p.2) : Nat) : ℝ) /
    (n * (Fintype.card Tok * (Fintype.card Tok - 1) : Nat))

end Verif.Spec
