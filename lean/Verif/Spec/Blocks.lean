import Mathlib.Data.List.Basic

/-! # Specification vocabulary: blocks of bits -/
namespace Verif.Spec

/-- The number of the `nb` consecutive blocks of nearly equal width on which two bit vectors agree; block `k` starts at bit
`k*w/nb`. -/
def agreeingBlocks {w : Nat} (nb : Nat) (x y : BitVec w) : Nat :=
  ((List.range nb).filter fun k =>
    decide (∀ j < (k + 1) * w / nb, k * w / nb ≤ j → x.getLsbD j = y.getLsbD j)).length

end Verif.Spec
