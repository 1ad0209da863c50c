import Mathlib.Data.Finset.Card
import Mathlib.Data.Fintype.Basic
import Mathlib.Data.Fintype.Card

/-! # Specification of bit patterns -/
namespace Verif.Spec
variable {w : Nat}

/-- The positions where two values differ. -/
def diffBits (x y : BitVec w) : Finset (Fin w) := Finset.univ.filter fun i => x.getLsbD i ≠ y.getLsbD i

/-- How many values have bit `i` set. -/
def ones (l : List (BitVec w)) (i : Nat) : Nat := l.countP fun h => h.getLsbD i
/-- How many values have bit `i` clear. -/
def zeros (l : List (BitVec w)) (i : Nat) : Nat := l.countP fun h => !h.getLsbD i

/-- Sum of the numbers of differing positions to all members of a list. -/
def totalDistance (c : BitVec w) (l : List (BitVec w)) : Nat := (l.map fun s => (diffBits c s).card).sum

/-- The positions where the votes of a list are so close that `d` votes more or less could decide otherwise (a position
is decided for 1 when there are more zeros than ones). -/
def closeBits (l : List (BitVec w)) (d : Nat) : Finset (Fin w) :=
  Finset.univ.filter fun i => ones l i < zeros l i + d ∧ zeros l i ≤ ones l i + d

end Verif.Spec
