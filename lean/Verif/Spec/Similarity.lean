import Verif.Model.Fl
import Mathlib.Data.Finset.Card
import Mathlib.Data.Finset.Filter
import Mathlib.Data.Finset.Range
import Mathlib.Data.Finset.Dedup

/-! # Specification vocabulary for similarity: positions that agree, token sets. -/
namespace Verif.Spec

/-- Number of positions at which two sequences hold the same value. -/
def agree {T : Type} [DecidableEq T] (a b : List T) : Nat :=
  ((Finset.range a.length).filter fun i => a[i]? = b[i]?).card

end Verif.Spec
