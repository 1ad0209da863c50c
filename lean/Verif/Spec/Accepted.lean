import Verif.Spec.Coins
import Verif.Spec.Float
import Verif.Model.Fl

/-! # Specification vocabulary: agreements for which a query returns a document -/
namespace Verif.Spec

/-- One of the `b` rows of `r` components agrees, and the share of agreeing components, rounded to a double, reaches the
threshold. -/
def Accepted (b r : Nat) (t : Fl) (f : Fin (b * r) → Bool) : Prop :=
  FullRow b r f ∧ ∃ x, NearestEven Double ((heads f : ℚ) / (b * r : ℕ)) x ∧ Fl.ge (.fin x) t = true

end Verif.Spec
