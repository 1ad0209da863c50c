import Verif.Model.Prelude

/-! # Specification vocabulary: the ids of an answer -/
namespace Verif.Spec

/-- The ids that a call returned; none if it panicked. -/
def answerIds {Id : Type} : Except Panic (HSet Id) → List Id
  | .ok s => s.elems
  | .error _ => []

end Verif.Spec
