import Verif.Model.Prelude

/-!
# Greedy clustering

What a sequential clusterer computes from a list of points: each point that is not yet taken collects its similar points
that are not yet taken; if they are enough they become a cluster.
-/
namespace Verif.Spec
open Verif
variable {P : Type} [DecidableEq P]

/-- The clusters, given which points are taken at the start. -/
def greedy (min : Nat) (query : P → HSet P) : (P → Bool) → List P → List (List P)
  | _, [] => []
  | taken, p :: ps =>
    let free := (query p).elems.filter fun q => !taken q
    if taken p = true ∨ free.length < min then greedy min query taken ps
    else free :: greedy min query (fun q => taken q || decide (q ∈ free)) ps

end Verif.Spec
