import Verif.Model.ClusterPar

/-!
# Several calls of the parallel clusterer

What happens between the calls: the caller may drop clusters of earlier calls. Relaxed loads cannot see values from before
the call, as the threads of a call start after the previous one has ended.
-/
namespace Verif.Spec
open Verif
variable {P : Type} [DecidableEq P]

/-- A call: minimum size, index, iteration orders, ages of the values read, the parts of the points, the schedule; and which
clusters the caller drops afterwards. -/
structure Call (P : Type) where
  min : Nat
  query : P → HSet P
  ord : Nat → Order
  age : Nat → Nat
  slices : List (List P)
  sched : List Nat
  drops : Nat → Bool

/-- The end of a call that starts with the memory `sh`. -/
def Call.run (k : Call P) (sh : PShared P) : PState P :=
  (PState.start sh k.slices).run k.min k.query k.ord k.age k.sched

/-- The memory for the next call. -/
def Call.next (k : Call P) (sh : PShared P) : PShared P :=
  { ptr := sh.ptr, seq := sh.seq, trace := [], past := fun _ => []
    heap := sh.heap.mapIdx fun c cell => if k.drops c then { cell with dropped := true } else cell }

/-- The ends of the calls, one after the other. -/
def session : PShared P → List (Call P) → List (PState P)
  | _, [] => []
  | sh, k :: ks => k.run sh :: session (k.next (k.run sh).shared) ks

end Verif.Spec
