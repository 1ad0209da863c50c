import Verif.Model.ClusterPar

/-!
# Data races

The accesses of the workers of `cluster_par` to the memory of `Cluster` boxes. The fields `points` and `cluster_id` are
plain memory; `state` is atomic, but it is initialised and freed with the box, which is not. All atomic operations of
clusterer_parallel.rs are `Relaxed`, so that they order nothing: two accesses of tasks that run at the same time are
never ordered by happens-before.
-/
namespace Verif.Spec
open Verif
variable {P : Type} [DecidableEq P]

/-- Fields of `Cluster`. -/
inductive Field where
  | points | clusterId | state
deriving DecidableEq

/-- An access to a field of a cluster. -/
structure Touch where
  cluster : Nat
  field : Field
  atomic : Bool
  write : Bool
deriving DecidableEq

/-- Creation or release of a box: all fields are written. -/
def wholeBox (c : Nat) : List Touch :=
  [⟨c, .points, false, true⟩, ⟨c, .clusterId, false, true⟩, ⟨c, .state, false, true⟩]

/-- What the next step of a worker does to clusters. clusterer_parallel.rs 225-290: the box 227-228 (and its release at the
end of its scope), `is_rolled_back` 234, 248, `is_commited` 246, `points` 238, 259, 283, `cluster_id` 250, `rollback` and
`commit` 110-120, followed in the same step by the start of the loop over `points` 283. -/
def touches (min k : Nat) (sh : PShared P) (w : PWorker P) : List Touch :=
  match w.pc with
  | .filter [] acc => if min ≤ acc.length then wholeBox sh.heap.length else []
  | .check c (_ :: _) => [⟨c, .state, true, false⟩, ⟨c, .points, false, false⟩]
  | .undo c _ _ _ => [⟨c, .points, false, false⟩]
  | .assign c p _ => if sh.readAssign k p = none then [⟨c, .points, false, true⟩] else []
  | .conflict1 _ d _ _ => [⟨d, .state, true, false⟩]
  | .conflict2 _ d _ _ => [⟨d, .state, true, false⟩]
  | .conflict3 c d _ _ => [⟨c, .clusterId, false, false⟩, ⟨d, .clusterId, false, false⟩]
  | .conflict4 c d _ _ => [⟨d, .state, true, true⟩, ⟨c, .points, false, true⟩]
  | .giveUp c => [⟨c, .state, true, true⟩, ⟨c, .points, false, false⟩]
  | .release c (_ :: _) => [⟨c, .points, false, false⟩]
  | .release c [] => wholeBox c
  | .commit c => [⟨c, .state, true, true⟩, ⟨c, .points, false, false⟩]
  | _ => []

/-- The accesses of an execution, step by step. -/
def history (min : Nat) (query : P → HSet P) (ord : Nat → Order) (age : Nat → Nat) :
    PState P → List Nat → List (Nat × List Touch)
  | _, [] => []
  | s, i :: sched =>
    (i, match s.workers[i]? with | none => [] | some w => touches min (age s.clock) s.shared w) ::
      history min query ord age (s.step min query ord age i) sched

/-- Two accesses that must be ordered: the same field, one of them a write, one of them not atomic. -/
def Touch.conflicts (a b : Touch) : Prop :=
  a.cluster = b.cluster ∧ a.field = b.field ∧ (a.write = true ∨ b.write = true) ∧ (a.atomic = false ∨ b.atomic = false)

instance (a b : Touch) : Decidable (a.conflicts b) := inferInstanceAs (Decidable (_ ∧ _))

/-- A data race: conflicting accesses of two workers, the second of which had begun before the first access, so that
nothing orders them. -/
def DataRace (h : List (Nat × List Touch)) : Prop :=
  ∃ before middle after : List (Nat × List Touch), ∃ x y : Nat × List Touch,
    h = before ++ x :: middle ++ y :: after ∧ x.1 ≠ y.1 ∧ (∃ z ∈ before, z.1 = y.1) ∧
    ∃ a ∈ x.2, ∃ b ∈ y.2, a.conflicts b

end Verif.Spec
