import Verif.Model.ClusterPar

/-!
# Coherence

The machine of `Model/ClusterPar.lean` lets a load return any earlier value of its location. In C11 (and Rust) the values
that one thread reads from one location never go back in the order of the writes to it. This is stated here, so that the
counterexamples with old values can be shown to be executions that the language allows.
-/
namespace Verif.Spec
open Verif
variable {P : Type} [DecidableEq P]

/-- An atomic variable: the pointer of a point, or the state of a cluster. -/
inductive Loc (P : Type) where
  | ptr (p : P)
  | state (c : Nat)
deriving DecidableEq

/-- The variable that the next step of a worker accesses, and whether the access is a plain load. -/
def access (w : PWorker P) : Option (Loc P × Bool) :=
  match w.pc with
  | .next => w.todo.head?.map fun p => (.ptr p, true)
  | .filter (q :: _) _ => some (.ptr q, true)
  | .check c (_ :: _) => some (.state c, true)
  | .undo _ (q :: _) _ _ => some (.ptr q, false)
  | .assign _ p _ => some (.ptr p, true)
  | .conflict1 _ d _ _ => some (.state d, true)
  | .conflict2 _ d _ _ => some (.state d, true)
  | .conflict4 _ d _ _ => some (.state d, false)
  | .giveUp c => some (.state c, false)
  | .release _ (q :: _) => some (.ptr q, false)
  | .commit c => some (.state c, false)
  | _ => none

/-- The number of writes to a variable so far, that is the position of its value in the order of the writes. -/
def writes (sh : PShared P) : Loc P → Nat
  | .ptr p => (sh.past p).length
  | .state c => (sh.cell c).past.length

/-- The position of the value that a step reads: that of the given age for a load (and a compare-exchange that finds
another value than the expected one), the latest (after the write) for the other compare-exchanges. -/
def position (k : Nat) (before after : PShared P) (l : Loc P) (load : Bool) : Nat :=
  if load ∧ writes before l = writes after l then
    if k ≤ writes before l then writes before l - k else writes before l
  else writes after l

/-- No worker reads an older value of a variable than before; `view` is the last position that each worker has seen. -/
def coherent (min : Nat) (query : P → HSet P) (ord : Nat → Order) (age : Nat → Nat) :
    PState P → (Nat → Loc P → Nat) → List Nat → Prop
  | _, _, [] => True
  | s, view, i :: sched =>
    let s' := s.step min query ord age i
    match s.workers[i]?.bind access with
    | none => coherent min query ord age s' view sched
    | some (l, load) =>
      let n := position (age s.clock) s.shared s'.shared l load
      view i l ≤ n ∧ coherent min query ord age s' (fun j m => if j = i ∧ m = l then n else view j m) sched

instance decCoherent (min : Nat) (query : P → HSet P) (ord : Nat → Order) (age : Nat → Nat) :
    (s : PState P) → (view : Nat → Loc P → Nat) → (sched : List Nat) → Decidable (coherent min query ord age s view sched)
  | _, _, [] => isTrue trivial
  | s, view, i :: sched => by
    unfold coherent
    dsimp only
    cases s.workers[i]?.bind access with
    | none => exact decCoherent min query ord age _ view sched
    | some x =>
      have := decCoherent min query ord age (s.step min query ord age i)
        (fun j m => if j = i ∧ m = x.1 then position (age s.clock) s.shared (s.step min query ord age i).shared x.1 x.2
          else view j m) sched
      exact inferInstanceAs (Decidable (_ ∧ _))

end Verif.Spec
