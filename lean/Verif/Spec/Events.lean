import Verif.Spec.Entries

/-! # What the calls of a history say about one id -/
namespace Verif.Spec

variable {T Id : Type} [DecidableEq Id]

/-- What a call does to one id. -/
inductive Event (T : Type) where
  | put (sigs : List (List T))
  | delete
  | clear

/-- What a call does to `id`: insert it with these signatures, remove it, clear the index, or nothing. -/
def eventOf (id : Id) : Op T Id → Option (Event T)
  | .clear => some .clear
  | .remove id' => if id' = id then some .delete else none
  | .bulkRemove ids _ => if id ∈ ids then some .delete else none
  | op =>
    match (insertions op).filterMap (fun p => if p.1 = id then some p.2 else none) with
    | [] => none
    | s :: ss => some (.put (s :: ss))

/-- The history of one id. -/
def eventsOf (id : Id) (ops : List (Op T Id)) : List (Event T) := ops.filterMap (eventOf id)

/-- Bulk removals are called with distinct ids that are present. -/
def ProperBulk (n : Nat) (ops : List (Op T Id)) : Prop :=
  ∀ pre ids sched post, ops = pre ++ .bulkRemove ids sched :: post → ids.Nodup ∧ ∀ id ∈ ids, live n pre id ≠ none

end Verif.Spec
