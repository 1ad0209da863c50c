import Verif.Model.MinHashIndex

/-!
# Specification of index histories

The content of the index after a history, defined from the calls alone: what the last call that concerns an id
says about it. Nothing here refers to bands, buckets or any state of the model; only the alphabet `Op` of
calls is shared with it.
-/
namespace Verif.Spec

variable {T Id : Type} [DecidableEq Id]

/-- Which calls are accepted (return normally) by an index with `n = num_bands * band_width`. -/
def accepts (n : Nat) : Op T Id → Bool
  | .insert _ s => s.length = n
  | .parBulkInsert ids sigs _ =>
      (sigs.head?.all fun s => s.length = n) && ((sigs.zip ids).all fun p => n ≤ p.1.length)
  | .parBulkInsertPairs ps _ => ps.all fun p => n ≤ p.2.length
  | _ => true

/-- The last pair for `id` in a batch. -/
def lastPair (ps : List (Id × List T)) (id : Id) : Option (List T) :=
  (ps.reverse.find? fun p => p.1 = id).map Prod.snd

/-- What a call does to `id`: nothing (`none`), delete it (`some none`), or give it a signature. -/
def touch (n : Nat) (id : Id) : Op T Id → Option (Option (List T))
  | .insert id' s => if id' = id ∧ s.length = n then some (some s) else none
  | .parBulkInsert ids sigs sched =>
      if accepts n (.parBulkInsert ids sigs sched : Op T Id) then (lastPair (ids.zip sigs) id).map some else none
  | .parBulkInsertPairs ps sched =>
      if accepts n (.parBulkInsertPairs ps sched : Op T Id) then (lastPair ps id).map some else none
  | .remove id' => if id' = id then some none else none
  | .bulkRemove ids _ => if id ∈ ids then some none else none
  | .clear => some none
  | .shrinkToFit _ => none
  | .shrinkTo _ _ _ _ => none

/-- The current signature of `id` after the history `ops`: decided by the last call that concerns `id`. -/
def live (n : Nat) (ops : List (Op T Id)) (id : Id) : Option (List T) :=
  (ops.reverse.findSome? (touch n id)).join

/-- The signatures passed by a call. -/
def sigsOf : Op T Id → List (List T)
  | .insert _ s => [s]
  | .parBulkInsert _ sigs _ => sigs
  | .parBulkInsertPairs ps _ => ps.map Prod.snd
  | _ => []

/-- All signatures passed by the history have length `n`. -/
def RightLengths (n : Nat) (ops : List (Op T Id)) : Prop := ∀ op ∈ ops, ∀ s ∈ sigsOf op, s.length = n

/-- A call that, in a state with the given content, inserts no present id, inserts no id twice, inserts
accepted signatures, and bulk-removes distinct present ids. -/
def cleanCall (n : Nat) (content : Id → Option (List T)) : Op T Id → Prop
  | .insert id s => s.length = n → content id = none
  | .parBulkInsert ids sigs sched => accepts n (.parBulkInsert ids sigs sched : Op T Id) = true ∧
      ((ids.zip sigs).map Prod.fst).Nodup ∧ ∀ p ∈ ids.zip sigs, content p.1 = none
  | .parBulkInsertPairs ps sched => accepts n (.parBulkInsertPairs ps sched : Op T Id) = true ∧
      (ps.map Prod.fst).Nodup ∧ ∀ p ∈ ps, content p.1 = none
  | .bulkRemove ids _ => ids.Nodup ∧ ∀ id ∈ ids, content id ≠ none
  | _ => True

/-- Histories without overwriting: every call is clean in the content left by the calls before it. -/
def Clean (n : Nat) (ops : List (Op T Id)) : Prop :=
  ∀ pre op post, ops = pre ++ op :: post → cleanCall n (live n pre) op

/-- Positions `i*r .. (i+1)*r` of a signature. -/
def bandOf (r : Nat) (s : List T) (i : Nat) : List T := (s.drop (i * r)).take r

/-- Two signatures agree on the whole of band `i`. -/
def sameBand (r : Nat) (s q : List T) (i : Nat) : Prop :=
  ∀ j : Nat, i * r ≤ j → j < (i + 1) * r → s[j]? = q[j]?

end Verif.Spec
