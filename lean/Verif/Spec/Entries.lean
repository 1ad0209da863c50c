import Verif.Spec.Index

/-!
# Specification of the bucket entries after an arbitrary history

How often an id is listed in a bucket, from the calls and the content alone. `dedup` says whether the id container
keeps one copy of an id (the hash set) or all of them (the vectors).
-/
namespace Verif.Spec

variable {T Id : Type} [DecidableEq Id]

/-- The signatures that a bulk removal collects: those of the present ids, each once, in order. -/
def taken (content : Id → Option (List T)) : List Id → List (List T)
  | [] => []
  | id :: ids =>
    match content id with
    | some s => s :: taken (fun x => if x = id then none else content x) ids
    | none => taken content ids

/-- The pairs that a call adds to the buckets. -/
def insertions : Op T Id → List (Id × List T)
  | .insert id s => [(id, s)]
  | .parBulkInsert ids sigs _ => ids.zip sigs
  | .parBulkInsertPairs ps _ => ps
  | _ => []

/-- The pairs that a call takes out of the buckets. A bulk removal pairs the collected signatures with the ids from
the beginning of the list. -/
def removals (content : Id → Option (List T)) : Op T Id → List (Id × List T)
  | .remove id =>
    match content id with
    | some s => [(id, s)]
    | none => []
  | .bulkRemove ids _ => ids.zip (taken content ids)
  | _ => []

/-- How many pairs of the list concern `id` and bucket `k` of band `i`. -/
def pairsAt (key : Nat → List T → UInt64) (i : Nat) (k : UInt64) (id : Id) (ps : List (Id × List T)) : Nat :=
  ps.countP fun p => p.1 = id ∧ key i p.2 = k

/-- Entries of `id` in bucket `k` of band `i` after a call, `e` of them before. -/
def entryStep (dedup : Bool) (key : Nat → List T → UInt64) (content : Id → Option (List T)) (op : Op T Id)
    (i : Nat) (k : UInt64) (id : Id) (e : Nat) : Nat :=
  match op with
  | .clear => 0
  | op =>
    if pairsAt key i k id (insertions op) = 0 then e - pairsAt key i k id (removals content op)
    else if dedup then 1 else e + pairsAt key i k id (insertions op)

/-- Entries of `id` in bucket `k` of band `i`, history in reverse. -/
def entriesRev (dedup : Bool) (key : Nat → List T → UInt64) (n i : Nat) (k : UInt64) (id : Id) : List (Op T Id) → Nat
  | [] => 0
  | op :: rest => entryStep dedup key (live n rest.reverse) op i k id (entriesRev dedup key n i k id rest)

/-- Entries of `id` in bucket `k` of band `i` after a history. -/
def entries (dedup : Bool) (key : Nat → List T → UInt64) (n : Nat) (ops : List (Op T Id)) (i : Nat) (k : UInt64)
    (id : Id) : Nat := entriesRev dedup key n i k id ops.reverse

/-- For sets: `id` is listed in bucket `k` of band `i` if it was inserted with this key and since then neither the
index was cleared nor `id` taken out of this bucket. -/
def Listed (key : Nat → List T → UInt64) (n : Nat) (ops : List (Op T Id)) (i : Nat) (k : UInt64) (id : Id) : Prop :=
  ∃ pre op post, ops = pre ++ op :: post ∧ (∃ s, (id, s) ∈ insertions op ∧ key i s = k) ∧
    ∀ p1 op' p2, post = p1 ++ op' :: p2 → op' ≠ .clear ∧
      ∀ s, (id, s) ∈ removals (live n (pre ++ op :: p1)) op' → key i s ≠ k

end Verif.Spec
