import Verif.Model.PyMinHash
import Verif.Spec.Features

/-!
# Specification of histories of the Python MinHash index

The content after a history, from the calls alone: which document each id has. Only the alphabet `PyMinOp` of calls is
shared with the model.
-/
namespace Verif.Spec

/-- The last document a batch gives to `id`. -/
def lastDoc (ps : List (Int64 × PyText)) (id : Int64) : Option PyText :=
  (ps.reverse.find? fun p => p.1 = id).map Prod.snd

/-- What a call does to `id`: nothing (`none`), delete it (`some none`), or give it a document. -/
def pyTouch (id : Int64) : PyMinOp → Option (Option PyText)
  | .insertDocument id' d => if id' = id then some (some d) else none
  | .parBulkInsertDocs ids docs _ _ => (lastDoc (ids.zip docs) id).map some
  | .remove id' => if id' = id then some none else none

/-- The document of `id` after the history: decided by the last call that concerns `id`. -/
def pyLive (ops : List PyMinOp) (id : Int64) : Option PyText := (ops.reverse.findSome? (pyTouch id)).join

/-- The documents passed by a call. -/
def pyDocs : PyMinOp → List PyText
  | .insertDocument _ d => [d]
  | .parBulkInsertDocs _ docs _ _ => docs
  | .remove _ => []

/-- A call that inserts no present id and no id twice. -/
def pyCleanCall (content : Int64 → Option PyText) : PyMinOp → Prop
  | .insertDocument id _ => content id = none
  | .parBulkInsertDocs ids docs _ _ =>
      ((ids.zip docs).map Prod.fst).Nodup ∧ ∀ p ∈ ids.zip docs, content p.1 = none
  | .remove _ => True

/-- Histories without overwriting. -/
def PyClean (ops : List PyMinOp) : Prop :=
  ∀ pre op post, ops = pre ++ op :: post → pyCleanCall (pyLive pre) op

/-- The features of a document under constructor arguments `a`. -/
def pyFeatures (env : PyMinEnv) (a : PyMinArgs) (doc : PyText) : Except PyExc (List PyTok) :=
  features env.toPyEnv a.analyzer a.lowercase (a.ngramRange.map fun p => (p.1.toNat, p.2.toNat)) doc

/-- The call with its documents replaced. -/
def mapDocs (f : PyText → PyText) : PyMinOp → PyMinOp
  | .insertDocument id d => .insertDocument id (f d)
  | .parBulkInsertDocs ids docs s1 s2 => .parBulkInsertDocs ids (docs.map f) s1 s2
  | .remove id => .remove id

/-- The pairs that a call inserts. -/
def pyInsertions : PyMinOp → List (Int64 × PyText)
  | .insertDocument id d => [(id, d)]
  | .parBulkInsertDocs ids docs _ _ => ids.zip docs
  | .remove _ => []

/-- What the calls of a history do to `id`, in order: give it a document, or remove it (`none`). -/
def pyEvents (id : Int64) (ops : List PyMinOp) : List (Option PyText) :=
  ops.flatMap fun
    | .remove id' => if id' = id then [none] else []
    | op => (pyInsertions op).filterMap fun p => if p.1 = id then some (some p.2) else none

/-- `id` was given a document with `K` and since then not removed while it had a document with `K`. -/
def PyListed (K : PyText → Prop) (ops : List PyMinOp) (id : Int64) : Prop :=
  ∃ pre op post, ops = pre ++ op :: post ∧ (∃ d, (id, d) ∈ pyInsertions op ∧ K d) ∧
    ∀ p1 p2 d, post = p1 ++ .remove id :: p2 → pyLive (pre ++ op :: p1) id = some d → ¬ K d

open Classical in
/-- How often `id` is listed under `K` when copies are kept, history in reverse: once for every document with `K` that it
was given, less one for every removal while it had a document with `K`. -/
noncomputable def pyCountRev (K : PyText → Prop) (id : Int64) : List PyMinOp → Nat
  | [] => 0
  | .remove id' :: rest =>
    if id' = id ∧ ∃ d, pyLive rest.reverse id = some d ∧ K d then pyCountRev K id rest - 1 else pyCountRev K id rest
  | op :: rest => pyCountRev K id rest + (pyInsertions op).countP fun p => p.1 = id ∧ K p.2

/-- How often `id` is listed under `K` after a history. -/
noncomputable def pyCount (K : PyText → Prop) (ops : List PyMinOp) (id : Int64) : Nat := pyCountRev K id ops.reverse

end Verif.Spec
