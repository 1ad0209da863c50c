import Verif.Model.PyNative
import Verif.Spec.Features

/-!
# Specification of histories of the native Python classes

The content after a history, from the calls alone: which features each id has. `F` gives the features of a document.
Only the alphabets of calls are shared with the model.
-/
namespace Verif.Spec

/-- The features of a list of tokens: the tokens. -/
def tokenFeatures (tokens : List PyText) : List PyTok := tokens.map fun t => .str (utf8 t)

/-- The ids and features that a call inserts, in order. -/
def natInserts (F : PyText → List PyTok) : NatMinOp → List (Int64 × List PyTok)
  | .insertDocument id d => [(id, F d)]
  | .insertTokens id ts => [(id, tokenFeatures ts)]
  | .remove _ => []
  | .parBulkInsertDocs ids docs _ _ => ids.zip (docs.map F)
  | .bulkInsertTokens ids tss => ids.zip (tss.map tokenFeatures)
  | .parBulkInsertTokens ids tss _ _ => ids.zip (tss.map tokenFeatures)

/-- What a call does to `id`: nothing (`none`), delete it (`some none`), or give it features. -/
def natTouch (F : PyText → List PyTok) (id : Int64) : NatMinOp → Option (Option (List PyTok))
  | .remove id' => if id' = id then some none else none
  | op => ((natInserts F op).reverse.find? fun p => p.1 = id).map fun p => some p.2

/-- The features of `id` after the history: decided by the last call that concerns `id`. -/
def natLive (F : PyText → List PyTok) (ops : List NatMinOp) (id : Int64) : Option (List PyTok) :=
  (ops.reverse.findSome? (natTouch F id)).join

/-- The documents passed by a call. -/
def natDocs : NatMinOp → List PyText
  | .insertDocument _ d => [d]
  | .parBulkInsertDocs _ docs _ _ => docs
  | _ => []

/-- A call that inserts no present id and no id twice. -/
def natCleanCall (F : PyText → List PyTok) (content : Int64 → Option (List PyTok)) (op : NatMinOp) : Prop :=
  ((natInserts F op).map Prod.fst).Nodup ∧ ∀ p ∈ natInserts F op, content p.1 = none

/-- Histories without overwriting. -/
def NatClean (F : PyText → List PyTok) (ops : List NatMinOp) : Prop :=
  ∀ pre op post, ops = pre ++ op :: post → natCleanCall F (natLive F pre) op

/-- The call with tokens in place of documents. -/
def asTokens (W : PyText → List PyText) : NatMinOp → NatMinOp
  | .insertDocument id d => .insertTokens id (W d)
  | .parBulkInsertDocs ids docs s1 s2 => .parBulkInsertTokens ids (docs.map W) s1 s2
  | op => op

/-- The ids and features that a call of the SimHash classes inserts, in order. -/
def natSimInserts (F : PyText → List PyTok) : NatSimOp → List (Int64 × List PyTok)
  | .insertDocument id d => [(id, F d)]
  | .insertTokens id ts => [(id, tokenFeatures ts)]
  | .parBulkInsertDocs _ ids docs _ _ => ids.zip (docs.map F)
  | .parBulkInsertTokens _ ids tss _ _ => ids.zip (tss.map tokenFeatures)

/-- The features of `id` after the history: the last ones inserted. -/
def natSimLive (F : PyText → List PyTok) (ops : List NatSimOp) (id : Int64) : Option (List PyTok) :=
  ((ops.flatMap (natSimInserts F)).reverse.find? fun p => p.1 = id).map Prod.snd

/-- The documents passed by a call of the SimHash classes. -/
def natSimDocs : NatSimOp → List PyText
  | .insertDocument _ d => [d]
  | .parBulkInsertDocs _ _ docs _ _ => docs
  | _ => []

/-- The call of the SimHash classes with tokens in place of documents. -/
def asSimTokens (W : PyText → List PyText) : NatSimOp → NatSimOp
  | .insertDocument id d => .insertTokens id (W d)
  | .parBulkInsertDocs o ids docs s1 s2 => .parBulkInsertTokens o ids (docs.map W) s1 s2
  | op => op

end Verif.Spec
