import Verif.Model.PySimHash
import Verif.Spec.Features

/-! # Specification of the content of the Python SimHash index -/
namespace Verif.Spec

/-- The features of a document under constructor arguments `a`. -/
def pySimFeatures (env : PyEnv) (a : PySimArgs) (doc : PyText) : Except PyExc (List PyTok) :=
  features env a.analyzer a.lowercase (a.ngramRange.map fun p => (p.1.toNat, p.2.toNat)) doc

/-- `s` is the SimHash of a bag of features: a bit is set exactly when more features have it clear than set. -/
def MajoritySig {w : Nat} (hash : PyTok → BitVec w) (features : List PyTok) (s : BitVec w) : Prop :=
  ∀ i < w, (s.getLsbD i = true ↔
    features.countP (fun t => (hash t).getLsbD i) < features.countP (fun t => !(hash t).getLsbD i))

/-- The features exist. -/
def hasFeatures (env : PyEnv) (a : PySimArgs) (doc : PyText) : Bool :=
  match pySimFeatures env a doc with
  | .ok _ => true
  | .error _ => false

/-- The document that `id` has after the insertions: the last one that has features. -/
def simDoc (env : PyEnv) (a : PySimArgs) (ops : List (Int64 × PyText)) (id : Int64) : Option PyText :=
  (ops.reverse.find? fun p => p.1 = id && hasFeatures env a p.2).map Prod.snd

end Verif.Spec
