import Verif.Model.SimHashIndex

/-! # Specification of the SimHash index: what a history of calls assigns -/
namespace Verif.Spec
variable {w : Nat} {Id : Type}

/-- The (id, signature) pairs that a history hands to the index, oldest first. -/
def assigned : List (SimOp w Id) → List (Id × BitVec w)
  | [] => []
  | .insert id s :: ops => (id, s) :: assigned ops
  | .parBulkInsert ids ss _ _ :: ops => ids.zip ss ++ assigned ops
  | .parBulkInsertPairs ps _ _ :: ops => ps ++ assigned ops

/-- The last signature given to `id`. -/
def lastSig [DecidableEq Id] (ps : List (Id × BitVec w)) (id : Id) : Option (BitVec w) :=
  (ps.reverse.find? fun p => p.1 = id).map Prod.snd

end Verif.Spec
