import Verif.Spec.Index
import Verif.Spec.Similarity

/-! # Specification of centroids: how often signatures agree. -/
namespace Verif.Spec

variable {T : Type} [DecidableEq T]

/-- In how many of the lists `l` the value `v` occurs, i.e. its number of occurrences. -/
def votes {α : Type} [DecidableEq α] (l : List α) (v : α) : Nat := (l.filter fun x => x = v).length

/-- Number of pairs (signature, band) such that the signature has the same band as `c`. -/
def bandAgreements (b r : Nat) (sigs : List (List T)) (c : List T) : Nat :=
  (sigs.map fun s => ((List.range b).filter fun i => bandOf r s i = bandOf r c i).length).sum

/-- Number of pairs (signature, position) at which the signature has the same value as `c`. -/
def totalAgreements (sigs : List (List T)) (c : List T) : Nat := (sigs.map fun s => agree s c).sum

end Verif.Spec
