import Verif.Model.Prelude

/-! # Id containers (`gaoya/src/minhash/id_container.rs`) -/
namespace Verif

/-- trait `IdContainer<T>`, id_container.rs 20-37. `ids` is what `copy_to` and `copy_refs_to` extend the
target set with. -/
class IdContainer (C : Type) (Id : outParam Type) where
  new : C
  push : C → Id → C
  len : C → Nat
  ids : C → List Id
  remove : C → Id → C

/-- Default method `is_empty`, id_container.rs 34-36. -/
def IdContainer.isEmpty {C Id : Type} [IdContainer C Id] (c : C) : Bool := IdContainer.len c == 0

/-- `HashSetContainer`, id_container.rs 40-42. -/
structure HashSetContainer (Id : Type) where
  set : HSet Id

/-- id_container.rs 44-71. -/
instance {Id : Type} [DecidableEq Id] : IdContainer (HashSetContainer Id) Id where
  new := ⟨HSet.empty⟩
  push := fun c a => ⟨c.set.insert a⟩
  len := fun c => c.set.len
  ids := fun c => c.set.elems
  remove := fun c a => ⟨c.set.erase a⟩

/-- `Vec::swap_remove(i)`: the last element takes the place of the removed one.
Std and smallvec, used in id_container.rs 77-107, 115-145. -/
def swapRemove {α : Type} (l : List α) (i : Nat) : List α :=
  match l.getLast? with
  | none => l
  | some x => (l.set i x).dropLast

/-- `if let Some(index) = vec.iter().position(|x| x == item) { vec.swap_remove(index) }`,
id_container.rs 102-106 and 140-144. -/
def removeFirst {α : Type} [DecidableEq α] (l : List α) (a : α) : List α :=
  match l.findIdx? (fun x => x = a) with
  | none => l
  | some i => swapRemove l i

/-- `VecContainer`, id_container.rs 73-75. -/
structure VecContainer (Id : Type) where
  vec : List Id

/-- id_container.rs 77-107. -/
instance {Id : Type} [DecidableEq Id] : IdContainer (VecContainer Id) Id where
  new := ⟨[]⟩
  push := fun c a => ⟨c.vec ++ [a]⟩
  len := fun c => c.vec.length
  ids := fun c => c.vec
  remove := fun c a => ⟨removeFirst c.vec a⟩

/-- `SmallVecContainer`, id_container.rs 111-113. The inline/heap placement of `SmallVec` is not modelled,
only its content. -/
structure SmallVecContainer (Id : Type) (N : Nat) where
  vec : List Id

/-- id_container.rs 115-145. -/
instance {Id : Type} [DecidableEq Id] {N : Nat} : IdContainer (SmallVecContainer Id N) Id where
  new := ⟨[]⟩
  push := fun c a => ⟨c.vec ++ [a]⟩
  len := fun c => c.vec.length
  ids := fun c => c.vec
  remove := fun c a => ⟨removeFirst c.vec a⟩

end Verif
