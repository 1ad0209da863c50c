import Verif.Lemmas.Container

/-! # C33: what each of the three containers holds; the theorems about the index are stated for containers with the
laws `LawfulIdContainer`, and these three have them -/
namespace Verif.Props

/-- C33: the contents of a `HashSetContainer` after `push` and `remove`. -/
theorem C33_set_content {Id : Type} [DecidableEq Id] (c : HashSetContainer Id) (a x : Id) :
    IdContainer.ids (IdContainer.new : HashSetContainer Id) = [] ∧ (IdContainer.ids c).Nodup ∧
    IdContainer.len c = (IdContainer.ids c).length ∧
    (x ∈ IdContainer.ids (IdContainer.push c a) ↔ x = a ∨ x ∈ IdContainer.ids c) ∧
    (x ∈ IdContainer.ids (IdContainer.remove c a) ↔ x ≠ a ∧ x ∈ IdContainer.ids c) := by
  refine ⟨rfl, c.set.nodup, rfl, LawfulIdContainer.mem_push c a x, ?_⟩
  simp only [IdContainer.ids, IdContainer.remove, HSet.mem_erase]
  exact and_comm

/-- C33: the contents of the vector containers: `push` adds one entry, `remove` takes out one entry. -/
theorem C33_vec_content {Id : Type} [DecidableEq Id] (N : Nat) (c : VecContainer Id) (d : SmallVecContainer Id N)
    (a : Id) :
    (IdContainer.ids (IdContainer.new : VecContainer Id) = [] ∧ IdContainer.len c = (IdContainer.ids c).length ∧
      IdContainer.ids (IdContainer.push c a) = IdContainer.ids c ++ [a] ∧
      (IdContainer.ids (IdContainer.remove c a)).Perm ((IdContainer.ids c).erase a)) ∧
    IdContainer.ids (IdContainer.new : SmallVecContainer Id N) = [] ∧
      IdContainer.len d = (IdContainer.ids d).length ∧
      IdContainer.ids (IdContainer.push d a) = IdContainer.ids d ++ [a] ∧
      (IdContainer.ids (IdContainer.remove d a)).Perm ((IdContainer.ids d).erase a) := by
  have key : ∀ l : List Id, (removeFirst l a).Perm (l.erase a) := by
    intro l
    rcases removeFirst_perm l a with ⟨h, e⟩ | ⟨h, p⟩
    · rw [e, List.erase_of_not_mem h]
    · exact List.Perm.cons_inv (p.trans (List.perm_cons_erase h))
  exact ⟨⟨rfl, rfl, rfl, key c.vec⟩, rfl, rfl, rfl, key d.vec⟩

/-- C33: the three containers meet the laws under which the theorems about the index are stated. -/
theorem C33_lawful {Id : Type} [DecidableEq Id] (N : Nat) : LawfulIdContainer (HashSetContainer Id) Id ∧
    LawfulIdContainer (VecContainer Id) Id ∧ LawfulIdContainer (SmallVecContainer Id N) Id :=
  ⟨inferInstance, inferInstance, inferInstance⟩

end Verif.Props
