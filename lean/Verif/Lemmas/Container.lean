import Verif.Model.Container
import Verif.Lemmas.Prelude

namespace Verif

/-- What the index relies on from a container. -/
class LawfulIdContainer (C : Type) (Id : outParam Type) [IdContainer C Id] : Prop where
  ids_new : IdContainer.ids (IdContainer.new : C) = []
  mem_push : ∀ (c : C) (a x : Id), x ∈ IdContainer.ids (IdContainer.push c a) ↔ x = a ∨ x ∈ IdContainer.ids c
  mem_remove_ne : ∀ (c : C) (a x : Id), x ≠ a →
    (x ∈ IdContainer.ids (IdContainer.remove c a) ↔ x ∈ IdContainer.ids c)
  mem_of_remove : ∀ (c : C) (a x : Id), x ∈ IdContainer.ids (IdContainer.remove c a) → x ∈ IdContainer.ids c
  len_eq_zero : ∀ c : C, IdContainer.len c = 0 ↔ IdContainer.ids c = []
  notMem_remove : ∀ (c : C) (a : Id), (IdContainer.ids c).Nodup → a ∉ IdContainer.ids (IdContainer.remove c a)
  nodup_remove : ∀ (c : C) (a : Id), (IdContainer.ids c).Nodup → (IdContainer.ids (IdContainer.remove c a)).Nodup
  nodup_push : ∀ (c : C) (a : Id), (IdContainer.ids c).Nodup → a ∉ IdContainer.ids c →
    (IdContainer.ids (IdContainer.push c a)).Nodup

instance HashSetContainer.lawful {Id : Type} [DecidableEq Id] : LawfulIdContainer (HashSetContainer Id) Id where
  ids_new := rfl
  mem_push := fun c a x => by simp [IdContainer.ids, IdContainer.push]
  mem_remove_ne := fun c a x h => by simp [IdContainer.ids, IdContainer.remove, h]
  mem_of_remove := fun c a x h => by
    simp only [IdContainer.ids, IdContainer.remove, HSet.mem_erase] at h
    exact h.1
  len_eq_zero := fun c => by simp [IdContainer.ids, IdContainer.len, HSet.len]
  notMem_remove := fun c a _ => by simp [IdContainer.ids, IdContainer.remove]
  nodup_remove := fun c a _ => (c.set.erase a).nodup
  nodup_push := fun c a _ _ => (c.set.insert a).nodup

/-- The multiset view of `swap_remove`: it removes exactly the element at the position. -/
theorem swapRemove_perm {α : Type} (l : List α) (i : Nat) (h : i < l.length) :
    (l[i] :: swapRemove l i).Perm l := by
  obtain ⟨pre, x, rfl⟩ : ∃ pre x, l = pre ++ [x] := by
    rcases List.eq_nil_or_concat l with hl | ⟨p, x, hl⟩
    · subst hl; simp at h
    · exact ⟨p, x, by rw [hl, List.concat_eq_append]⟩
  unfold swapRemove
  simp only [List.getLast?_append, List.getLast?_singleton, Option.some_or]
  by_cases hi : i < pre.length
  · have e1 : (pre ++ [x]).set i x = pre.set i x ++ [x] := by
      rw [List.set_append_left _ _ hi]
    rw [e1, List.dropLast_concat]
    have e2 : (pre ++ [x])[i] = pre[i] := List.getElem_append_left hi
    rw [e2]
    have e3 : pre.set i x = pre.take i ++ x :: pre.drop (i + 1) := by
      rw [List.set_eq_take_append_cons_drop, if_pos hi]
    have e4 : pre = pre.take i ++ pre[i] :: pre.drop (i + 1) := by
      conv_lhs => rw [← List.take_append_drop i pre]
      rw [List.drop_eq_getElem_cons hi]
    rw [e3]
    conv_rhs => rw [e4]
    calc (pre[i] :: (pre.take i ++ x :: pre.drop (i + 1))).Perm
          (pre[i] :: x :: (pre.take i ++ pre.drop (i + 1))) := (List.perm_middle).cons _
      _ |>.Perm (x :: pre[i] :: (pre.take i ++ pre.drop (i + 1))) := List.Perm.swap _ _ _
      _ |>.Perm (x :: (pre.take i ++ pre[i] :: pre.drop (i + 1))) := (List.perm_middle.symm).cons _
      _ |>.Perm ((pre.take i ++ pre[i] :: pre.drop (i + 1)) ++ [x]) := (List.perm_append_singleton _ _).symm
  · have hi' : i = pre.length := by simp at h; omega
    subst hi'
    simp only [List.getElem_concat_length]
    rw [List.set_append_right _ _ (le_refl _)]
    simp only [Nat.sub_self, List.set_cons_zero, List.dropLast_concat]
    exact (List.perm_append_singleton _ _).symm

theorem removeFirst_perm {α : Type} [DecidableEq α] (l : List α) (a : α) :
    (a ∉ l ∧ removeFirst l a = l) ∨ (a ∈ l ∧ (a :: removeFirst l a).Perm l) := by
  unfold removeFirst
  cases hf : l.findIdx? (fun x => x = a) with
  | none =>
    left
    rw [List.findIdx?_eq_none_iff] at hf
    exact ⟨fun h => by simpa using hf a h, rfl⟩
  | some i =>
    right
    rw [List.findIdx?_eq_some_iff_getElem] at hf
    obtain ⟨hi, he, _⟩ := hf
    have he' : l[i] = a := by simpa using he
    refine ⟨he' ▸ List.getElem_mem hi, ?_⟩
    have := swapRemove_perm l i hi
    rwa [he'] at this

section
variable {α : Type} [DecidableEq α]

theorem mem_removeFirst_ne (l : List α) {a x : α} (h : x ≠ a) : x ∈ removeFirst l a ↔ x ∈ l := by
  rcases removeFirst_perm l a with ⟨_, e⟩ | ⟨_, p⟩
  · rw [e]
  · rw [← p.mem_iff]; simp [h]

theorem mem_of_mem_removeFirst (l : List α) {a x : α} (h : x ∈ removeFirst l a) : x ∈ l := by
  rcases removeFirst_perm l a with ⟨_, e⟩ | ⟨_, p⟩
  · rwa [e] at h
  · rw [← p.mem_iff]; simp [h]

theorem notMem_removeFirst (l : List α) (a : α) (h : l.Nodup) : a ∉ removeFirst l a := by
  rcases removeFirst_perm l a with ⟨hn, e⟩ | ⟨_, p⟩
  · rwa [e]
  · have := p.nodup_iff.mpr h
    exact (List.nodup_cons.mp this).1

theorem nodup_removeFirst (l : List α) (a : α) (h : l.Nodup) : (removeFirst l a).Nodup := by
  rcases removeFirst_perm l a with ⟨hn, e⟩ | ⟨_, p⟩
  · rwa [e]
  · have := p.nodup_iff.mpr h
    exact (List.nodup_cons.mp this).2

end

instance VecContainer.lawful {Id : Type} [DecidableEq Id] : LawfulIdContainer (VecContainer Id) Id where
  ids_new := rfl
  mem_push := fun c a x => by simp [IdContainer.ids, IdContainer.push, or_comm]
  mem_remove_ne := fun c a x h => mem_removeFirst_ne c.vec h
  mem_of_remove := fun c a x h => mem_of_mem_removeFirst c.vec h
  len_eq_zero := fun c => by simp [IdContainer.ids, IdContainer.len]
  notMem_remove := fun c a h => notMem_removeFirst c.vec a h
  nodup_remove := fun c a h => nodup_removeFirst c.vec a h
  nodup_push := fun c a h ha => by
    simp only [IdContainer.ids, IdContainer.push] at *
    exact List.nodup_append.mpr ⟨h, by simp, by rintro x hx y hy rfl; simp at hy; subst hy; exact ha hx⟩

instance SmallVecContainer.lawful {Id : Type} [DecidableEq Id] {N : Nat} : LawfulIdContainer (SmallVecContainer Id N) Id where
  ids_new := rfl
  mem_push := fun c a x => by simp [IdContainer.ids, IdContainer.push, or_comm]
  mem_remove_ne := fun c a x h => mem_removeFirst_ne c.vec h
  mem_of_remove := fun c a x h => mem_of_mem_removeFirst c.vec h
  len_eq_zero := fun c => by simp [IdContainer.ids, IdContainer.len]
  notMem_remove := fun c a h => notMem_removeFirst c.vec a h
  nodup_remove := fun c a h => nodup_removeFirst c.vec a h
  nodup_push := fun c a h ha => by
    simp only [IdContainer.ids, IdContainer.push] at *
    exact List.nodup_append.mpr ⟨h, by simp, by rintro x hx y hy rfl; simp at hy; subst hy; exact ha hx⟩

end Verif
