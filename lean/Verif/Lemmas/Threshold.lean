import Verif.Model.MinHashIndex

/-! # The calls do not look at the threshold -/
namespace Verif
variable {T Id C : Type} [DecidableEq T] [DecidableEq Id] [IdContainer C Id]

omit [DecidableEq T] in
theorem step_threshold (idx : MinHashIndex T Id C) (t' : Fl) (op : Op T Id) :
    ({ idx with threshold := t' } : MinHashIndex T Id C).step op =
      ({ (idx.step op).1 with threshold := t' }, (idx.step op).2) := by
  cases op with
  | insert id s =>
    simp only [MinHashIndex.step, MinHashIndex.insert]
    split_ifs
    · generalize forEachMut _ idx.bands = x; rcases x with ⟨bands, _ | ⟨⟩⟩ <;> rfl
    · rfl
  | parBulkInsert ids sigs sched =>
    simp only [MinHashIndex.step, MinHashIndex.parBulkInsert]
    split_ifs
    · generalize parForEach _ idx.bands _ sched = x; rcases x with ⟨bands, _ | ⟨⟩⟩ <;> rfl
    · rfl
  | parBulkInsertPairs ps sched =>
    simp only [MinHashIndex.step, MinHashIndex.parBulkInsertPairs]
    generalize parForEach _ idx.bands _ sched = x; rcases x with ⟨bands, _ | ⟨⟩⟩ <;> rfl
  | remove id =>
    simp only [MinHashIndex.step, MinHashIndex.remove]
    cases idx.idSignatures.get? id with
    | none => rfl
    | some s =>
      simp only
      generalize forEachMut _ idx.bands = x; rcases x with ⟨bands, _ | ⟨⟩⟩ <;> rfl
  | bulkRemove ids sched =>
    simp only [MinHashIndex.step, MinHashIndex.bulkRemove]
    rcases MinHashIndex.takeSignatures idx.idSignatures ids with ⟨m, sigs⟩
    simp only
    generalize parForEach _ idx.bands _ sched = x; rcases x with ⟨bands, _ | ⟨⟩⟩ <;> rfl
  | clear => rfl
  | shrinkToFit o => rfl
  | shrinkTo m c o sched =>
    simp only [MinHashIndex.step, MinHashIndex.shrinkTo]
    split_ifs
    · rfl
    · generalize parForEach _ idx.bands _ sched = x; rcases x with ⟨bands, _ | ⟨⟩⟩ <;> rfl

omit [DecidableEq T] in
theorem run_threshold (idx : MinHashIndex T Id C) (t' : Fl) (ops : List (Op T Id)) :
    ({ idx with threshold := t' } : MinHashIndex T Id C).run ops = { idx.run ops with threshold := t' } := by
  unfold MinHashIndex.run
  induction ops generalizing idx with
  | nil => rfl
  | cons op ops ih =>
    rw [List.foldl_cons, List.foldl_cons, step_threshold]
    exact ih _

end Verif
