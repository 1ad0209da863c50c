import Verif.Lemmas.IndexSame

/-! # Bulk calls against sequences of single calls -/
set_option linter.unusedSectionVars false

namespace Verif
open Spec

theorem forall₂_comp {α β γ : Type} {R : α → β → Prop} {S : β → γ → Prop} {l : List α} {m : List β}
    {n : List γ} (h1 : List.Forall₂ R l m) (h2 : List.Forall₂ S m n) :
    List.Forall₂ (fun a c => ∃ b, R a b ∧ S b c) l n := by
  induction h1 generalizing n with
  | nil => cases h2; exact .nil
  | cons h _ ih => cases h2 with | cons h' t => exact .cons ⟨_, h, h'⟩ (ih t)

theorem forall₂_func {α β : Type} {f : α → Except Panic β} {l : List α} {m n : List β}
    (h1 : List.Forall₂ (fun a b => f a = .ok b) l m) (h2 : List.Forall₂ (fun a b => f a = .ok b) l n) :
    m = n := by
  induction h1 generalizing n with
  | nil => cases h2; rfl
  | cons h _ ih =>
    cases h2 with
    | cons h' t =>
      rw [h] at h'; cases h'
      rw [ih t]

section
variable {T Id C : Type} [DecidableEq T] [DecidableEq Id] [IdContainer C Id] [LawfulIdContainer C Id]

theorem run_cons (idx : MinHashIndex T Id C) (op : Op T Id) (ops : List (Op T Id)) :
    idx.run (op :: ops) = (idx.step op).1.run ops := rfl

theorem run_append (idx : MinHashIndex T Id C) (ops ops' : List (Op T Id)) :
    idx.run (ops ++ ops') = (idx.run ops).run ops' := by
  simp [MinHashIndex.run]

/-- The state after a sequence of accepted inserts. -/
theorem seq_insert {h : List T → UInt64} {b r : Nat} {t : Fl} {L : Id → Option (List T)}
    {idx : MinHashIndex T Id C} (I : Inv h b r t L idx) (ps : List (Id × List T))
    (hps : ∀ p ∈ ps, p.2.length = b * r) :
    ∃ B, List.Forall₂ (fun bd bd' => ps.foldlM (fun (bd : Band T C) p => bd.insert p.1 p.2) bd = .ok bd')
        idx.bands B ∧
      idx.run (ps.map fun p => .insert p.1 p.2) =
        { idx with bands := B, idSignatures := MinHashIndex.insertAllSignatures idx.idSignatures ps } := by
  induction ps generalizing idx L with
  | nil =>
    refine ⟨idx.bands, List.forall₂_same.mpr fun x _ => rfl, rfl⟩
  | cons p ps ih =>
    have hp := hps p (by simp)
    have e := insert_eq I p.1 p.2 hp
    have I' := inv_insert I p.1 p.2
    have hf := forEachMut_forall₂ _ _ (insert_bands I p.1 p.2 hp.ge)
    obtain ⟨B, hB, hrun⟩ := ih I' fun q hq => hps q (by simp [hq])
    rw [e] at hB
    refine ⟨B, (forall₂_comp hf hB).imp ?_, ?_⟩
    · rintro x z ⟨y, h1, h2⟩
      rw [List.foldlM_cons, h1]; exact h2
    · rw [List.map_cons, run_cons]
      show (idx.insert p.1 p.2).1.run _ = _
      rw [hrun, e]
      rfl

/-- The state after removing ids one by one, as far as the present ones are concerned. -/
theorem seq_remove {h : List T → UInt64} {b r : Nat} {t : Fl} {L : Id → Option (List T)}
    {idx : MinHashIndex T Id C} (I : Inv h b r t L idx) (ids : List Id) (hnd : ids.Nodup)
    (hp : ∀ id ∈ ids, L id ≠ none) :
    ∃ B, List.Forall₂ (fun bd bd' => ((MinHashIndex.takeSignatures idx.idSignatures ids).2.zip ids).foldlM
          (fun (bd : Band T C) (p : List T × Id) => bd.remove p.2 p.1) bd = .ok bd') idx.bands B ∧
      idx.run (ids.map fun id => .remove id) =
        { idx with bands := B, idSignatures := (MinHashIndex.takeSignatures idx.idSignatures ids).1 } := by
  induction ids generalizing idx L with
  | nil => exact ⟨idx.bands, List.forall₂_same.mpr fun x _ => rfl, rfl⟩
  | cons a ids ih =>
    rw [List.nodup_cons] at hnd
    obtain ⟨s, hs⟩ := Option.ne_none_iff_exists'.mp (hp a (by simp))
    have e := remove_some I a s hs
    have I' := inv_remove I a
    have hf := forEachMut_forall₂ _ _ (remove_bands I a s hs)
    obtain ⟨B, hB, hrun⟩ := ih I' hnd.2 fun id hid => by
      have : id ≠ a := fun hh => hnd.1 (hh ▸ hid)
      simp only [applyL, touch, if_neg (Ne.symm this)]
      exact hp id (by simp [hid])
    rw [e] at hB
    have ht : MinHashIndex.takeSignatures idx.idSignatures (a :: ids) =
        ((MinHashIndex.takeSignatures (idx.idSignatures.erase a) ids).1,
          s :: (MinHashIndex.takeSignatures (idx.idSignatures.erase a) ids).2) := by
      conv_lhs => unfold MinHashIndex.takeSignatures
      rw [I.sigs, hs]
    rw [ht]
    refine ⟨B, (forall₂_comp hf hB).imp ?_, ?_⟩
    · rintro x z ⟨y, h1, h2⟩
      rw [List.zip_cons_cons, List.foldlM_cons, h1]; exact h2
    · rw [List.map_cons, run_cons]
      show (idx.remove a).1.run _ = _
      rw [hrun, e]

/-- Removing absent ids changes nothing. -/
theorem seq_remove_absent {h : List T → UInt64} {b r : Nat} {t : Fl} {L : Id → Option (List T)}
    {idx : MinHashIndex T Id C} (I : Inv h b r t L idx) (ids : List Id) (hp : ∀ id ∈ ids, L id = none) :
    idx.run (ids.map fun id => .remove id) = idx := by
  induction ids with
  | nil => rfl
  | cons a ids ih =>
    rw [List.map_cons, run_cons]
    show (idx.remove a).1.run _ = _
    rw [remove_none I a (hp a (by simp))]
    exact ih fun id hid => hp id (by simp [hid])

theorem take_absent (m : HMap Id (List T)) (ids : List Id) (hp : ∀ id ∈ ids, m.get? id = none) :
    MinHashIndex.takeSignatures m ids = (m, []) := by
  induction ids with
  | nil => rfl
  | cons a ids ih =>
    unfold MinHashIndex.takeSignatures
    rw [hp a (by simp)]
    exact ih fun id hid => hp id (by simp [hid])

theorem take_append (m : HMap Id (List T)) (ids ids' : List Id) :
    MinHashIndex.takeSignatures m (ids ++ ids') =
      ((MinHashIndex.takeSignatures (MinHashIndex.takeSignatures m ids).1 ids').1,
        (MinHashIndex.takeSignatures m ids).2 ++
          (MinHashIndex.takeSignatures (MinHashIndex.takeSignatures m ids).1 ids').2) := by
  induction ids generalizing m with
  | nil => rfl
  | cons a ids ih =>
    rw [List.cons_append]
    cases ha : m.get? a with
    | none =>
      have e : ∀ l, MinHashIndex.takeSignatures m (a :: l) = MinHashIndex.takeSignatures m l := fun l => by
        conv_lhs => unfold MinHashIndex.takeSignatures
        rw [ha]
      rw [e, e]; exact ih m
    | some s =>
      have e : ∀ l, MinHashIndex.takeSignatures m (a :: l) =
          ((MinHashIndex.takeSignatures (m.erase a) l).1, s :: (MinHashIndex.takeSignatures (m.erase a) l).2) :=
        fun l => by
          conv_lhs => unfold MinHashIndex.takeSignatures
          rw [ha]
      rw [e, e, ih]
      rfl

end
end Verif
