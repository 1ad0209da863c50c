import Verif.Spec.Events
import Verif.Lemmas.Entries

/-! # Content and entries of one id as a fold over its events -/
set_option linter.unusedSectionVars false
namespace Verif
open Verif.Spec

variable {T Id : Type} [DecidableEq T] [DecidableEq Id]

/-- Content and number of entries in one bucket after an event. -/
def evStep (dedup : Bool) (key : Nat → List T → UInt64) (i : Nat) (k : UInt64) (st : Option (List T) × Nat) :
    Event T → Option (List T) × Nat
  | .put l => (l.getLast?, if l.countP (fun s => key i s = k) = 0 then st.2 else
      if dedup then 1 else st.2 + l.countP (fun s => key i s = k))
  | .delete => (none, st.2 - (match st.1 with | some s => if key i s = k then 1 else 0 | none => 0))
  | .clear => (none, 0)

theorem lastPair_filterMap (ps : List (Id × List T)) (id : Id) :
    lastPair ps id = (ps.filterMap fun p => if p.1 = id then some p.2 else none).getLast? := by
  induction ps with
  | nil => rfl
  | cons p ps ih =>
    rw [lastPair_cons, ih]
    by_cases h : p.1 = id
    · simp only [List.filterMap_cons, h, if_true]
      cases hl : (ps.filterMap fun p => if p.1 = id then some p.2 else none) with
      | nil => simp
      | cons x xs => simp [List.getLast?_cons]
    · simp [h]

theorem pairsAt_filterMap (key : Nat → List T → UInt64) (i : Nat) (k : UInt64) (id : Id) (ps : List (Id × List T)) :
    pairsAt key i k id ps =
      (ps.filterMap fun p => if p.1 = id then some p.2 else none).countP (fun s => key i s = k) := by
  unfold pairsAt
  induction ps with
  | nil => rfl
  | cons p ps ih =>
    rw [List.countP_cons, ih]
    by_cases h : p.1 = id
    · by_cases hk : key i p.2 = k <;> simp [h, hk]
    · simp [h]

theorem taken_present (content : Id → Option (List T)) (ids : List Id) (hn : ids.Nodup)
    (hp : ∀ id ∈ ids, content id ≠ none) : (taken content ids).map some = ids.map content := by
  induction ids generalizing content with
  | nil => rfl
  | cons id ids ih =>
    rw [List.nodup_cons] at hn
    rw [taken]
    cases hc : content id with
    | none => exact absurd hc (hp id List.mem_cons_self)
    | some s =>
      have hne : ∀ x ∈ ids, x ≠ id := fun x hx e => hn.1 (e ▸ hx)
      rw [List.map_cons, List.map_cons, hc, ih _ hn.2]
      · congr 1
        exact List.map_congr_left fun x hx => if_neg (hne x hx)
      · intro x hx
        rw [if_neg (hne x hx)]
        exact hp x (List.mem_cons_of_mem _ hx)

theorem pairsAt_zip (key : Nat → List T → UInt64) (i : Nat) (k : UInt64) (id : Id) (content : Id → Option (List T))
    (ids : List Id) (sigs : List (List T)) (hn : ids.Nodup) (h : sigs.map some = ids.map content) :
    pairsAt key i k id (ids.zip sigs) =
      if id ∈ ids then (match content id with | some s => if key i s = k then 1 else 0 | none => 0) else 0 := by
  induction ids generalizing sigs with
  | nil => simp [pairsAt]
  | cons x ids ih =>
    rw [List.nodup_cons] at hn
    cases sigs with
    | nil => simp at h
    | cons s sigs =>
      simp only [List.map_cons, List.cons.injEq] at h
      have ih := ih sigs hn.2 h.2
      unfold pairsAt at ih ⊢
      rw [List.zip_cons_cons, List.countP_cons, ih]
      by_cases hx : x = id
      · subst hx
        rw [← h.1, if_neg hn.1, if_pos List.mem_cons_self]
        by_cases hk : key i s = k <;> simp [hk]
      · have : id ∈ x :: ids ↔ id ∈ ids := by simp [Ne.symm hx]
        simp only [this]
        simp [hx]

theorem events_fold (dedup : Bool) (key : Nat → List T → UInt64) (n : Nat) (i : Nat) (k : UInt64) (id : Id)
    (ops : List (Op T Id)) (hl : RightLengths n ops) (hb : ProperBulk n ops) :
    (live n ops id, entries dedup key n ops i k id) = (eventsOf id ops).foldl (evStep dedup key i k) (none, 0) := by
  induction ops using List.reverseRecOn with
  | nil => rfl
  | append_singleton ops op ih =>
    have ih := ih (fun o ho => hl o (by simp [ho])) (fun pre ids sched post e => hb pre ids sched (post ++ [op]) (by simp [e]))
    have hop := hl op (by simp)
    rw [entries_snoc, live_snoc, eventsOf, List.filterMap_append, List.foldl_append]
    have ih' : List.foldl (evStep dedup key i k) (none, 0) (List.filterMap (eventOf id) ops) =
      (live n ops id, entries dedup key n ops i k id) := ih.symm
    rw [ih']
    have hins : ∀ ps : List (Id × List T), insertions op = ps → removals (live n ops) op = [] → op ≠ .clear →
        touch n id op = (lastPair ps id).map some →
        eventOf id op = (match ps.filterMap (fun p => if p.1 = id then some p.2 else none) with
          | [] => none
          | s :: ss => some (.put (s :: ss))) →
        (applyL n (live n ops) op id, entryStep dedup key (live n ops) op i k id (entries dedup key n ops i k id)) =
          List.foldl (evStep dedup key i k) (live n ops id, entries dedup key n ops i k id)
            (List.filterMap (eventOf id) [op]) := by
      intro ps h1 h2 h3 h4 h5
      have h6 : ∀ e, entryStep dedup key (live n ops) op i k id e =
          if pairsAt key i k id ps = 0 then e else if dedup then 1 else e + pairsAt key i k id ps := by
        intro e
        have : pairsAt key i k id (removals (live n ops) op) = 0 := by rw [h2]; rfl
        rw [← h1]
        cases op <;> first | exact absurd rfl h3 | simp only [entryStep, this, Nat.sub_zero]
      rw [h6, pairsAt_filterMap]
      unfold applyL
      rw [h4, lastPair_filterMap]
      cases hf : ps.filterMap (fun p => if p.1 = id then some p.2 else none) with
      | nil =>
        rw [hf] at h5
        simp [h5]
      | cons s ss =>
        rw [hf] at h5
        simp only [List.filterMap_cons, h5, List.filterMap_nil, List.foldl_cons, List.foldl_nil, evStep]
        rw [List.getLast?_cons]
        rfl
    cases op with
    | insert id' s =>
      refine hins [(id', s)] rfl rfl (by simp) ?_ rfl
      have : s.length = n := hop s (by simp [sigsOf])
      by_cases h : id' = id <;> simp [touch, this, h, lastPair]
    | parBulkInsert ids sigs sched =>
      refine hins (ids.zip sigs) rfl rfl (by simp) ?_ rfl
      have hacc : accepts n (.parBulkInsert ids sigs sched : Op T Id) = true := by
        have h1 : ∀ s ∈ sigs, s.length = n := fun s hs => hop s hs
        simp only [accepts, Bool.and_eq_true]
        constructor
        · cases sigs with
          | nil => rfl
          | cons s _ => simp [h1 s List.mem_cons_self]
        · rw [List.all_eq_true]
          intro p hp
          simp [h1 p.1 (List.of_mem_zip hp).1]
      simp [touch, hacc]
    | parBulkInsertPairs ps sched =>
      refine hins ps rfl rfl (by simp) ?_ rfl
      have hacc : accepts n (.parBulkInsertPairs ps sched : Op T Id) = true := by
        simp only [accepts, List.all_eq_true]
        intro p hp
        simp [hop p.2 (by simpa [sigsOf] using ⟨p.1, hp⟩)]
      simp [touch, hacc]
    | remove id' =>
      by_cases h : id' = id
      · subst h
        simp only [applyL, touch, eventOf, if_true, List.filterMap_cons, List.filterMap_nil, List.foldl_cons,
          List.foldl_nil, evStep]
        congr 1
        simp only [entryStep, insertions, removals, pairsAt, List.countP_nil, if_true]
        cases live n ops id' with
        | none => simp
        | some s => by_cases hk : key i s = k <;> simp [hk]
      · simp only [applyL, touch, eventOf, if_neg h, List.filterMap_cons, List.filterMap_nil, List.foldl_nil]
        congr 1
        simp only [entryStep, insertions, removals, pairsAt, List.countP_nil, if_true]
        cases live n ops id' with
        | none => simp
        | some s => simp [h]
    | bulkRemove ids sched =>
      obtain ⟨h1, h2⟩ := hb ops ids sched [] rfl
      have h3 := pairsAt_zip key i k id (live n ops) ids _ h1 (taken_present _ ids h1 h2)
      have h4 : entryStep dedup key (live n ops) (.bulkRemove ids sched) i k id (entries dedup key n ops i k id) =
          entries dedup key n ops i k id - pairsAt key i k id (ids.zip (taken (live n ops) ids)) := by
        simp [entryStep, insertions, removals, pairsAt]
      rw [h4, h3]
      by_cases h : id ∈ ids
      · simp [applyL, touch, eventOf, h, evStep]
      · simp [applyL, touch, eventOf, h]
    | clear => simp [applyL, touch, eventOf, evStep, entryStep]
    | shrinkToFit o => exact hins [] rfl rfl (by simp) rfl rfl
    | shrinkTo m c o sched => exact hins [] rfl rfl (by simp) rfl rfl

end Verif
