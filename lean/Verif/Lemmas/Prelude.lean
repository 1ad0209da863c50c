import Verif.Model.Prelude
import Mathlib.Data.List.Lemmas
import Mathlib.Data.List.Perm.Basic
import Mathlib.Tactic.Common

/-! Lemmas on the shared semantics. -/
namespace Verif

/-! ### HSet -/
namespace HSet
variable {α : Type} [DecidableEq α]

omit [DecidableEq α] in
@[simp] theorem mem_empty (a : α) : a ∈ (empty : HSet α).elems ↔ False := by simp [empty]

@[simp] theorem mem_insert (s : HSet α) (a x : α) : x ∈ (s.insert a).elems ↔ x = a ∨ x ∈ s.elems := by
  unfold insert
  split_ifs with h
  · constructor
    · exact Or.inr
    · rintro (rfl | h')
      · exact h
      · exact h'
  · simp

@[simp] theorem mem_erase (s : HSet α) (a x : α) : x ∈ (s.erase a).elems ↔ x ∈ s.elems ∧ x ≠ a := by
  simp [erase]

@[simp] theorem mem_extend (s : HSet α) (l : List α) (x : α) :
    x ∈ (s.extend l).elems ↔ x ∈ s.elems ∨ x ∈ l := by
  unfold extend
  induction l generalizing s with
  | nil => simp
  | cons a l ih => simp only [List.foldl_cons, ih, mem_insert, List.mem_cons]; tauto

omit [DecidableEq α] in
@[simp] theorem mem_filter (s : HSet α) (p : α → Bool) (x : α) :
    x ∈ (s.filter p).elems ↔ x ∈ s.elems ∧ p x = true := by
  simp [filter]

omit [DecidableEq α] in
theorem ext {s t : HSet α} (h : s.elems = t.elems) : s = t := by
  cases s; cases t; cases h; rfl

end HSet

/-! ### mapM in `Except` -/

theorem mapM_ok_iff {α β : Type} (f : α → Except Panic β) (l : List α) (r : List β) :
    l.mapM f = .ok r ↔ List.Forall₂ (fun a b => f a = .ok b) l r := by
  induction l generalizing r with
  | nil =>
    simp only [List.mapM_nil, List.forall₂_nil_left_iff]
    constructor
    · intro h; cases h; rfl
    · rintro rfl; rfl
  | cons a l ih =>
    rw [List.mapM_cons]
    constructor
    · intro h
      cases hfa : f a with
      | error e => rw [hfa] at h; cases h
      | ok b =>
        rw [hfa] at h
        cases hl : l.mapM f with
        | error e => rw [hl] at h; cases h
        | ok bs =>
          rw [hl] at h
          cases h
          exact List.Forall₂.cons hfa ((ih bs).mp hl)
    · intro h
      cases h with
      | cons hab htl =>
        rw [hab, (ih _).mpr htl]
        rfl

theorem mapM_ok_of_forall {α β : Type} {f : α → Except Panic β} {g : α → β} {l : List α}
    (h : ∀ a ∈ l, f a = .ok (g a)) : l.mapM f = .ok (l.map g) := by
  rw [mapM_ok_iff]
  induction l with
  | nil => exact List.Forall₂.nil
  | cons a l ih =>
    exact List.Forall₂.cons (h a (by simp)) (ih fun x hx => h x (by simp [hx]))

theorem mapM_ok_mem {α β : Type} {f : α → Except Panic β} {l : List α} {r : List β}
    (h : l.mapM f = .ok r) {a : α} (ha : a ∈ l) : ∃ b ∈ r, f a = .ok b := by
  rw [mapM_ok_iff] at h
  induction h with
  | nil => simp at ha
  | cons hab _ ih =>
    rcases List.mem_cons.mp ha with rfl | ha
    · exact ⟨_, by simp, hab⟩
    · obtain ⟨b, hb, hfb⟩ := ih ha
      exact ⟨b, by simp [hb], hfb⟩

theorem mapM_error {α β : Type} {f : α → Except Panic β} {l : List α} {e : Panic}
    (h : l.mapM f = .error e) : ∃ a ∈ l, f a = .error e := by
  induction l with
  | nil => cases h
  | cons a l ih =>
    rw [List.mapM_cons] at h
    cases hfa : f a with
    | error e' => rw [hfa] at h; cases h; exact ⟨a, by simp, hfa⟩
    | ok b =>
      rw [hfa] at h
      cases hl : l.mapM f with
      | error e' =>
        rw [hl] at h; cases h
        obtain ⟨x, hx, hfx⟩ := ih hl
        exact ⟨x, by simp [hx], hfx⟩
      | ok bs => rw [hl] at h; cases h

theorem mapM_isOk {α β : Type} {f : α → Except Panic β} {l : List α}
    (h : ∀ a ∈ l, ∃ b, f a = .ok b) : ∃ r, l.mapM f = .ok r := by
  cases hl : l.mapM f with
  | ok r => exact ⟨r, rfl⟩
  | error e =>
    obtain ⟨a, ha, hfa⟩ := mapM_error hl
    obtain ⟨b, hb⟩ := h a ha
    rw [hfa] at hb; cases hb

/-! ### retainE -/

theorem HSet.retainE_ok_iff {α : Type} {s t : HSet α} {p : α → Except Panic Bool} :
    s.retainE p = .ok t ↔ (∀ a ∈ s.elems, ∃ b, p a = .ok b) ∧
      t = s.filter fun a => match p a with | .ok b => b | .error _ => false := by
  unfold retainE
  cases h : s.elems.mapM p with
  | error e =>
    obtain ⟨a, ha, hpa⟩ := mapM_error h
    simp only [reduceCtorEq, false_iff, not_and]
    intro hall
    obtain ⟨b, hb⟩ := hall a ha
    rw [hpa] at hb; cases hb
  | ok r =>
    constructor
    · intro h'
      cases h'
      refine ⟨fun a ha => ?_, rfl⟩
      obtain ⟨b, _, hb⟩ := mapM_ok_mem h ha
      exact ⟨b, hb⟩
    · rintro ⟨_, rfl⟩; rfl

theorem HSet.mem_of_retainE {α : Type} {s t : HSet α} {p : α → Except Panic Bool}
    (h : s.retainE p = .ok t) (a : α) : a ∈ t.elems ↔ a ∈ s.elems ∧ p a = .ok true := by
  obtain ⟨_, rfl⟩ := HSet.retainE_ok_iff.mp h
  simp only [HSet.mem_filter]
  refine and_congr_right fun _ => ?_
  cases p a <;> simp

/-! ### HMap -/
namespace HMap
variable {κ ν : Type} [DecidableEq κ]

@[simp] theorem get?_empty (k : κ) : (empty : HMap κ ν).get? k = none := rfl

theorem get?_eq_some_iff (m : HMap κ ν) (k : κ) (v : ν) :
    m.get? k = some v ↔ (k, v) ∈ m.entries := by
  obtain ⟨l, hl⟩ := m
  simp only [get?]
  induction l with
  | nil => simp
  | cons e l ih =>
    obtain ⟨k', v'⟩ := e
    simp only [List.map_cons, List.nodup_cons] at hl
    by_cases hk : k' = k
    · subst hk
      simp only [decide_true, List.find?_cons_of_pos, Option.map_some, Option.some.injEq,
        List.mem_cons, Prod.mk.injEq, true_and]
      constructor
      · rintro rfl; exact Or.inl rfl
      · rintro (rfl | h)
        · rfl
        · exact absurd (List.mem_map_of_mem (f := Prod.fst) h) hl.1
    · rw [List.find?_cons_of_neg (by simpa using hk), ih hl.2]
      simp [Ne.symm hk]

theorem get?_eq_none_iff (m : HMap κ ν) (k : κ) : m.get? k = none ↔ k ∉ m.keys := by
  simp only [get?, keys, Option.map_eq_none_iff, List.find?_eq_none, decide_eq_true_eq, List.mem_map,
    not_exists, not_and]

theorem mem_keys_iff (m : HMap κ ν) (k : κ) : k ∈ m.keys ↔ ∃ v, m.get? k = some v := by
  rw [← not_iff_not, ← get?_eq_none_iff]
  cases m.get? k <;> simp

theorem get?_erase (m : HMap κ ν) (k k' : κ) :
    (m.erase k).get? k' = if k' = k then none else m.get? k' := by
  split_ifs with h
  · subst h
    rw [get?_eq_none_iff]
    exact notMem_erase_keys m k'
  · ext v
    rw [get?_eq_some_iff, get?_eq_some_iff]
    simp [erase, h]

@[simp] theorem get?_erase_self (m : HMap κ ν) (k : κ) : (m.erase k).get? k = none := by
  simp [get?_erase]

theorem get?_insert (m : HMap κ ν) (k k' : κ) (v : ν) :
    (m.insert k v).get? k' = if k' = k then some v else m.get? k' := by
  split_ifs with h
  · subst h
    simp [insert, get?]
  · have e := get?_erase m k k'
    rw [if_neg h] at e
    rw [← e]
    simp only [insert, get?]
    rw [List.find?_cons_of_neg (by simpa using Ne.symm h)]

@[simp] theorem get?_insert_self (m : HMap κ ν) (k : κ) (v : ν) : (m.insert k v).get? k = some v := by
  simp [get?_insert]

theorem get?_upsert (m : HMap κ ν) (k k' : κ) (d : ν) (f : ν → ν) :
    (m.upsert k d f).get? k' = if k' = k then some (f ((m.get? k).getD d)) else m.get? k' :=
  get?_insert _ _ _ _

omit [DecidableEq κ] in
theorem keys_nodup (m : HMap κ ν) : m.keys.Nodup := m.nodup

omit [DecidableEq κ] in
theorem len_eq_keys (m : HMap κ ν) : m.len = m.keys.length := by simp [len, keys]

/-- Maps with the same lookups have the same entries up to order. -/
theorem entries_perm {m m' : HMap κ ν} (h : ∀ k, m.get? k = m'.get? k) :
    m.entries.Perm m'.entries := by
  have n1 : m.entries.Nodup := List.Nodup.of_map _ m.nodup
  have n2 : m'.entries.Nodup := List.Nodup.of_map _ m'.nodup
  rw [List.perm_ext_iff_of_nodup n1 n2]
  rintro ⟨k, v⟩
  rw [← get?_eq_some_iff, ← get?_eq_some_iff, h]

theorem len_congr {m m' : HMap κ ν} (h : ∀ k, m.get? k = m'.get? k) : m.len = m'.len :=
  (entries_perm h).length_eq

omit [DecidableEq κ] in
theorem ext {s t : HMap κ ν} (h : s.entries = t.entries) : s = t := by
  cases s; cases t; cases h; rfl

end HMap

/-! ### Order, sort, max_by -/

theorem Order.mem_perm (o : Order) {α : Type} (l : List α) (a : α) : a ∈ o.perm l ↔ a ∈ l :=
  (o.isPerm l).mem_iff

theorem HMap.get?_rehash {κ ν : Type} [DecidableEq κ] (o : Order) (m : HMap κ ν) (k : κ) :
    (m.rehash o).get? k = m.get? k := by
  ext v
  rw [HMap.get?_eq_some_iff, HMap.get?_eq_some_iff]
  exact (o.isPerm m.entries).mem_iff

theorem HMap.len_rehash {κ ν : Type} (o : Order) (m : HMap κ ν) : (m.rehash o).len = m.len :=
  (o.isPerm m.entries).length_eq

theorem sortUnstable_perm {α : Type} (o : Order) (le : α → α → Bool) (l : List α) :
    (sortUnstable o le l).Perm l :=
  (List.mergeSort_perm _ _).trans (o.isPerm l)

theorem sortUnstable_sorted {α : Type} (o : Order) (le : α → α → Bool) (l : List α)
    (trans : ∀ a b c, le a b = true → le b c = true → le a c = true)
    (total : ∀ a b, (le a b || le b a) = true) :
    (sortUnstable o le l).Pairwise (fun a b => le a b = true) :=
  List.pairwise_mergeSort trans total _

/-- `maxBy` on a comparison induced by a linear order key returns a member with maximal key. -/
theorem maxBy_spec {α β : Type} [LinearOrder β] (key : α → β) (l : List α) :
    (maxBy (fun x y => compare (key x) (key y)) l = none ↔ l = []) ∧
    ∀ r, maxBy (fun x y => compare (key x) (key y)) l = some r → r ∈ l ∧ ∀ x ∈ l, key x ≤ key r := by
  cases l with
  | nil => simp [maxBy]
  | cons x xs =>
    refine ⟨by simp [maxBy], ?_⟩
    intro r hr
    simp only [maxBy, Option.some.injEq] at hr
    have : ∀ (xs : List α) (b : α),
        let r := xs.foldl (fun best y => if compare (key best) (key y) = .gt then best else y) b
        (r = b ∨ r ∈ xs) ∧ key b ≤ key r ∧ ∀ y ∈ xs, key y ≤ key r := by
      intro xs
      induction xs with
      | nil => intro b; simp
      | cons y ys ih =>
        intro b
        simp only [List.foldl_cons]
        by_cases hc : compare (key b) (key y) = .gt
        · rw [if_pos hc]
          have hlt : key y < key b := by rwa [compare_gt_iff_gt] at hc
          obtain ⟨h1, h2, h3⟩ := ih b
          refine ⟨?_, h2, ?_⟩
          · rcases h1 with h1 | h1
            · exact Or.inl h1
            · exact Or.inr (by simp [h1])
          · intro z hz
            rcases List.mem_cons.mp hz with rfl | hz
            · exact hlt.le.trans h2
            · exact h3 z hz
        · rw [if_neg hc]
          have hle : key b ≤ key y := by
            rw [compare_gt_iff_gt] at hc
            exact not_lt.mp hc
          obtain ⟨h1, h2, h3⟩ := ih y
          refine ⟨?_, hle.trans h2, ?_⟩
          · rcases h1 with h1 | h1
            · exact Or.inr (by simp [h1])
            · exact Or.inr (by simp [h1])
          · intro z hz
            rcases List.mem_cons.mp hz with rfl | hz
            · exact h2
            · exact h3 z hz
    obtain ⟨h1, h2, h3⟩ := this xs x
    rw [hr] at h1 h2 h3
    refine ⟨?_, ?_⟩
    · rcases h1 with h1 | h1
      · simp [h1]
      · simp [h1]
    · intro z hz
      rcases List.mem_cons.mp hz with rfl | hz
      · exact h2
      · exact h3 z hz

theorem minBy_spec {α β : Type} [LinearOrder β] (key : α → β) (l : List α) :
    (minBy (fun x y => compare (key x) (key y)) l = none ↔ l = []) ∧
    ∀ r, minBy (fun x y => compare (key x) (key y)) l = some r → r ∈ l ∧ ∀ x ∈ l, key r ≤ key x := by
  cases l with
  | nil => simp [minBy]
  | cons x xs =>
    refine ⟨by simp [minBy], ?_⟩
    intro r hr
    simp only [minBy, Option.some.injEq] at hr
    have : ∀ (xs : List α) (b : α),
        let r := xs.foldl (fun best y => if compare (key best) (key y) = .gt then y else best) b
        (r = b ∨ r ∈ xs) ∧ key r ≤ key b ∧ ∀ y ∈ xs, key r ≤ key y := by
      intro xs
      induction xs with
      | nil => intro b; simp
      | cons y ys ih =>
        intro b
        simp only [List.foldl_cons]
        by_cases hc : compare (key b) (key y) = .gt
        · rw [if_pos hc]
          have hlt : key y < key b := by rwa [compare_gt_iff_gt] at hc
          obtain ⟨h1, h2, h3⟩ := ih y
          refine ⟨?_, h2.trans hlt.le, ?_⟩
          · rcases h1 with h1 | h1
            · exact Or.inr (by simp [h1])
            · exact Or.inr (by simp [h1])
          · intro z hz
            rcases List.mem_cons.mp hz with rfl | hz
            · exact h2
            · exact h3 z hz
        · rw [if_neg hc]
          have hle : key b ≤ key y := by
            rw [compare_gt_iff_gt] at hc
            exact not_lt.mp hc
          obtain ⟨h1, h2, h3⟩ := ih b
          refine ⟨?_, h2, ?_⟩
          · rcases h1 with h1 | h1
            · exact Or.inl h1
            · exact Or.inr (by simp [h1])
          · intro z hz
            rcases List.mem_cons.mp hz with rfl | hz
            · exact h2.trans hle
            · exact h3 z hz
    obtain ⟨h1, h2, h3⟩ := this xs x
    rw [hr] at h1 h2 h3
    refine ⟨?_, ?_⟩
    · rcases h1 with h1 | h1
      · simp [h1]
      · simp [h1]
    · intro z hz
      rcases List.mem_cons.mp hz with rfl | hz
      · exact h2
      · exact h3 z hz

/-! ### Parallel map -/

theorem parMap_eq_map {α β : Type} (f : α → β) (l : List α) (sched : List Nat) :
    parMap f l sched = l.map f := by
  unfold parMap
  have key : ∀ (sched : List Nat) (slots : List (Option β)), slots.length = l.length →
      (∀ (i : Nat) (v : β), slots[i]? = some (some v) → (l[i]?).map f = some v) →
      (sched.foldl (parMapStep f l) slots).length = l.length ∧
      ∀ (i : Nat) (v : β), (sched.foldl (parMapStep f l) slots)[i]? = some (some v) → (l[i]?).map f = some v := by
    intro sched
    induction sched with
    | nil => intro slots h1 h2; exact ⟨h1, h2⟩
    | cons j js ih =>
      intro slots h1 h2
      simp only [List.foldl_cons]
      apply ih
      · unfold parMapStep
        split <;> simp [h1]
      · intro i v hi
        unfold parMapStep at hi
        split at hi
        · rename_i a ha
          rw [List.getElem?_set] at hi
          split_ifs at hi with hji hlt
          · subst hji
            simp only [Option.some.injEq] at hi
            rw [ha, ← hi]; rfl
          · exact h2 i v hi
        · exact h2 i v hi
  obtain ⟨h1, h2⟩ := key sched (List.replicate l.length none) (by simp) (by
    intro i v hi
    rw [List.getElem?_replicate] at hi
    split_ifs at hi
    simp at hi)
  apply List.ext_getElem?
  intro i
  simp only [List.getElem?_map, List.getElem?_zip_eq_some]
  set slots := sched.foldl (parMapStep f l) (List.replicate l.length none)
  by_cases hi : i < l.length
  · have hs : i < slots.length := by omega
    have hz : (slots.zip l)[i]? = some (slots[i], l[i]) := by
      rw [List.getElem?_zip_eq_some]
      exact ⟨List.getElem?_eq_getElem hs, List.getElem?_eq_getElem hi⟩
    rw [hz, List.getElem?_eq_getElem hi]
    simp only [Option.map_some, Option.some.injEq]
    cases hc : slots[i] with
    | none => rfl
    | some v =>
      have := h2 i v (by rw [List.getElem?_eq_getElem hs, hc])
      rw [List.getElem?_eq_getElem hi] at this
      simpa using this.symm
  · rw [List.getElem?_eq_none (by simp; omega), List.getElem?_eq_none (by omega)]
    rfl

/-! ### Parallel for_each -/

section Par
variable {σ ω : Type} (f : σ → ω → Except Panic σ)

/-- What a worker that started from `s0` with operations `ops` looks like at any time: it has executed a
prefix of its operations; it is dead exactly because the next one panicked. -/
def WorkerOk (s0 : σ) (ops : List ω) (w : Worker σ ω) : Prop :=
  ∃ pre, ops = pre ++ w.pending ∧ pre.foldlM f s0 = .ok w.st ∧
    ∀ e, w.dead = some e → ∃ op rest, w.pending = op :: rest ∧ f w.st op = .error e

theorem WorkerOk.step {f : σ → ω → Except Panic σ} {s0 : σ} {ops : List ω} {w : Worker σ ω}
    (h : WorkerOk f s0 ops w) : WorkerOk f s0 ops (w.step f) := by
  obtain ⟨pre, h1, h2, h3⟩ := h
  obtain ⟨st, pending, dead⟩ := w
  unfold Worker.step
  cases dead with
  | some e => exact ⟨pre, h1, h2, h3⟩
  | none =>
    cases pending with
    | nil => exact ⟨pre, h1, h2, h3⟩
    | cons op rest =>
      simp only at h1 h2 ⊢
      cases hf : f st op with
      | ok s =>
        refine ⟨pre ++ [op], by simp [h1], ?_, by simp⟩
        rw [List.foldlM_append, h2]
        show (do let s ← [op].foldlM f st; pure s) = _
        simp [hf]
      | error e =>
        refine ⟨pre, h1, h2, ?_⟩
        intro e' he'
        simp only [Option.some.injEq] at he'
        subst he'
        exact ⟨op, rest, rfl, hf⟩

theorem WorkerOk.finish {f : σ → ω → Except Panic σ} {s0 : σ} {ops : List ω} {w : Worker σ ω}
    (h : WorkerOk f s0 ops w) : WorkerOk f s0 ops (w.finish f) := by
  unfold Worker.finish
  generalize w.pending = l
  induction l generalizing w with
  | nil => exact h
  | cons _ l ih => exact ih h.step

theorem Worker.finish_done {f : σ → ω → Except Panic σ} (w : Worker σ ω)
    (h : (w.finish f).dead = none) : (w.finish f).pending = [] := by
  unfold Worker.finish at *
  obtain ⟨st, pending, dead⟩ := w
  simp only at *
  induction pending generalizing st with
  | nil => simp
  | cons op rest ih =>
    simp only [List.foldl_cons] at *
    cases dead with
    | some e =>
      exfalso
      have : ∀ (l : List ω) (w : Worker σ ω), w.dead = some e →
          (l.foldl (fun w _ => w.step f) w).dead = some e := by
        intro l
        induction l with
        | nil => intro w hw; exact hw
        | cons _ l ih =>
          intro w hw
          apply ih
          obtain ⟨a, b, c⟩ := w
          simp only at hw
          subst hw
          simp [Worker.step]
      rw [this rest _ (by simp [Worker.step])] at h
      cases h
    | none =>
      cases hf : f st op with
      | ok s =>
        have e : (Worker.mk st (op :: rest) none).step f = ⟨s, rest, none⟩ := by
          simp [Worker.step, hf]
        rw [e] at h ⊢
        exact ih s h
      | error e =>
        exfalso
        have e' : (Worker.mk st (op :: rest) none).step f = ⟨st, op :: rest, some e⟩ := by
          simp [Worker.step, hf]
        rw [e'] at h
        have : ∀ (l : List ω) (w : Worker σ ω), w.dead = some e →
            (l.foldl (fun w _ => w.step f) w).dead = some e := by
          intro l
          induction l with
          | nil => intro w hw; exact hw
          | cons _ l ih =>
            intro w hw
            apply ih
            obtain ⟨a, b, c⟩ := w
            simp only at hw
            subst hw
            simp [Worker.step]
        rw [this rest _ rfl] at h
        cases h

theorem firstPanic_none {ws : List (Worker σ ω)} (h : firstPanic ws = none) :
    ∀ w ∈ ws, w.dead = none := by
  unfold firstPanic at h
  rw [List.findSome?_eq_none_iff] at h
  exact h

theorem firstPanic_some {ws : List (Worker σ ω)} {e : Panic} (h : firstPanic ws = some e) :
    ∃ w ∈ ws, w.dead = some e := by
  unfold firstPanic at h
  exact List.exists_of_findSome?_eq_some h

theorem sched_ok (items : List σ) (ops : List ω) (sched : List Nat) :
    List.Forall₂ (fun s w => WorkerOk f s ops w) items
      (sched.foldl (fun ws i => ws.modify i (Worker.step f)) (items.map (Worker.mk · ops none))) := by
  have h0 : List.Forall₂ (fun s w => WorkerOk f s ops w) items (items.map (Worker.mk · ops none)) := by
    induction items with
    | nil => exact List.Forall₂.nil
    | cons s l ih => exact List.Forall₂.cons ⟨[], by simp, rfl, by simp⟩ ih
  generalize items.map (Worker.mk · ops none) = ws at h0
  induction sched generalizing ws with
  | nil => exact h0
  | cons i is ih =>
    apply ih
    clear ih
    induction h0 generalizing i with
    | nil => simp
    | cons hab htl ih2 =>
      cases i with
      | zero => exact List.Forall₂.cons hab.step htl
      | succ j => exact List.Forall₂.cons hab (ih2 j)

/-- Every item ends as the result of a successful prefix of its own operations. -/
theorem parForEach_prefix (items : List σ) (ops : List ω) (sched : List Nat) :
    List.Forall₂ (fun s s' => ∃ pre, pre <+: ops ∧ pre.foldlM f s = .ok s') items
      (parForEach f items ops sched).1 := by
  have h1 := sched_ok f items ops sched
  unfold parForEach
  simp only
  set ws1 := sched.foldl (fun ws i => ws.modify i (Worker.step f)) (items.map (Worker.mk · ops none))
  have aux : ∀ (ws : List (Worker σ ω)), List.Forall₂ (fun s w => WorkerOk f s ops w) items ws →
      List.Forall₂ (fun s s' => ∃ pre, pre <+: ops ∧ pre.foldlM f s = .ok s') items
        (ws.map Worker.st) := by
    intro ws h
    rw [List.forall₂_map_right_iff]
    refine h.imp ?_
    rintro s w ⟨pre, e1, e2, _⟩
    exact ⟨pre, ⟨w.pending, e1.symm⟩, e2⟩
  have h2 : List.Forall₂ (fun s w => WorkerOk f s ops w) items (ws1.map (Worker.finish f)) := by
    rw [List.forall₂_map_right_iff]
    exact h1.imp fun _ _ h => h.finish
  split
  · exact aux _ h1
  · split
    · exact aux _ h2
    · exact aux _ h2

/-- If the call returns normally every item has executed all operations in order. -/
theorem parForEach_ok {items : List σ} {ops : List ω} {sched : List Nat}
    (h : (parForEach f items ops sched).2 = .ok ()) :
    List.Forall₂ (fun s s' => ops.foldlM f s = .ok s') items (parForEach f items ops sched).1 := by
  have h1 := sched_ok f items ops sched
  unfold parForEach at h ⊢
  simp only at h ⊢
  set ws1 := sched.foldl (fun ws i => ws.modify i (Worker.step f)) (items.map (Worker.mk · ops none))
  have h2 : List.Forall₂ (fun s w => WorkerOk f s ops w) items (ws1.map (Worker.finish f)) := by
    rw [List.forall₂_map_right_iff]
    exact h1.imp fun _ _ h => h.finish
  split at h
  · cases h
  · split at h
    · cases h
    · rename_i hp1 _ hp2
      simp only
      rw [List.forall₂_map_right_iff]
      have h3 := firstPanic_none hp2
      rw [List.forall₂_map_right_iff] at h2 ⊢
      have h3' : ∀ w ∈ ws1, (w.finish f).dead = none := fun w hw => h3 _ (List.mem_map_of_mem hw)
      clear hp1 hp2 h3 h1 h
      clear_value ws1
      induction h2 with
      | nil => exact List.Forall₂.nil
      | cons hab htl ih =>
        refine List.Forall₂.cons ?_ (ih fun w hw => h3' w (by simp [hw]))
        obtain ⟨pre, e1, e2, _⟩ := hab
        rw [Worker.finish_done _ (h3' _ (by simp)), List.append_nil] at e1
        rw [e1]; exact e2

theorem foldlM_append_error {s : σ} {pre suf : List ω} {s1 : σ} {e : Panic}
    (h1 : pre.foldlM f s = .ok s1) (h2 : suf.foldlM f s1 = .error e) :
    (pre ++ suf).foldlM f s = .error e := by
  rw [List.foldlM_append, h1]
  exact h2

/-- If every item can execute all operations, the call returns normally, whatever the schedule. -/
theorem parForEach_returns {items : List σ} {ops : List ω} (sched : List Nat)
    (h : ∀ s ∈ items, ∃ s', ops.foldlM f s = .ok s') :
    (parForEach f items ops sched).2 = .ok () := by
  have h1 := sched_ok f items ops sched
  unfold parForEach
  simp only
  set ws1 := sched.foldl (fun ws i => ws.modify i (Worker.step f)) (items.map (Worker.mk · ops none))
  have h2 : List.Forall₂ (fun s w => WorkerOk f s ops w) items (ws1.map (Worker.finish f)) := by
    rw [List.forall₂_map_right_iff]
    exact h1.imp fun _ _ h => h.finish
  have aux : ∀ (ws : List (Worker σ ω)), List.Forall₂ (fun s w => WorkerOk f s ops w) items ws →
      firstPanic ws = none := by
    intro ws hws
    cases hp : firstPanic ws with
    | none => rfl
    | some e =>
      exfalso
      obtain ⟨w, hw, hd⟩ := firstPanic_some hp
      have : ∃ s ∈ items, WorkerOk f s ops w := by
        clear hp h1 h2 h
        induction hws with
        | nil => simp at hw
        | cons hab _ ih =>
          rcases List.mem_cons.mp hw with rfl | hw
          · exact ⟨_, by simp, hab⟩
          · obtain ⟨s, hs, h⟩ := ih hw
            exact ⟨s, by simp [hs], h⟩
      obtain ⟨s, hs, pre, e1, e2, e3⟩ := this
      obtain ⟨op, rest, e4, e5⟩ := e3 e hd
      obtain ⟨s', hs'⟩ := h s hs
      rw [e1, e4] at hs'
      have := foldlM_append_error f e2 (suf := op :: rest) (e := e) (by
        rw [List.foldlM_cons, e5]; rfl)
      rw [this] at hs'
      cases hs'
  rw [aux _ h1]
  simp only
  rw [aux _ h2]

end Par

end Verif
