import Verif.Lemmas.Container
import Verif.Lemmas.Similarity
import Verif.Model.MinHashIndex
import Verif.Spec.Index

set_option linter.unusedSectionVars false

namespace Verif
open Spec

/-! ### forEachMut -/

theorem forEachMut_ok {σ : Type} (f : σ → Except Panic σ) (l : List σ)
    (h : ∀ x ∈ l, ∃ y, f x = .ok y) : (forEachMut f l).2 = .ok () := by
  induction l with
  | nil => rfl
  | cons x xs ih =>
    obtain ⟨y, hy⟩ := h x (by simp)
    unfold forEachMut
    rw [hy]
    exact ih fun z hz => h z (by simp [hz])

theorem forEachMut_forall₂ {σ : Type} (f : σ → Except Panic σ) (l : List σ)
    (h : (forEachMut f l).2 = .ok ()) :
    List.Forall₂ (fun x y => f x = .ok y) l (forEachMut f l).1 := by
  induction l with
  | nil => exact .nil
  | cons x xs ih =>
    unfold forEachMut at h ⊢
    cases hx : f x with
    | error e => rw [hx] at h; cases h
    | ok y => rw [hx] at h; exact .cons hx (ih h)

/-- Whatever happens, each item is either untouched or updated. -/
theorem forEachMut_prefix {σ : Type} (f : σ → Except Panic σ) (l : List σ) :
    List.Forall₂ (fun x y => y = x ∨ f x = .ok y) l (forEachMut f l).1 := by
  induction l with
  | nil => exact .nil
  | cons x xs ih =>
    unfold forEachMut
    cases hx : f x with
    | error e =>
      refine .cons (.inl rfl) ?_
      exact List.forall₂_same.mpr fun _ _ => .inl rfl
    | ok y => exact .cons (.inr hx) ih

/-! ### Bands -/
namespace Band
variable {T Id C : Type} [DecidableEq Id] [IdContainer C Id]

/-- Ids in the bucket of key `k`. -/
def bucket (band : Band T C) (k : UInt64) : List Id :=
  ((band.hashTable.get? k).map IdContainer.ids).getD []

/-- The fixed part of a band. -/
def shape (band : Band T C) : Nat × Nat × (List T → UInt64) :=
  (band.bandStart, band.bandEnd, band.buildAhash)

/-- Key of a signature that is long enough. -/
def key (band : Band T C) (s : List T) : UInt64 :=
  band.buildAhash ((s.drop band.bandStart).take (band.bandEnd - band.bandStart))

/-- The signature covers the band. -/
def Fits (band : Band T C) (s : List T) : Prop := band.bandStart ≤ band.bandEnd ∧ band.bandEnd ≤ s.length

theorem key_congr {band band' : Band T C} (h : band.shape = band'.shape) (s : List T) :
    band.key s = band'.key s := by
  simp only [shape, Prod.mk.injEq] at h
  obtain ⟨h1, h2, h3⟩ := h
  simp [key, h1, h2, h3]

theorem fits_congr {band band' : Band T C} (h : band.shape = band'.shape) (s : List T) :
    band.Fits s ↔ band'.Fits s := by
  simp only [shape, Prod.mk.injEq] at h
  obtain ⟨h1, h2, h3⟩ := h
  simp [Fits, h1, h2]

theorem keyOf_ok {band : Band T C} {s : List T} (h : band.Fits s) : band.keyOf s = .ok (band.key s) := by
  unfold keyOf slice
  unfold Fits at h
  rw [if_pos h]; rfl

theorem keyOf_err {band : Band T C} {s : List T} (h : ¬ band.Fits s) : band.keyOf s = .error .index := by
  unfold keyOf slice
  unfold Fits at h
  rw [if_neg h]; rfl

theorem keyOf_ok_iff {band : Band T C} {s : List T} {k : UInt64} :
    band.keyOf s = .ok k ↔ band.Fits s ∧ k = band.key s := by
  by_cases h : band.Fits s
  · rw [keyOf_ok h]
    constructor
    · intro e; cases e; exact ⟨h, rfl⟩
    · rintro ⟨_, rfl⟩; rfl
  · rw [keyOf_err h]
    constructor
    · intro e; cases e
    · rintro ⟨h', _⟩; exact absurd h' h

theorem insert_eq_ok {band band' : Band T C} {id : Id} {s : List T} :
    band.insert id s = .ok band' ↔ band.Fits s ∧ band' = { band with
      hashTable := band.hashTable.upsert (band.key s) IdContainer.new (fun c => IdContainer.push c id) } := by
  unfold insert
  by_cases h : band.Fits s
  · rw [keyOf_ok h]
    constructor
    · intro e; cases e; exact ⟨h, rfl⟩
    · rintro ⟨_, rfl⟩; rfl
  · rw [keyOf_err h]
    constructor
    · intro e; cases e
    · rintro ⟨h', _⟩; exact absurd h' h

theorem insert_shape {band band' : Band T C} {id : Id} {s : List T} (h : band.insert id s = .ok band') :
    band'.shape = band.shape := by
  rw [insert_eq_ok] at h; rw [h.2]; rfl

variable [LawfulIdContainer C Id]

theorem mem_bucket_insert {band band' : Band T C} {id : Id} {s : List T} (h : band.insert id s = .ok band')
    (k : UInt64) (x : Id) :
    x ∈ band'.bucket k ↔ (k = band.key s ∧ x = id) ∨ x ∈ band.bucket k := by
  rw [insert_eq_ok] at h
  rw [h.2]
  unfold bucket
  simp only [HMap.get?_upsert]
  by_cases hk : k = band.key s
  · subst hk
    simp only [if_true, Option.map_some, Option.getD_some, LawfulIdContainer.mem_push, true_and]
    cases band.hashTable.get? (band.key s) with
    | none => simp [LawfulIdContainer.ids_new]
    | some c => simp
  · simp [hk]

/-- The remaining part of `remove` once the key is known. -/
theorem remove_eq_ok {band : Band T C} {id : Id} {s : List T} (h : band.Fits s) :
    band.remove id s = .ok (match band.hashTable.get? (band.key s) with
      | some ids => { band with hashTable :=
          if IdContainer.isEmpty (IdContainer.remove ids id) then band.hashTable.erase (band.key s)
          else band.hashTable.insert (band.key s) (IdContainer.remove ids id) }
      | none => band) := by
  unfold remove
  rw [keyOf_ok h]
  show (match band.hashTable.get? (band.key s) with
    | some ids => _
    | none => _) = _
  cases band.hashTable.get? (band.key s) with
  | none => rfl
  | some c =>
    simp only
    split_ifs <;> rfl

theorem remove_ok_fits {band band' : Band T C} {id : Id} {s : List T} (h : band.remove id s = .ok band') :
    band.Fits s := by
  by_contra hn
  unfold remove at h
  rw [keyOf_err hn] at h
  cases h

theorem remove_shape {band band' : Band T C} {id : Id} {s : List T} (h : band.remove id s = .ok band') :
    band'.shape = band.shape := by
  have hf := remove_ok_fits h
  rw [remove_eq_ok hf] at h
  cases h
  cases band.hashTable.get? (band.key s) <;> rfl

theorem bucket_remove {band band' : Band T C} {id : Id} {s : List T} (h : band.remove id s = .ok band')
    (k : UInt64) :
    band'.bucket k = if k = band.key s then
      (((band.hashTable.get? k).map fun c => IdContainer.ids (IdContainer.remove c id)).getD [])
      else band.bucket k := by
  have hf := remove_ok_fits h
  rw [remove_eq_ok hf] at h
  cases h
  unfold bucket
  cases hc : band.hashTable.get? (band.key s) with
  | none =>
    simp only
    split_ifs with hk
    · subst hk; rw [hc]; rfl
    · rfl
  | some c =>
    simp only
    by_cases hk : k = band.key s
    · subst hk
      rw [if_pos rfl, hc]
      split_ifs with he
      · have : IdContainer.ids (IdContainer.remove c id) = [] := by
          rw [← LawfulIdContainer.len_eq_zero]; simpa [IdContainer.isEmpty] using he
        simp [this]
      · simp
    · rw [if_neg hk]
      split_ifs with he
      · rw [HMap.get?_erase, if_neg hk]
      · rw [HMap.get?_insert, if_neg hk]

theorem mem_bucket_remove_ne {band band' : Band T C} {id : Id} {s : List T}
    (h : band.remove id s = .ok band') (k : UInt64) {x : Id} (hx : x ≠ id) :
    x ∈ band'.bucket k ↔ x ∈ band.bucket k := by
  rw [bucket_remove h]
  split_ifs with hk
  · unfold bucket
    cases band.hashTable.get? k with
    | none => simp
    | some c => simp [LawfulIdContainer.mem_remove_ne c id x hx]
  · rfl

theorem mem_bucket_of_remove {band band' : Band T C} {id : Id} {s : List T}
    (h : band.remove id s = .ok band') (k : UInt64) {x : Id} (hx : x ∈ band'.bucket k) :
    x ∈ band.bucket k := by
  rw [bucket_remove h] at hx
  split_ifs at hx with hk
  · unfold bucket
    cases hc : band.hashTable.get? k with
    | none => rw [hc] at hx; simpa using hx
    | some c => rw [hc] at hx; simpa using LawfulIdContainer.mem_of_remove c id x (by simpa using hx)
  · exact hx

/-- A run of inserts on one band. -/
theorem foldlM_insert {α : Type} (g : α → Id × List T) (ps : List α) {band band' : Band T C}
    (h : ps.foldlM (fun (bd : Band T C) p => bd.insert (g p).1 (g p).2) band = .ok band') :
    band'.shape = band.shape ∧ (∀ p ∈ ps, band.Fits (g p).2) ∧
    ∀ k x, x ∈ band'.bucket k ↔ (∃ p ∈ ps, (g p).1 = x ∧ band.key (g p).2 = k) ∨ x ∈ band.bucket k := by
  induction ps generalizing band with
  | nil => cases h; simp
  | cons p ps ih =>
    rw [List.foldlM_cons] at h
    cases h1 : band.insert (g p).1 (g p).2 with
    | error e => rw [h1] at h; cases h
    | ok b1 =>
      rw [h1] at h
      obtain ⟨e1, e2, e3⟩ := ih h
      have hs := insert_shape h1
      refine ⟨e1.trans hs, ?_, ?_⟩
      · rintro q hq
        rcases List.mem_cons.mp hq with rfl | hq
        · exact (insert_eq_ok.mp h1).1
        · exact (fits_congr hs _).mp (e2 q hq)
      · intro k x
        rw [e3, mem_bucket_insert h1]
        simp only [List.mem_cons, exists_eq_or_imp, key_congr hs]
        constructor
        · rintro (h | ⟨rfl, rfl⟩ | h)
          · exact .inl (.inr h)
          · exact .inl (.inl ⟨rfl, rfl⟩)
          · exact .inr h
        · rintro ((⟨rfl, rfl⟩ | h) | h)
          · exact .inr (.inl ⟨rfl, rfl⟩)
          · exact .inl h
          · exact .inr (.inr h)

theorem foldlM_insert_ok {α : Type} (g : α → Id × List T) (ps : List α) {band : Band T C}
    (h : ∀ p ∈ ps, band.Fits (g p).2) :
    ∃ band', ps.foldlM (fun (bd : Band T C) p => bd.insert (g p).1 (g p).2) band = .ok band' := by
  induction ps generalizing band with
  | nil => exact ⟨band, rfl⟩
  | cons p ps ih =>
    rw [List.foldlM_cons]
    have h1 := (insert_eq_ok (band := band) (id := (g p).1) (s := (g p).2)).mpr ⟨h p (by simp), rfl⟩
    rw [h1]
    apply ih
    intro q hq
    exact h q (by simp [hq])

/-- A run of removes on one band. -/
theorem foldlM_remove {α : Type} (g : α → Id × List T) (ps : List α) {band band' : Band T C}
    (h : ps.foldlM (fun (bd : Band T C) p => bd.remove (g p).1 (g p).2) band = .ok band') :
    band'.shape = band.shape ∧ (∀ k x, (∀ p ∈ ps, (g p).1 ≠ x) → (x ∈ band'.bucket k ↔ x ∈ band.bucket k)) := by
  induction ps generalizing band with
  | nil => cases h; simp
  | cons p ps ih =>
    rw [List.foldlM_cons] at h
    cases h1 : band.remove (g p).1 (g p).2 with
    | error e => rw [h1] at h; cases h
    | ok b1 =>
      rw [h1] at h
      obtain ⟨e1, e3⟩ := ih h
      have hs := remove_shape h1
      refine ⟨e1.trans hs, ?_⟩
      intro k x hx
      rw [e3 k x fun q hq => hx q (by simp [hq]),
        mem_bucket_remove_ne h1 k (Ne.symm (hx p (by simp)))]

theorem foldlM_remove_ok {α : Type} (g : α → Id × List T) (ps : List α) {band : Band T C}
    (h : ∀ p ∈ ps, band.Fits (g p).2) :
    ∃ band', ps.foldlM (fun (bd : Band T C) p => bd.remove (g p).1 (g p).2) band = .ok band' := by
  induction ps generalizing band with
  | nil => exact ⟨band, rfl⟩
  | cons p ps ih =>
    rw [List.foldlM_cons]
    have h1 := remove_eq_ok (band := band) (id := (g p).1) (s := (g p).2) (h p (by simp))
    rw [h1]
    apply ih
    intro q hq
    exact (fits_congr (remove_shape h1) _).mpr (h q (by simp [hq]))

end Band
end Verif
