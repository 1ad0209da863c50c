import Verif.Lemmas.MinHashIndex

set_option linter.unusedSectionVars false

namespace Verif
open Spec

/-! ### Content updates -/

section Content
variable {T Id : Type} [DecidableEq Id]

theorem lastPair_cons (p : Id × List T) (ps : List (Id × List T)) (id : Id) :
    lastPair (p :: ps) id = (lastPair ps id).or (if p.1 = id then some p.2 else none) := by
  unfold lastPair
  rw [List.reverse_cons, List.find?_append]
  cases (ps.reverse.find? fun p => decide (p.1 = id)) with
  | none => by_cases h : p.1 = id <;> simp [h]
  | some x => simp

theorem lastPair_mem {ps : List (Id × List T)} {id : Id} {s : List T} (h : lastPair ps id = some s) :
    (id, s) ∈ ps := by
  unfold lastPair at h
  rw [Option.map_eq_some_iff] at h
  obtain ⟨⟨a, b⟩, h1, h2⟩ := h
  have := List.find?_some h1
  have h3 := List.mem_of_find?_eq_some h1
  simp at this h2 h3
  rw [← this, ← h2]; exact h3

theorem lastPair_none {ps : List (Id × List T)} {id : Id} :
    lastPair ps id = none ↔ ∀ p ∈ ps, p.1 ≠ id := by
  unfold lastPair
  simp

theorem get?_insertAll (m : HMap Id (List T)) (ps : List (Id × List T)) (id : Id) :
    (MinHashIndex.insertAllSignatures m ps).get? id = (lastPair ps id).or (m.get? id) := by
  induction ps generalizing m with
  | nil => simp [MinHashIndex.insertAllSignatures, lastPair]
  | cons p ps ih =>
    have e : MinHashIndex.insertAllSignatures m (p :: ps)
      = MinHashIndex.insertAllSignatures (m.insert p.1 p.2) ps := rfl
    rw [e, ih, lastPair_cons, HMap.get?_insert]
    cases lastPair ps id with
    | some x => simp
    | none =>
      by_cases h : id = p.1
      · subst h; simp
      · simp [h, Ne.symm h]

theorem take_get? (m : HMap Id (List T)) (ids : List Id) (id : Id) :
    (MinHashIndex.takeSignatures m ids).1.get? id = if id ∈ ids then none else m.get? id := by
  induction ids generalizing m with
  | nil => simp [MinHashIndex.takeSignatures]
  | cons a ids ih =>
    unfold MinHashIndex.takeSignatures
    cases ha : m.get? a with
    | none =>
      simp only [ih, List.mem_cons]
      by_cases h1 : id ∈ ids
      · simp [h1]
      · by_cases h2 : id = a
        · subst h2; simp [h1, ha]
        · simp [h1, h2]
    | some s =>
      simp only [ih, List.mem_cons, HMap.get?_erase]
      by_cases h1 : id ∈ ids
      · simp [h1]
      · by_cases h2 : id = a
        · subst h2; simp [h1]
        · simp [h1, h2]

theorem take_mem (m : HMap Id (List T)) (ids : List Id) (s : List T)
    (h : s ∈ (MinHashIndex.takeSignatures m ids).2) : ∃ id ∈ ids, m.get? id = some s := by
  induction ids generalizing m with
  | nil => simp [MinHashIndex.takeSignatures] at h
  | cons a ids ih =>
    unfold MinHashIndex.takeSignatures at h
    cases ha : m.get? a with
    | none =>
      rw [ha] at h
      obtain ⟨id, h1, h2⟩ := ih m h
      exact ⟨id, by simp [h1], h2⟩
    | some s' =>
      rw [ha] at h
      rcases List.mem_cons.mp h with rfl | h
      · exact ⟨a, by simp, ha⟩
      · obtain ⟨id, h1, h2⟩ := ih _ h
        rw [HMap.get?_erase] at h2
        split_ifs at h2
        exact ⟨id, by simp [h1], h2⟩

/-- Distinct present ids: the signatures come out in the order of the ids. -/
theorem take_distinct (m : HMap Id (List T)) (ids : List Id) (hn : ids.Nodup)
    (hp : ∀ id ∈ ids, m.get? id ≠ none) :
    List.Forall₂ (fun id s => m.get? id = some s) ids (MinHashIndex.takeSignatures m ids).2 := by
  induction ids generalizing m with
  | nil => exact .nil
  | cons a ids ih =>
    rw [List.nodup_cons] at hn
    unfold MinHashIndex.takeSignatures
    obtain ⟨s, hs⟩ := Option.ne_none_iff_exists'.mp (hp a (by simp))
    rw [hs]
    refine .cons hs ?_
    have hne : ∀ id ∈ ids, id ≠ a := fun id hid he => hn.1 (he ▸ hid)
    have h2 := ih (m.erase a) hn.2 (fun id hid => by
      rw [HMap.get?_erase, if_neg (hne id hid)]; exact hp id (by simp [hid]))
    refine (List.forall₂_iff_get.mpr ?_)
    rw [List.forall₂_iff_get] at h2
    refine ⟨h2.1, fun i h1 h3 => ?_⟩
    have := h2.2 i h1 h3
    rw [HMap.get?_erase, if_neg (hne _ (List.get_mem ids ⟨i, h1⟩))] at this
    exact this

/-- Effect of one call on the content. -/
def applyL (n : Nat) (L : Id → Option (List T)) (op : Op T Id) : Id → Option (List T) :=
  fun id => match touch n id op with
    | some v => v
    | none => L id

theorem live_nil (n : Nat) : live n ([] : List (Op T Id)) = fun _ => none := rfl

theorem live_snoc (n : Nat) (ops : List (Op T Id)) (op : Op T Id) :
    live n (ops ++ [op]) = applyL n (live n ops) op := by
  funext id
  unfold live applyL
  rw [List.reverse_append, List.reverse_singleton, List.singleton_append, List.findSome?_cons]
  cases touch n id op <;> rfl

end Content

/-! ### Invariants -/

/-- Invariant of all histories. `L` is the content. -/
structure Inv {T Id C : Type} [DecidableEq Id] [IdContainer C Id] (h : List T → UInt64) (b r : Nat) (t : Fl)
    (L : Id → Option (List T)) (idx : MinHashIndex T Id C) : Prop where
  shapes : idx.bands.map Band.shape = (List.range b).map fun i => (i * r, (i + 1) * r, h)
  hb : idx.b = b
  hr : idx.r = r
  ht : idx.threshold = t
  hn : idx.numHashes = b * r
  sigs : ∀ id, idx.idSignatures.get? id = L id
  long : ∀ id s, L id = some s → b * r ≤ s.length
  bucketed : ∀ band ∈ idx.bands, ∀ id s, L id = some s → id ∈ band.bucket (band.key s)

/-- Invariant of one band for histories without overwriting. -/
structure BandExact {T Id C : Type} [DecidableEq Id] [IdContainer C Id] (L : Id → Option (List T))
    (band : Band T C) : Prop where
  nodup : ∀ k, (band.bucket k).Nodup
  nonempty : ∀ k c, band.hashTable.get? k = some c → IdContainer.ids c ≠ []
  mem : ∀ k x, x ∈ band.bucket k ↔ ∃ s, L x = some s ∧ band.key s = k

section
variable {T Id C : Type} [DecidableEq T] [DecidableEq Id] [IdContainer C Id] [LawfulIdContainer C Id]

theorem forall₂_shapes {R : Band T C → Band T C → Prop} (hR : ∀ x y, R x y → y.shape = x.shape)
    {l l' : List (Band T C)} (h : List.Forall₂ R l l') : l'.map Band.shape = l.map Band.shape := by
  induction h with
  | nil => rfl
  | cons h1 _ ih => simp [hR _ _ h1, ih]

theorem forall₂_mem_right {α β : Type} {R : α → β → Prop} {l : List α} {l' : List β}
    (h : List.Forall₂ R l l') : ∀ y ∈ l', ∃ x ∈ l, R x y := by
  induction h with
  | nil => simp
  | cons h1 _ ih =>
    intro y hy
    rcases List.mem_cons.mp hy with rfl | hy
    · exact ⟨_, by simp, h1⟩
    · obtain ⟨x, hx, hr⟩ := ih y hy
      exact ⟨x, by simp [hx], hr⟩

theorem Inv.band_shape {h : List T → UInt64} {b r : Nat} {bands : List (Band T C)}
    (hs : bands.map Band.shape = (List.range b).map fun i => (i * r, (i + 1) * r, h))
    {band : Band T C} (hm : band ∈ bands) : ∃ i < b, band.shape = (i * r, (i + 1) * r, h) := by
  have : band.shape ∈ bands.map Band.shape := List.mem_map_of_mem hm
  rw [hs] at this
  obtain ⟨i, hi, e⟩ := List.mem_map.mp this
  exact ⟨i, by simpa using hi, e.symm⟩

theorem Inv.shape_band {h : List T → UInt64} {b r : Nat} {bands : List (Band T C)}
    (hs : bands.map Band.shape = (List.range b).map fun i => (i * r, (i + 1) * r, h))
    {i : Nat} (hi : i < b) : ∃ band ∈ bands, band.shape = (i * r, (i + 1) * r, h) := by
  have : (i * r, (i + 1) * r, h) ∈ bands.map Band.shape := by
    rw [hs]; exact List.mem_map.mpr ⟨i, by simpa using hi, rfl⟩
  obtain ⟨band, h1, h2⟩ := List.mem_map.mp this
  exact ⟨band, h1, h2⟩

/-- All bands fit a signature iff it has at least `b*r` entries. -/
theorem all_fits_iff {h : List T → UInt64} {b r : Nat} {bands : List (Band T C)}
    (hs : bands.map Band.shape = (List.range b).map fun i => (i * r, (i + 1) * r, h)) (s : List T) :
    (∀ band ∈ bands, band.Fits s) ↔ b * r ≤ s.length := by
  constructor
  · intro hf
    rcases Nat.eq_zero_or_pos b with rfl | hb
    · simp
    · obtain ⟨band, h1, h2⟩ := Inv.shape_band hs (i := b - 1) (by omega)
      have := (hf band h1).2
      simp only [Band.shape, Prod.mk.injEq] at h2
      rw [h2.2.1, Nat.sub_add_cancel hb] at this
      exact this
  · intro hl band hm
    obtain ⟨i, hi, e⟩ := Inv.band_shape hs hm
    simp only [Band.shape, Prod.mk.injEq] at e
    unfold Band.Fits
    rw [e.1, e.2.1]
    refine ⟨Nat.mul_le_mul_right _ (by omega), le_trans (Nat.mul_le_mul_right _ (by omega)) hl⟩

theorem key_of_shape {h : List T → UInt64} {r i : Nat} {band : Band T C}
    (e : band.shape = (i * r, (i + 1) * r, h)) (s : List T) : band.key s = h (bandOf r s i) := by
  simp only [Band.shape, Prod.mk.injEq] at e
  unfold Band.key bandOf
  rw [e.1, e.2.1, e.2.2]
  congr 2
  rw [Nat.add_mul]; omega

theorem inv_new (h : List T → UInt64) (b r : Nat) (t : Fl) :
    Inv h b r t (fun _ => none) (MinHashIndex.newIndex b r t h : MinHashIndex T Id C) where
  shapes := by simp [MinHashIndex.newIndex, Band.shape, Band.new]
  hb := rfl
  hr := rfl
  ht := rfl
  hn := rfl
  sigs := fun _ => rfl
  long := by simp
  bucketed := by simp

/-! #### Bulk insertion of items -/

/-- Common part of all insertions: the bands after a parallel run over a list of items. -/
theorem bulk_core {α : Type} (g : α → Id × List T) (items : List α) (sched : List Nat)
    {h : List T → UInt64} {b r : Nat} {t : Fl} {L : Id → Option (List T)} {idx : MinHashIndex T Id C}
    (I : Inv h b r t L idx) :
    let P := parForEach (fun (band : Band T C) a => band.insert (g a).1 (g a).2) idx.bands items sched
    (P.1.map Band.shape = (List.range b).map fun i => (i * r, (i + 1) * r, h)) ∧
    (∀ band ∈ P.1, ∀ id s, L id = some s → id ∈ band.bucket (band.key s)) ∧
    (P.2 = .ok () ↔ ∀ a ∈ items, b * r ≤ (g a).2.length) ∧
    (P.2 = .ok () → ∀ band ∈ P.1, ∀ a ∈ items, (g a).1 ∈ band.bucket (band.key (g a).2)) := by
  intro P
  have hp := parForEach_prefix (fun (band : Band T C) a => band.insert (g a).1 (g a).2) idx.bands items sched
  have hsh : P.1.map Band.shape = idx.bands.map Band.shape := forall₂_shapes
    (fun x y ⟨pre, _, e⟩ => (Band.foldlM_insert g pre e).1) hp
  refine ⟨hsh.trans I.shapes, ?_, ?_, ?_⟩
  · intro band hb id s hL
    obtain ⟨bd, hbd, pre, _, e⟩ := forall₂_mem_right hp band hb
    obtain ⟨e1, _, e3⟩ := Band.foldlM_insert g pre e
    rw [e3, Band.key_congr e1]
    exact .inr (I.bucketed bd hbd id s hL)
  · constructor
    · intro hok a ha
      have hf := parForEach_ok _ hok
      rw [← all_fits_iff (hsh.trans I.shapes)]
      intro band hb
      obtain ⟨bd, hbd, e⟩ := forall₂_mem_right hf band hb
      obtain ⟨e1, e2, _⟩ := Band.foldlM_insert g items e
      exact (Band.fits_congr e1 _).mpr (e2 a ha)
    · intro hl
      apply parForEach_returns
      intro bd hbd
      apply Band.foldlM_insert_ok g
      intro a ha
      exact (all_fits_iff I.shapes _).mpr (hl a ha) bd hbd
  · intro hok band hb a ha
    have hf := parForEach_ok _ hok
    obtain ⟨bd, hbd, e⟩ := forall₂_mem_right hf band hb
    obtain ⟨e1, e2, e3⟩ := Band.foldlM_insert g items e
    rw [e3, Band.key_congr e1]
    exact .inl ⟨a, ha, rfl, rfl⟩

theorem insert_bands {h : List T → UInt64} {b r : Nat} {t : Fl} {L : Id → Option (List T)}
    {idx : MinHashIndex T Id C} (I : Inv h b r t L idx) (id : Id) (s : List T) (hs : b * r ≤ s.length) :
    (forEachMut (fun band => band.insert id s) idx.bands).2 = .ok () := by
  apply forEachMut_ok
  intro bd hbd
  exact ⟨_, Band.insert_eq_ok.mpr ⟨(all_fits_iff I.shapes s).mpr hs bd hbd, rfl⟩⟩

/-- `insert` with a signature of the right length. -/
theorem insert_eq {h : List T → UInt64} {b r : Nat} {t : Fl} {L : Id → Option (List T)}
    {idx : MinHashIndex T Id C} (I : Inv h b r t L idx) (id : Id) (s : List T) (hs : s.length = b * r) :
    idx.insert id s = ({ idx with
      bands := (forEachMut (fun band => band.insert id s) idx.bands).1,
      idSignatures := idx.idSignatures.insert id s }, .ok ()) := by
  unfold MinHashIndex.insert
  rw [if_pos (I.hn.trans hs.symm)]
  have := insert_bands I id s hs.ge
  generalize forEachMut (fun band => band.insert id s) idx.bands = P at this
  obtain ⟨bands, res⟩ := P
  simp only at this
  subst this
  rfl

theorem insert_ne {h : List T → UInt64} {b r : Nat} {t : Fl} {L : Id → Option (List T)}
    {idx : MinHashIndex T Id C} (I : Inv h b r t L idx) (id : Id) (s : List T) (hs : s.length ≠ b * r) :
    idx.insert id s = (idx, .error .assert) := by
  unfold MinHashIndex.insert
  rw [if_neg]
  rw [I.hn]; exact Ne.symm hs

theorem inv_insert {h : List T → UInt64} {b r : Nat} {t : Fl} {L : Id → Option (List T)}
    {idx : MinHashIndex T Id C} (I : Inv h b r t L idx) (id : Id) (s : List T) :
    Inv h b r t (applyL (b * r) L (.insert id s)) (idx.insert id s).1 := by
  by_cases hs : s.length = b * r
  · rw [insert_eq I id s hs]
    have hf := forEachMut_forall₂ _ _ (insert_bands I id s hs.ge)
    have hL : ∀ x, applyL (b * r) L (.insert id s) x = if x = id then some s else L x := by
      intro x
      simp only [applyL, touch]
      by_cases hx : id = x
      · subst hx; simp [hs]
      · simp [hx, Ne.symm hx]
    refine ⟨(forall₂_shapes (fun x y e => Band.insert_shape e) hf).trans I.shapes, I.hb, I.hr, I.ht, I.hn, ?_,
      ?_, ?_⟩
    · intro x
      simp only [HMap.get?_insert, hL, I.sigs]
    · intro x s' hx
      rw [hL] at hx
      split_ifs at hx
      · cases hx; exact hs.ge
      · exact I.long x s' hx
    · intro band hb x s' hx
      obtain ⟨bd, hbd, e⟩ := forall₂_mem_right hf band hb
      rw [Band.mem_bucket_insert e, Band.key_congr (Band.insert_shape e)]
      rw [hL] at hx
      split_ifs at hx with hxi
      · cases hx; exact .inl ⟨rfl, hxi⟩
      · exact .inr (I.bucketed bd hbd x s' hx)
  · rw [insert_ne I id s hs]
    have hL : applyL (b * r) L (.insert id s) = L := by
      funext x; simp [applyL, touch, hs]
    rw [hL]; exact I

/-- New content and invariant after an accepted batch. -/
theorem inv_bulk {α : Type} (g : α → Id × List T) (items : List α) (sched : List Nat)
    {h : List T → UInt64} {b r : Nat} {t : Fl} {L L' : Id → Option (List T)} {idx : MinHashIndex T Id C}
    (I : Inv h b r t L idx) (ps : List (Id × List T)) (hps : ∀ p, p ∈ ps → ∃ a ∈ items, g a = p)
    (hL : ∀ x, L' x = (lastPair ps x).or (L x))
    (hok : (parForEach (fun (band : Band T C) a => band.insert (g a).1 (g a).2) idx.bands items sched).2 = .ok ()) :
    Inv h b r t L' { idx with
      bands := (parForEach (fun (band : Band T C) a => band.insert (g a).1 (g a).2) idx.bands items sched).1,
      idSignatures := MinHashIndex.insertAllSignatures idx.idSignatures ps } := by
  obtain ⟨c1, c2, c3, c4⟩ := bulk_core g items sched I
  refine ⟨c1, I.hb, I.hr, I.ht, I.hn, ?_, ?_, ?_⟩
  · intro x; rw [hL, ← I.sigs]; exact get?_insertAll _ _ _
  · intro x s hx
    rw [hL] at hx
    cases hlp : lastPair ps x with
    | none => rw [hlp] at hx; exact I.long x s (by simpa using hx)
    | some s' =>
      rw [hlp] at hx
      simp only [Option.some_or, Option.some.injEq] at hx
      subst hx
      obtain ⟨a, ha, e⟩ := hps _ (lastPair_mem hlp)
      have := c3.mp hok a ha
      rw [e] at this; exact this
  · intro band hb x s hx
    rw [hL] at hx
    cases hlp : lastPair ps x with
    | none => rw [hlp] at hx; exact c2 band hb x s (by simpa using hx)
    | some s' =>
      rw [hlp] at hx
      simp only [Option.some_or, Option.some.injEq] at hx
      subst hx
      obtain ⟨a, ha, e⟩ := hps _ (lastPair_mem hlp)
      have := c4 hok band hb a ha
      rw [e] at this; exact this

/-- After a batch that panics the content is unchanged and the invariant holds. -/
theorem inv_bulk_err {α : Type} (g : α → Id × List T) (items : List α) (sched : List Nat)
    {h : List T → UInt64} {b r : Nat} {t : Fl} {L : Id → Option (List T)} {idx : MinHashIndex T Id C}
    (I : Inv h b r t L idx) :
    Inv h b r t L { idx with
      bands := (parForEach (fun (band : Band T C) a => band.insert (g a).1 (g a).2) idx.bands items sched).1 } := by
  obtain ⟨c1, c2, c3, c4⟩ := bulk_core g items sched I
  exact ⟨c1, I.hb, I.hr, I.ht, I.hn, I.sigs, I.long, c2⟩

theorem mem_zip_comm {α β : Type} {l : List α} {l' : List β} {a : α} {b : β} :
    (a, b) ∈ l.zip l' ↔ (b, a) ∈ l'.zip l := by
  rw [← List.zip_swap, List.mem_map]
  constructor
  · rintro ⟨⟨x, y⟩, h, e⟩; simp at e; obtain ⟨rfl, rfl⟩ := e; exact h
  · intro h; exact ⟨_, h, rfl⟩

/-- Result of `par_bulk_insert_pairs`. -/
theorem pairs_eq {h : List T → UInt64} {b r : Nat} {t : Fl} {L : Id → Option (List T)}
    {idx : MinHashIndex T Id C} (I : Inv h b r t L idx) (ps : List (Id × List T)) (sched : List Nat) :
    let P := parForEach (fun (band : Band T C) (a : Id × List T) => band.insert a.1 a.2) idx.bands ps sched
    (accepts (b * r) (.parBulkInsertPairs ps sched : Op T Id) = true ∧ P.2 = .ok () ∧
      idx.parBulkInsertPairs ps sched = ({ idx with bands := P.1, idSignatures := MinHashIndex.insertAllSignatures idx.idSignatures ps }, .ok ()))
    ∨ (accepts (b * r) (.parBulkInsertPairs ps sched : Op T Id) = false ∧ ∃ e,
      idx.parBulkInsertPairs ps sched = ({ idx with bands := P.1 }, .error e)) := by
  intro P
  have hP : idx.parBulkInsertPairs ps sched = match P with
    | (bands, .ok ()) =>
        ({ idx with bands := bands, idSignatures := MinHashIndex.insertAllSignatures idx.idSignatures ps }, .ok ())
    | (bands, .error e) => ({ idx with bands := bands }, .error e) := rfl
  have c3 := (bulk_core (fun p : Id × List T => p) ps sched I).2.2.1
  have hacc : accepts (b * r) (.parBulkInsertPairs ps sched : Op T Id) = true ↔ P.2 = .ok () := by
    rw [c3]; simp [accepts]
  rw [hP]
  cases hres : P.2 with
  | ok u =>
    left
    refine ⟨hacc.mpr hres, rfl, ?_⟩
    obtain ⟨bands, res⟩ := P
    simp only at hres; subst hres; rfl
  | error e =>
    right
    refine ⟨?_, e, ?_⟩
    · rw [← Bool.not_eq_true, hacc, hres]; simp
    · obtain ⟨bands, res⟩ := P
      simp only at hres; subst hres; rfl

theorem inv_pairs {h : List T → UInt64} {b r : Nat} {t : Fl} {L : Id → Option (List T)}
    {idx : MinHashIndex T Id C} (I : Inv h b r t L idx) (ps : List (Id × List T)) (sched : List Nat) :
    Inv h b r t (applyL (b * r) L (.parBulkInsertPairs ps sched)) (idx.parBulkInsertPairs ps sched).1 := by
  rcases pairs_eq I ps sched with ⟨ha, hok, e⟩ | ⟨ha, er, e⟩
  · rw [e]
    refine inv_bulk (fun p : Id × List T => p) ps sched I ps (fun p hp => ⟨p, hp, rfl⟩) ?_ hok
    intro x
    simp only [applyL, touch, ha, if_true]
    cases lastPair ps x <;> rfl
  · rw [e]
    have hL : applyL (b * r) L (.parBulkInsertPairs ps sched) = L := by
      funext x; simp [applyL, touch, ha]
    rw [hL]
    exact inv_bulk_err (fun p : Id × List T => p) ps sched I

/-- Result of `par_bulk_insert`. -/
theorem bulk_eq {h : List T → UInt64} {b r : Nat} {t : Fl} {L : Id → Option (List T)}
    {idx : MinHashIndex T Id C} (I : Inv h b r t L idx) (ids : List Id) (sigs : List (List T))
    (sched : List Nat) :
    let P := parForEach (fun (band : Band T C) (a : List T × Id) => band.insert a.2 a.1) idx.bands
      (sigs.zip ids) sched
    (accepts (b * r) (.parBulkInsert ids sigs sched : Op T Id) = true ∧ P.2 = .ok () ∧
      idx.parBulkInsert ids sigs sched = ({ idx with bands := P.1, idSignatures := MinHashIndex.insertAllSignatures idx.idSignatures (ids.zip sigs) }, .ok ()))
    ∨ (accepts (b * r) (.parBulkInsert ids sigs sched : Op T Id) = false ∧ ∃ e,
      (idx.parBulkInsert ids sigs sched = ({ idx with bands := P.1 }, .error e) ∧
        ∀ s ∈ sigs.head?, s.length = b * r)
      ∨ (idx.parBulkInsert ids sigs sched = (idx, .error e) ∧ ¬ ∀ s ∈ sigs.head?, s.length = b * r)) := by
  intro P
  have c3 := (bulk_core (fun p : List T × Id => (p.2, p.1)) (sigs.zip ids) sched I).2.2.1
  have hhead : (match (generalizing := false) sigs with
    | [] => true
    | s :: _ => decide (idx.numHashes = s.length)) = (sigs.head?.all fun s => s.length = b * r) := by
    cases sigs with
    | nil => rfl
    | cons s _ => simp [I.hn, eq_comm]
  have hP : idx.parBulkInsert ids sigs sched =
      if (sigs.head?.all fun s => decide (s.length = b * r)) = true then match P with
    | (bands, .ok ()) =>
        ({ idx with bands := bands, idSignatures := MinHashIndex.insertAllSignatures idx.idSignatures (ids.zip sigs) }, .ok ())
    | (bands, .error e) => ({ idx with bands := bands }, .error e)
      else (idx, .error .assert) := by
    rw [← hhead]; rfl
  have hacc : accepts (b * r) (.parBulkInsert ids sigs sched : Op T Id) = true ↔
      (sigs.head?.all fun s => decide (s.length = b * r)) = true ∧ P.2 = .ok () := by
    rw [c3]; simp [accepts]
  rw [hP]
  by_cases hh : (sigs.head?.all fun s => decide (s.length = b * r)) = true
  · rw [if_pos hh]
    cases hres : P.2 with
    | ok u =>
      left
      refine ⟨hacc.mpr ⟨hh, hres⟩, rfl, ?_⟩
      obtain ⟨bands, res⟩ := P
      simp only at hres; subst hres; rfl
    | error e =>
      right
      refine ⟨?_, e, .inl ⟨?_, ?_⟩⟩
      · rw [← Bool.not_eq_true, hacc, hres]; simp
      · obtain ⟨bands, res⟩ := P
        simp only at hres; subst hres; rfl
      · intro s hs
        cases hd : sigs.head? with
        | none => rw [hd] at hs; cases hs
        | some s' => rw [hd] at hs hh; cases hs; simpa using hh
  · rw [if_neg hh]
    right
    refine ⟨?_, .assert, .inr ⟨rfl, ?_⟩⟩
    · rw [← Bool.not_eq_true, hacc]; exact fun h => hh h.1
    · intro hall
      apply hh
      cases hd : sigs.head? with
      | none => rfl
      | some s' => simpa using hall s' hd

theorem inv_parBulk {h : List T → UInt64} {b r : Nat} {t : Fl} {L : Id → Option (List T)}
    {idx : MinHashIndex T Id C} (I : Inv h b r t L idx) (ids : List Id) (sigs : List (List T))
    (sched : List Nat) :
    Inv h b r t (applyL (b * r) L (.parBulkInsert ids sigs sched)) (idx.parBulkInsert ids sigs sched).1 := by
  rcases bulk_eq I ids sigs sched with ⟨ha, hok, e⟩ | ⟨ha, er, e⟩
  · rw [e]
    refine inv_bulk (fun p : List T × Id => (p.2, p.1)) (sigs.zip ids) sched I (ids.zip sigs)
      (fun p hp => ⟨(p.2, p.1), mem_zip_comm.mp hp, rfl⟩) ?_ hok
    intro x
    simp only [applyL, touch, ha, if_true]
    cases lastPair (ids.zip sigs) x <;> rfl
  · have hL : applyL (b * r) L (.parBulkInsert ids sigs sched) = L := by
      funext x; simp [applyL, touch, ha]
    rw [hL]
    rcases e with ⟨e, _⟩ | ⟨e, _⟩
    · rw [e]; exact inv_bulk_err (fun p : List T × Id => (p.2, p.1)) (sigs.zip ids) sched I
    · rw [e]; exact I

/-! #### Removal -/

theorem remove_bands {h : List T → UInt64} {b r : Nat} {t : Fl} {L : Id → Option (List T)}
    {idx : MinHashIndex T Id C} (I : Inv h b r t L idx) (id : Id) (s : List T) (hs : L id = some s) :
    (forEachMut (fun band => band.remove id s) idx.bands).2 = .ok () := by
  apply forEachMut_ok
  intro bd hbd
  exact ⟨_, Band.remove_eq_ok ((all_fits_iff I.shapes s).mpr (I.long id s hs) bd hbd)⟩

theorem remove_some {h : List T → UInt64} {b r : Nat} {t : Fl} {L : Id → Option (List T)}
    {idx : MinHashIndex T Id C} (I : Inv h b r t L idx) (id : Id) (s : List T) (hs : L id = some s) :
    idx.remove id = ({ idx with
      bands := (forEachMut (fun band => band.remove id s) idx.bands).1,
      idSignatures := idx.idSignatures.erase id }, .ok (some s)) := by
  unfold MinHashIndex.remove
  rw [I.sigs, hs]
  simp only
  have := remove_bands I id s hs
  generalize forEachMut (fun band => band.remove id s) idx.bands = P at this
  obtain ⟨bands, res⟩ := P
  simp only at this
  subst this
  rfl

theorem remove_none {h : List T → UInt64} {b r : Nat} {t : Fl} {L : Id → Option (List T)}
    {idx : MinHashIndex T Id C} (I : Inv h b r t L idx) (id : Id) (hs : L id = none) :
    idx.remove id = (idx, .ok none) := by
  unfold MinHashIndex.remove
  rw [I.sigs, hs]

theorem inv_remove {h : List T → UInt64} {b r : Nat} {t : Fl} {L : Id → Option (List T)}
    {idx : MinHashIndex T Id C} (I : Inv h b r t L idx) (id : Id) :
    Inv h b r t (applyL (b * r) L (.remove id)) (idx.remove id).1 := by
  have hL : ∀ x, applyL (b * r) L (.remove id) x = if x = id then none else L x := by
    intro x
    simp only [applyL, touch]
    by_cases hx : id = x
    · subst hx; simp
    · simp [hx, Ne.symm hx]
  cases hs : L id with
  | none =>
    rw [remove_none I id hs]
    have : applyL (b * r) L (.remove id) = L := by
      funext x; rw [hL]; split_ifs with hx
      · subst hx; exact hs.symm
      · rfl
    rw [this]; exact I
  | some s =>
    rw [remove_some I id s hs]
    have hf := forEachMut_forall₂ _ _ (remove_bands I id s hs)
    refine ⟨(forall₂_shapes (fun x y e => Band.remove_shape e) hf).trans I.shapes, I.hb, I.hr, I.ht, I.hn, ?_,
      ?_, ?_⟩
    · intro x
      simp only [HMap.get?_erase, hL, I.sigs]
    · intro x s' hx
      rw [hL] at hx
      split_ifs at hx
      exact I.long x s' hx
    · intro band hb x s' hx
      obtain ⟨bd, hbd, e⟩ := forall₂_mem_right hf band hb
      rw [hL] at hx
      split_ifs at hx with hxi
      rw [Band.mem_bucket_remove_ne e _ hxi, Band.key_congr (Band.remove_shape e)]
      exact I.bucketed bd hbd x s' hx

/-- `bulk_remove` never panics; its state and result. -/
theorem bulkRemove_eq {h : List T → UInt64} {b r : Nat} {t : Fl} {L : Id → Option (List T)}
    {idx : MinHashIndex T Id C} (I : Inv h b r t L idx) (ids : List Id) (sched : List Nat) :
    let sigs := (MinHashIndex.takeSignatures idx.idSignatures ids).2
    let P := parForEach (fun (band : Band T C) (item : List T × Id) => band.remove item.2 item.1) idx.bands
      (sigs.zip ids) sched
    P.2 = .ok () ∧ idx.bulkRemove ids sched = ({ idx with bands := P.1, idSignatures := (MinHashIndex.takeSignatures idx.idSignatures ids).1 }, .ok sigs) := by
  intro sigs P
  have hok : P.2 = .ok () := by
    apply parForEach_returns
    intro bd hbd
    apply Band.foldlM_remove_ok (fun p : List T × Id => (p.2, p.1))
    intro p hp
    have h1 : p.1 ∈ sigs := (List.of_mem_zip (a := p.1) (b := p.2) hp).1
    obtain ⟨id, _, h2⟩ := take_mem _ _ _ h1
    rw [I.sigs] at h2
    exact (all_fits_iff I.shapes _).mpr (I.long id _ h2) bd hbd
  refine ⟨hok, ?_⟩
  unfold MinHashIndex.bulkRemove
  show (match P with
    | (bands, .ok ()) => _
    | (bands, .error e) => _) = _
  obtain ⟨bands, res⟩ := P
  simp only at hok
  subst hok
  rfl

theorem inv_bulkRemove {h : List T → UInt64} {b r : Nat} {t : Fl} {L : Id → Option (List T)}
    {idx : MinHashIndex T Id C} (I : Inv h b r t L idx) (ids : List Id) (sched : List Nat) :
    Inv h b r t (applyL (b * r) L (.bulkRemove ids sched)) (idx.bulkRemove ids sched).1 := by
  have hL : ∀ x, applyL (b * r) L (.bulkRemove ids sched) x = if x ∈ ids then none else L x := by
    intro x
    simp only [applyL, touch]
    by_cases hx : x ∈ ids <;> simp [hx]
  obtain ⟨hok, e⟩ := bulkRemove_eq I ids sched
  rw [e]
  have hf := parForEach_ok _ hok
  refine ⟨(forall₂_shapes (fun x y e => (Band.foldlM_remove (fun p : List T × Id => (p.2, p.1)) _ e).1) hf).trans
    I.shapes, I.hb, I.hr, I.ht, I.hn, ?_, ?_, ?_⟩
  · intro x
    simp only [take_get?, hL, I.sigs]
  · intro x s' hx
    rw [hL] at hx
    split_ifs at hx
    exact I.long x s' hx
  · intro band hb x s' hx
    obtain ⟨bd, hbd, e⟩ := forall₂_mem_right hf band hb
    rw [hL] at hx
    split_ifs at hx with hxi
    obtain ⟨e1, e2⟩ := Band.foldlM_remove (fun p : List T × Id => (p.2, p.1)) _ e
    rw [e2, Band.key_congr e1]
    · exact I.bucketed bd hbd x s' hx
    · rintro p hp rfl
      exact hxi (List.of_mem_zip (a := p.1) (b := p.2) hp).2

theorem inv_clear {h : List T → UInt64} {b r : Nat} {t : Fl} {L : Id → Option (List T)}
    {idx : MinHashIndex T Id C} (I : Inv h b r t L idx) :
    Inv h b r t (applyL (b * r) L .clear) idx.clear where
  shapes := by
    rw [← I.shapes]; simp [MinHashIndex.clear, Band.shape, Band.clear]
  hb := I.hb
  hr := I.hr
  ht := I.ht
  hn := I.hn
  sigs := fun _ => rfl
  long := by simp [applyL, touch]
  bucketed := by simp [applyL, touch]

/-- Shrinking: the state after the call differs only by rebuilt tables. -/
inductive Rehashed (idx : MinHashIndex T Id C) : MinHashIndex T Id C → Prop
  | mk (bands : List (Band T C)) (sigs : HMap Id (List T))
      (hb : List.Forall₂ (fun x y => y = x ∨ ∃ o, y = Band.rehash o x) idx.bands bands)
      (hs : sigs = idx.idSignatures ∨ ∃ o, sigs = idx.idSignatures.rehash o) :
      Rehashed idx { idx with bands := bands, idSignatures := sigs }

theorem shrinkToFit_rehashed (o : Order) (idx : MinHashIndex T Id C) :
    Rehashed idx (idx.shrinkToFit o).1 := by
  refine .mk _ _ ?_ (.inr ⟨o, rfl⟩)
  rw [List.forall₂_map_right_iff, List.forall₂_same]
  exact fun _ _ => .inr ⟨o, rfl⟩

theorem shrinkTo_rehashed (o : Order) (idx : MinHashIndex T Id C) (m c : Nat) (sched : List Nat) :
    Rehashed idx (idx.shrinkTo o m c sched).1 := by
  unfold MinHashIndex.shrinkTo
  split_ifs with hm
  · exact .mk _ _ (List.forall₂_same.mpr fun _ _ => .inl rfl) (.inl rfl)
  · have hp := parForEach_prefix (MinHashIndex.shrinkBand o idx.idSignatures.len) idx.bands [()] sched
    have hb : List.Forall₂ (fun x y => y = x ∨ ∃ o, y = Band.rehash o x) idx.bands
        (parForEach (MinHashIndex.shrinkBand o idx.idSignatures.len) idx.bands [()] sched).1 := by
      refine hp.imp ?_
      rintro x y ⟨pre, hpre, e⟩
      rcases pre with _ | ⟨u, pre⟩
      · left; cases e; rfl
      · have : pre = [] := by
          have := hpre.length_le
          simp at this; exact this
        subst this
        right
        refine ⟨o, ?_⟩
        have e' : MinHashIndex.shrinkBand o idx.idSignatures.len x u >>= (fun s => pure s) = .ok y := by
          simpa using e
        unfold MinHashIndex.shrinkBand at e'
        split_ifs at e'
        · cases e'; rfl
        · cases e'
    generalize parForEach (MinHashIndex.shrinkBand o idx.idSignatures.len) idx.bands [()] sched = P at hb
    obtain ⟨bands, res⟩ := P
    cases res with
    | ok u => exact .mk _ _ hb (.inr ⟨o, rfl⟩)
    | error e => exact .mk _ _ hb (.inl rfl)

theorem Rehashed.get? {idx idx' : MinHashIndex T Id C} (h : Rehashed idx idx') (id : Id) :
    idx'.idSignatures.get? id = idx.idSignatures.get? id := by
  rcases h with ⟨bands, sigs, hb, rfl | ⟨o, rfl⟩⟩
  · rfl
  · exact HMap.get?_rehash o _ id

theorem Rehashed.bands {idx idx' : MinHashIndex T Id C} (h : Rehashed idx idx') :
    List.Forall₂ (fun x y : Band T C => y.shape = x.shape ∧ ∀ k, y.hashTable.get? k = x.hashTable.get? k)
      idx.bands idx'.bands := by
  rcases h with ⟨bands, sigs, hb, _⟩
  refine hb.imp ?_
  rintro x y (rfl | ⟨o, rfl⟩)
  · exact ⟨rfl, fun _ => rfl⟩
  · exact ⟨rfl, fun k => HMap.get?_rehash o _ k⟩

theorem Rehashed.bucket {x y : Band T C} (h : ∀ k, y.hashTable.get? k = x.hashTable.get? k) (k : UInt64) :
    y.bucket k = x.bucket k := by
  unfold Band.bucket; rw [h]

theorem inv_rehashed {h : List T → UInt64} {b r : Nat} {t : Fl} {L : Id → Option (List T)}
    {idx idx' : MinHashIndex T Id C} (I : Inv h b r t L idx) (hr : Rehashed idx idx') : Inv h b r t L idx' := by
  have hg := hr.get?
  have hb := hr.bands
  refine ⟨(forall₂_shapes (fun x y e => e.1) hb).trans I.shapes, ?_, ?_, ?_, ?_,
    fun id => (hg id).trans (I.sigs id), I.long, ?_⟩
  · cases hr; exact I.hb
  · cases hr; exact I.hr
  · cases hr; exact I.ht
  · cases hr; exact I.hn
  · intro band hm id s hs
    obtain ⟨bd, hbd, e1, e2⟩ := forall₂_mem_right hb band hm
    rw [Rehashed.bucket e2, Band.key_congr e1]
    exact I.bucketed bd hbd id s hs

theorem inv_step {h : List T → UInt64} {b r : Nat} {t : Fl} {L : Id → Option (List T)}
    {idx : MinHashIndex T Id C} (I : Inv h b r t L idx) (op : Op T Id) :
    Inv h b r t (applyL (b * r) L op) (idx.step op).1 := by
  cases op with
  | insert id s => exact inv_insert I id s
  | parBulkInsert ids sigs sched => exact inv_parBulk I ids sigs sched
  | parBulkInsertPairs ps sched => exact inv_pairs I ps sched
  | remove id => exact inv_remove I id
  | bulkRemove ids sched => exact inv_bulkRemove I ids sched
  | clear => exact inv_clear I
  | shrinkToFit o =>
    have : applyL (b * r) L (.shrinkToFit o) = L := rfl
    rw [this]; exact inv_rehashed I (shrinkToFit_rehashed o idx)
  | shrinkTo m c o sched =>
    have : applyL (b * r) L (.shrinkTo m c o sched) = L := rfl
    rw [this]; exact inv_rehashed I (shrinkTo_rehashed o idx m c sched)

theorem run_snoc (idx : MinHashIndex T Id C) (ops : List (Op T Id)) (op : Op T Id) :
    idx.run (ops ++ [op]) = ((idx.run ops).step op).1 := by
  simp [MinHashIndex.run]

/-- The invariant holds after every history. -/
theorem inv_run (h : List T → UInt64) (b r : Nat) (t : Fl) (ops : List (Op T Id)) :
    Inv h b r t (live (b * r) ops) ((MinHashIndex.newIndex b r t h : MinHashIndex T Id C).run ops) := by
  induction ops using List.reverseRecOn with
  | nil => exact inv_new h b r t
  | append_singleton ops op ih =>
    rw [run_snoc, live_snoc]
    exact inv_step ih op

end
end Verif
