import Verif.Lemmas.IndexExact

/-! # Indexes with the same content are indistinguishable -/
set_option linter.unusedSectionVars false

namespace Verif
open Spec

/-! ### Relational lemmas for the loops -/

/-- Two computations that agree up to a relation on results. -/
def ExceptRel {α β : Type} (R : α → β → Prop) : Except Panic α → Except Panic β → Prop
  | .ok a, .ok b => R a b
  | .error e, .error e' => e = e'
  | _, _ => False

theorem forEachMut_rel {σ τ : Type} {R : σ → τ → Prop} {f : σ → Except Panic σ} {g : τ → Except Panic τ}
    (hf : ∀ x y, R x y → ExceptRel R (f x) (g y)) {l : List σ} {l' : List τ} (h : List.Forall₂ R l l') :
    List.Forall₂ R (forEachMut f l).1 (forEachMut g l').1 ∧ (forEachMut f l).2 = (forEachMut g l').2 := by
  induction h with
  | nil => exact ⟨.nil, rfl⟩
  | @cons x y l l' hxy hl ih =>
    have := hf x y hxy
    unfold forEachMut
    cases hx : f x with
    | error e =>
      cases hy : g y with
      | error e' => rw [hx, hy] at this; cases this; exact ⟨.cons hxy hl, rfl⟩
      | ok b => rw [hx, hy] at this; exact this.elim
    | ok a =>
      cases hy : g y with
      | error e' => rw [hx, hy] at this; exact this.elim
      | ok b => rw [hx, hy] at this; exact ⟨.cons this ih.1, ih.2⟩

/-- Related workers. -/
def WorkerRel {σ τ ω : Type} (R : σ → τ → Prop) (w : Worker σ ω) (v : Worker τ ω) : Prop :=
  R w.st v.st ∧ w.pending = v.pending ∧ w.dead = v.dead

section
variable {σ τ ω : Type} {R : σ → τ → Prop} {f : σ → ω → Except Panic σ} {g : τ → ω → Except Panic τ}

theorem WorkerRel.step (hf : ∀ x y op, R x y → ExceptRel R (f x op) (g y op)) {w : Worker σ ω}
    {v : Worker τ ω} (h : WorkerRel R w v) : WorkerRel R (w.step f) (v.step g) := by
  obtain ⟨ws, wp, wd⟩ := w
  obtain ⟨vs, vp, vd⟩ := v
  obtain ⟨h1, h2, h3⟩ := h
  simp only at h1 h2 h3
  subst h2 h3
  cases wd with
  | some e => exact ⟨h1, rfl, rfl⟩
  | none =>
    cases wp with
    | nil => exact ⟨h1, rfl, rfl⟩
    | cons op rest =>
      have := hf ws vs op h1
      unfold Worker.step
      simp only
      cases hx : f ws op with
      | error e =>
        cases hy : g vs op with
        | error e' => rw [hx, hy] at this; cases this; exact ⟨h1, rfl, rfl⟩
        | ok b => rw [hx, hy] at this; exact this.elim
      | ok a =>
        cases hy : g vs op with
        | error e' => rw [hx, hy] at this; exact this.elim
        | ok b => rw [hx, hy] at this; exact ⟨this, rfl, rfl⟩

theorem WorkerRel.finish (hf : ∀ x y op, R x y → ExceptRel R (f x op) (g y op)) {w : Worker σ ω}
    {v : Worker τ ω} (h : WorkerRel R w v) : WorkerRel R (w.finish f) (v.finish g) := by
  unfold Worker.finish
  rw [h.2.1]
  generalize v.pending = l
  induction l generalizing w v with
  | nil => exact h
  | cons x xs ih => exact ih (h.step hf)

theorem forall₂_modify {α β : Type} {S : α → β → Prop} {p : α → α} {q : β → β}
    (hpq : ∀ x y, S x y → S (p x) (q y)) {l : List α} {l' : List β} (h : List.Forall₂ S l l') (i : Nat) :
    List.Forall₂ S (l.modify i p) (l'.modify i q) := by
  induction h generalizing i with
  | nil => simp
  | @cons x y l l' hxy hl ih =>
    cases i with
    | zero => exact .cons (hpq _ _ hxy) hl
    | succ i => exact .cons hxy (ih i)

theorem firstPanic_rel {ws : List (Worker σ ω)} {vs : List (Worker τ ω)}
    (h : List.Forall₂ (WorkerRel R) ws vs) : firstPanic ws = firstPanic vs := by
  induction h with
  | nil => rfl
  | @cons w v _ _ h1 _ ih =>
    unfold firstPanic at ih ⊢
    rw [List.findSome?_cons, List.findSome?_cons, h1.2.2, ih]

theorem workers_st {ws : List (Worker σ ω)} {vs : List (Worker τ ω)}
    (h : List.Forall₂ (WorkerRel R) ws vs) : List.Forall₂ R (ws.map Worker.st) (vs.map Worker.st) := by
  induction h with
  | nil => exact .nil
  | cons h1 _ ih => exact .cons h1.1 ih

theorem parForEach_rel (hf : ∀ x y op, R x y → ExceptRel R (f x op) (g y op)) {l : List σ} {l' : List τ}
    (h : List.Forall₂ R l l') (ops : List ω) (sched : List Nat) :
    List.Forall₂ R (parForEach f l ops sched).1 (parForEach g l' ops sched).1 ∧
      (parForEach f l ops sched).2 = (parForEach g l' ops sched).2 := by
  have h1 : List.Forall₂ (WorkerRel R)
      (sched.foldl (fun ws i => ws.modify i (Worker.step f)) (l.map (Worker.mk · ops none)))
      (sched.foldl (fun ws i => ws.modify i (Worker.step g)) (l'.map (Worker.mk · ops none))) := by
    have h0 : List.Forall₂ (WorkerRel R) (l.map fun s => (Worker.mk s ops none : Worker σ ω))
        (l'.map fun s => (Worker.mk s ops none : Worker τ ω)) := by
      rw [List.forall₂_map_left_iff, List.forall₂_map_right_iff]
      exact h.imp fun x y hxy => ⟨hxy, rfl, rfl⟩
    generalize (l.map fun s => (Worker.mk s ops none : Worker σ ω)) = ws at h0
    generalize (l'.map fun s => (Worker.mk s ops none : Worker τ ω)) = vs at h0
    induction sched generalizing ws vs with
    | nil => exact h0
    | cons i sched ih => exact ih _ _ (forall₂_modify (fun x y hxy => hxy.step hf) h0 i)
  unfold parForEach
  simp only
  generalize sched.foldl (fun ws i => ws.modify i (Worker.step f)) (l.map (Worker.mk · ops none)) = ws at h1
  generalize sched.foldl (fun ws i => ws.modify i (Worker.step g)) (l'.map (Worker.mk · ops none)) = vs at h1
  rw [firstPanic_rel h1]
  cases hp : firstPanic vs with
  | some e => exact ⟨workers_st h1, rfl⟩
  | none =>
    simp only
    have h2 : List.Forall₂ (WorkerRel R) (ws.map (Worker.finish f)) (vs.map (Worker.finish g)) := by
      rw [List.forall₂_map_left_iff, List.forall₂_map_right_iff]
      exact h1.imp fun x y hxy => hxy.finish hf
    rw [firstPanic_rel h2]
    cases hp2 : firstPanic (vs.map (Worker.finish g)) with
    | some e => exact ⟨workers_st h2, rfl⟩
    | none => exact ⟨workers_st h2, rfl⟩

end

/-! ### Same content -/

section
variable {T Id C : Type} [DecidableEq T] [DecidableEq Id] [IdContainer C Id]

/-- Two bands with the same content. -/
def Band.Same (x y : Band T C) : Prop :=
  x.shape = y.shape ∧ ∀ k, x.hashTable.get? k = y.hashTable.get? k

/-- Two indexes with the same content. -/
structure MinHashIndex.Same (x y : MinHashIndex T Id C) : Prop where
  bands : List.Forall₂ Band.Same x.bands y.bands
  sigs : ∀ id, x.idSignatures.get? id = y.idSignatures.get? id
  threshold : x.threshold = y.threshold
  r : x.r = y.r
  b : x.b = y.b
  numHashes : x.numHashes = y.numHashes

theorem Band.Same.refl (x : Band T C) : Band.Same x x := ⟨rfl, fun _ => rfl⟩

theorem MinHashIndex.Same.refl (x : MinHashIndex T Id C) : x.Same x :=
  ⟨List.forall₂_same.mpr fun b _ => Band.Same.refl b, fun _ => rfl, rfl, rfl, rfl, rfl⟩

theorem Rehashed.same {x y : MinHashIndex T Id C} [LawfulIdContainer C Id] (h : Rehashed x y) : y.Same x := by
  have hb := h.bands
  have hg := h.get?
  cases h
  exact ⟨hb.flip.imp fun _ _ e => e, hg, rfl, rfl, rfl, rfl⟩

theorem Band.Same.keyOf {x y : Band T C} (h : Band.Same x y) (s : List T) : x.keyOf s = y.keyOf s := by
  have h1 := h.1
  simp only [Band.shape, Prod.mk.injEq] at h1
  unfold Band.keyOf
  rw [h1.1, h1.2.1, h1.2.2]

theorem Band.Same.insert {x y : Band T C} (h : Band.Same x y) (id : Id) (s : List T) :
    ExceptRel Band.Same (x.insert id s) (y.insert id s) := by
  unfold Band.insert
  rw [h.keyOf]
  cases hk : y.keyOf s with
  | error e => rfl
  | ok k =>
    refine ⟨h.1, fun k' => ?_⟩
    simp only [HMap.get?_upsert, h.2]

theorem Band.Same.remove {x y : Band T C} (h : Band.Same x y) (id : Id) (s : List T) :
    ExceptRel Band.Same (x.remove id s) (y.remove id s) := by
  unfold Band.remove
  rw [h.keyOf]
  cases hk : y.keyOf s with
  | error e => rfl
  | ok k =>
    show ExceptRel Band.Same (match x.hashTable.get? k with | some ids => _ | none => _)
      (match y.hashTable.get? k with | some ids => _ | none => _)
    rw [h.2 k]
    cases y.hashTable.get? k with
    | none => exact h
    | some ids =>
      simp only
      split_ifs
      · refine ⟨h.1, fun k' => ?_⟩
        simp only [HMap.get?_erase, h.2]
      · refine ⟨h.1, fun k' => ?_⟩
        simp only [HMap.get?_insert, h.2]

theorem Band.Same.query {x y : Band T C} (h : Band.Same x y) (q : List T) (m : HSet Id) :
    x.query q m = y.query q m := by
  unfold Band.query
  rw [h.keyOf]
  simp only [h.2]

theorem Band.Same.queryToOwned {x y : Band T C} (h : Band.Same x y) (q : List T) (m : HSet Id) :
    x.queryToOwned q m = y.queryToOwned q m := by
  unfold Band.queryToOwned
  rw [h.keyOf]
  simp only [h.2]

namespace MinHashIndex
variable {x y : MinHashIndex T Id C}

theorem foldlM_rel {α β : Type} {S : α → β → Prop} {σ : Type} {f : σ → α → Except Panic σ}
    {g : σ → β → Except Panic σ} (hfg : ∀ s a b, S a b → f s a = g s b) {l : List α} {l' : List β}
    (h : List.Forall₂ S l l') (s : σ) : l.foldlM f s = l'.foldlM g s := by
  induction h generalizing s with
  | nil => rfl
  | cons h1 _ ih =>
    rw [List.foldlM_cons, List.foldlM_cons, hfg _ _ _ h1]
    congr 1
    funext s'
    exact ih s'

theorem Same.candidates (h : x.Same y) (q : List T) : x.candidates q = y.candidates q :=
  foldlM_rel (fun s _ _ hab => hab.query q s) h.bands _

theorem Same.candidatesOwned (h : x.Same y) (q : List T) : x.candidatesOwned q = y.candidatesOwned q :=
  foldlM_rel (fun s _ _ hab => hab.queryToOwned q s) h.bands _

theorem Same.keeps (h : x.Same y) (q : List T) : x.keeps q = y.keeps q := by
  funext id
  unfold MinHashIndex.keeps
  rw [h.sigs, h.threshold]

theorem Same.query (h : x.Same y) (q : List T) : x.query q = y.query q := by
  unfold MinHashIndex.query
  rw [h.numHashes, h.candidates, h.keeps]

theorem Same.queryOwned (h : x.Same y) (q : List T) : x.queryOwned q = y.queryOwned q := by
  unfold MinHashIndex.queryOwned
  rw [h.numHashes, h.candidatesOwned, h.keeps]

theorem Same.queryById (h : x.Same y) (id : Id) : x.queryById id = y.queryById id := by
  unfold MinHashIndex.queryById
  rw [h.sigs]
  cases y.idSignatures.get? id with
  | none => rfl
  | some s => exact h.query s

theorem Same.oneCandidates (h : x.Same y) (q : List T) : x.oneCandidates q = y.oneCandidates q := by
  funext l
  unfold MinHashIndex.oneCandidates
  simp only [h.sigs, h.threshold]

theorem Same.queryOne (h : x.Same y) (o : Order) (q : List T) : x.queryOne o q = y.queryOne o q := by
  unfold MinHashIndex.queryOne
  rw [h.numHashes, h.candidates, h.oneCandidates]

theorem Same.signatureAt (h : x.Same y) : x.signatureAt = y.signatureAt := by
  funext id
  unfold MinHashIndex.signatureAt
  rw [h.sigs]

theorem Same.similarEntry (h : x.Same y) (q : List T) : x.similarEntry q = y.similarEntry q := by
  funext id
  unfold MinHashIndex.similarEntry
  rw [h.signatureAt, h.threshold]

theorem Same.retSim (h : x.Same y) (o1 o2 : Order) (q : List T) :
    x.queryOwnedReturnSimilarity o1 o2 q = y.queryOwnedReturnSimilarity o1 o2 q := by
  unfold MinHashIndex.queryOwnedReturnSimilarity
  rw [h.candidatesOwned, h.similarEntry]

theorem Same.distanceEntry (h : x.Same y) (q : List T) : x.distanceEntry q = y.distanceEntry q := by
  funext id
  unfold MinHashIndex.distanceEntry
  rw [h.signatureAt]

theorem Same.topK (h : x.Same y) (o1 o2 : Order) (q : List T) (k : Nat) :
    x.queryTopK o1 o2 q k = y.queryTopK o1 o2 q k := by
  unfold MinHashIndex.queryTopK
  rw [h.candidatesOwned, h.distanceEntry]

theorem Same.size (h : x.Same y) : x.size = y.size := HMap.len_congr h.sigs

theorem Same.bandSizes (h : x.Same y) : x.bandSizes = y.bandSizes := by
  have : (x.bands.map fun band => band.hashTable.len) = y.bands.map fun band => band.hashTable.len := by
    have hb := h.bands
    clear h
    generalize x.bands = l at hb
    generalize y.bands = l' at hb
    induction hb with
    | nil => rfl
    | cons h1 _ ih => simp [ih, HMap.len_congr h1.2]
  unfold MinHashIndex.bandSizes
  rw [this]

theorem Same.takeSignatures {m m' : HMap Id (List T)} (h : ∀ id, m.get? id = m'.get? id) (ids : List Id) :
    (∀ id, (takeSignatures m ids).1.get? id = (takeSignatures m' ids).1.get? id) ∧
      (takeSignatures m ids).2 = (takeSignatures m' ids).2 := by
  induction ids generalizing m m' with
  | nil => exact ⟨h, rfl⟩
  | cons a ids ih =>
    unfold MinHashIndex.takeSignatures
    rw [h a]
    cases m'.get? a with
    | none => exact ih h
    | some s =>
      have := ih (m := m.erase a) (m' := m'.erase a) (fun id => by rw [HMap.get?_erase, HMap.get?_erase, h])
      exact ⟨this.1, by simp only [this.2]⟩

/-- The state components and results of a call are determined by the relation. -/
theorem Same.insert (h : x.Same y) (id : Id) (s : List T) :
    (x.insert id s).1.Same (y.insert id s).1 ∧ (x.insert id s).2 = (y.insert id s).2 := by
  unfold MinHashIndex.insert
  rw [h.numHashes]
  split_ifs
  · obtain ⟨h1, h2⟩ := forEachMut_rel (fun a b hab => hab.insert id s) h.bands
    generalize forEachMut (fun band => band.insert id s) x.bands = P at h1 h2
    generalize forEachMut (fun band => band.insert id s) y.bands = Q at h1 h2
    obtain ⟨pb, pr⟩ := P
    obtain ⟨qb, qr⟩ := Q
    simp only at h1 h2
    subst h2
    cases pr with
    | ok u =>
      refine ⟨⟨h1, fun id' => ?_, h.threshold, h.r, h.b, rfl⟩, rfl⟩
      simp only [HMap.get?_insert, h.sigs]
    | error e => exact ⟨⟨h1, h.sigs, h.threshold, h.r, h.b, rfl⟩, rfl⟩
  · exact ⟨h, rfl⟩

theorem Same.parBulkInsertPairs (h : x.Same y) (ps : List (Id × List T)) (sched : List Nat) :
    (x.parBulkInsertPairs ps sched).1.Same (y.parBulkInsertPairs ps sched).1 ∧
      (x.parBulkInsertPairs ps sched).2 = (y.parBulkInsertPairs ps sched).2 := by
  unfold MinHashIndex.parBulkInsertPairs
  obtain ⟨h1, h2⟩ := parForEach_rel (f := fun (band : Band T C) (item : Id × List T) => band.insert item.1 item.2)
    (fun a b op hab => hab.insert op.1 op.2) h.bands ps sched
  generalize parForEach _ x.bands ps sched = P at h1 h2
  generalize parForEach _ y.bands ps sched = Q at h1 h2
  obtain ⟨pb, pr⟩ := P
  obtain ⟨qb, qr⟩ := Q
  simp only at h1 h2
  subst h2
  cases pr with
  | ok u =>
    refine ⟨⟨h1, fun id' => ?_, h.threshold, h.r, h.b, h.numHashes⟩, rfl⟩
    simp only [get?_insertAll, h.sigs]
  | error e => exact ⟨⟨h1, h.sigs, h.threshold, h.r, h.b, h.numHashes⟩, rfl⟩

theorem Same.parBulkInsert (h : x.Same y) (ids : List Id) (sigs : List (List T)) (sched : List Nat) :
    (x.parBulkInsert ids sigs sched).1.Same (y.parBulkInsert ids sigs sched).1 ∧
      (x.parBulkInsert ids sigs sched).2 = (y.parBulkInsert ids sigs sched).2 := by
  unfold MinHashIndex.parBulkInsert
  simp only [h.numHashes]
  split_ifs
  · obtain ⟨h1, h2⟩ := parForEach_rel
      (f := fun (band : Band T C) (item : List T × Id) => band.insert item.2 item.1)
      (fun a b op hab => hab.insert op.2 op.1) h.bands (sigs.zip ids) sched
    generalize parForEach _ x.bands (sigs.zip ids) sched = P at h1 h2
    generalize parForEach _ y.bands (sigs.zip ids) sched = Q at h1 h2
    obtain ⟨pb, pr⟩ := P
    obtain ⟨qb, qr⟩ := Q
    simp only at h1 h2
    subst h2
    cases pr with
    | ok u =>
      refine ⟨⟨h1, fun id' => ?_, h.threshold, h.r, h.b, rfl⟩, rfl⟩
      simp only [get?_insertAll, h.sigs]
    | error e => exact ⟨⟨h1, h.sigs, h.threshold, h.r, h.b, rfl⟩, rfl⟩
  · exact ⟨h, rfl⟩

theorem Same.remove (h : x.Same y) (id : Id) :
    (x.remove id).1.Same (y.remove id).1 ∧ (x.remove id).2 = (y.remove id).2 := by
  unfold MinHashIndex.remove
  rw [h.sigs]
  cases y.idSignatures.get? id with
  | none => exact ⟨h, rfl⟩
  | some s =>
    simp only
    obtain ⟨h1, h2⟩ := forEachMut_rel (fun a b hab => hab.remove id s) h.bands
    generalize forEachMut (fun band => band.remove id s) x.bands = P at h1 h2
    generalize forEachMut (fun band => band.remove id s) y.bands = Q at h1 h2
    obtain ⟨pb, pr⟩ := P
    obtain ⟨qb, qr⟩ := Q
    simp only at h1 h2
    subst h2
    have hs : ∀ id', (x.idSignatures.erase id).get? id' = (y.idSignatures.erase id).get? id' := fun id' => by
      rw [HMap.get?_erase, HMap.get?_erase, h.sigs]
    cases pr with
    | ok u => exact ⟨⟨h1, hs, h.threshold, h.r, h.b, h.numHashes⟩, rfl⟩
    | error e => exact ⟨⟨h1, hs, h.threshold, h.r, h.b, h.numHashes⟩, rfl⟩

theorem Same.bulkRemove (h : x.Same y) (ids : List Id) (sched : List Nat) :
    (x.bulkRemove ids sched).1.Same (y.bulkRemove ids sched).1 ∧
      (x.bulkRemove ids sched).2 = (y.bulkRemove ids sched).2 := by
  unfold MinHashIndex.bulkRemove
  obtain ⟨t1, t2⟩ := Same.takeSignatures h.sigs ids
  generalize MinHashIndex.takeSignatures x.idSignatures ids = U at t1 t2
  generalize MinHashIndex.takeSignatures y.idSignatures ids = V at t1 t2
  obtain ⟨um, us⟩ := U
  obtain ⟨vm, vs⟩ := V
  simp only at t1 t2
  subst t2
  simp only
  obtain ⟨h1, h2⟩ := parForEach_rel
    (f := fun (band : Band T C) (item : List T × Id) => band.remove item.2 item.1)
    (fun a b op hab => hab.remove op.2 op.1) h.bands (us.zip ids) sched
  generalize parForEach _ x.bands (us.zip ids) sched = P at h1 h2
  generalize parForEach _ y.bands (us.zip ids) sched = Q at h1 h2
  obtain ⟨pb, pr⟩ := P
  obtain ⟨qb, qr⟩ := Q
  simp only at h1 h2
  subst h2
  cases pr with
  | ok u => exact ⟨⟨h1, t1, h.threshold, h.r, h.b, h.numHashes⟩, rfl⟩
  | error e => exact ⟨⟨h1, t1, h.threshold, h.r, h.b, h.numHashes⟩, rfl⟩

theorem Same.clear (h : x.Same y) : x.clear.Same y.clear := by
  refine ⟨?_, fun _ => rfl, h.threshold, h.r, h.b, h.numHashes⟩
  simp only [MinHashIndex.clear]
  rw [List.forall₂_map_left_iff, List.forall₂_map_right_iff]
  exact h.bands.imp fun a b hab => ⟨hab.1, fun _ => rfl⟩

theorem Same.shrinkToFit (h : x.Same y) (o : Order) :
    (x.shrinkToFit o).1.Same (y.shrinkToFit o).1 := by
  refine ⟨?_, fun id => ?_, h.threshold, h.r, h.b, h.numHashes⟩
  · simp only [MinHashIndex.shrinkToFit]
    rw [List.forall₂_map_left_iff, List.forall₂_map_right_iff]
    refine h.bands.imp fun a b hab => ⟨hab.1, fun k => ?_⟩
    simp only [Band.rehash, HMap.get?_rehash, hab.2]
  · simp only [MinHashIndex.shrinkToFit, HMap.get?_rehash, h.sigs]

theorem Same.shrinkTo (h : x.Same y) (o : Order) (m c : Nat) (sched : List Nat) :
    (x.shrinkTo o m c sched).1.Same (y.shrinkTo o m c sched).1 ∧
      (x.shrinkTo o m c sched).2 = (y.shrinkTo o m c sched).2 := by
  unfold MinHashIndex.shrinkTo
  split_ifs
  · exact ⟨h, rfl⟩
  · have hl : x.idSignatures.len = y.idSignatures.len := HMap.len_congr h.sigs
    rw [hl]
    obtain ⟨h1, h2⟩ := parForEach_rel (R := Band.Same) (f := shrinkBand (T := T) (C := C) o y.idSignatures.len)
      (g := shrinkBand (T := T) (C := C) o y.idSignatures.len) (fun a b op hab => by
        unfold shrinkBand
        rw [HMap.len_congr hab.2]
        split_ifs
        · exact ⟨hab.1, fun k => by simp only [Band.rehash, HMap.get?_rehash, hab.2]⟩
        · rfl) h.bands [()] sched
    generalize parForEach _ x.bands [()] sched = P at h1 h2
    generalize parForEach _ y.bands [()] sched = Q at h1 h2
    obtain ⟨pb, pr⟩ := P
    obtain ⟨qb, qr⟩ := Q
    simp only at h1 h2
    subst h2
    cases pr with
    | ok u =>
      refine ⟨⟨h1, fun id' => ?_, h.threshold, h.r, h.b, h.numHashes⟩, rfl⟩
      simp only [HMap.get?_rehash, h.sigs]
    | error e => exact ⟨⟨h1, h.sigs, h.threshold, h.r, h.b, h.numHashes⟩, rfl⟩

theorem Same.step (h : x.Same y) (op : Op T Id) :
    (x.step op).1.Same (y.step op).1 ∧ (x.step op).2 = (y.step op).2 := by
  cases op with
  | insert id s => exact h.insert id s
  | parBulkInsert ids sigs sched => exact h.parBulkInsert ids sigs sched
  | parBulkInsertPairs ps sched => exact h.parBulkInsertPairs ps sched
  | remove id => exact ⟨(h.remove id).1, by simp only [MinHashIndex.step]; rw [(h.remove id).2]⟩
  | bulkRemove ids sched =>
    exact ⟨(h.bulkRemove ids sched).1, by simp only [MinHashIndex.step]; rw [(h.bulkRemove ids sched).2]⟩
  | clear => exact ⟨h.clear, rfl⟩
  | shrinkToFit o => exact ⟨h.shrinkToFit o, rfl⟩
  | shrinkTo m c o sched => exact h.shrinkTo o m c sched

theorem Same.run (h : x.Same y) (ops : List (Op T Id)) : (x.run ops).Same (y.run ops) := by
  induction ops generalizing x y with
  | nil => exact h
  | cons op ops ih => exact ih (h.step op).1

end MinHashIndex
end
end Verif
