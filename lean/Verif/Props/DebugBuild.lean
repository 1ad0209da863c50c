import Verif.Model.Debug
import Verif.Props.HistoryFree
import Verif.Props.SimHashIndex

/-! # Property C126: debug builds and release builds of the indexes -/
set_option linter.unusedSectionVars false
namespace Verif.Props
open Verif.Spec

variable {T Id : Type} [DecidableEq T] [DecidableEq Id]
variable {C : Type} [IdContainer C Id] [LawfulIdContainer C Id]

/-- No band of the signature has the key 0. -/
def NoZeroKey (b r : Nat) (h : List T → UInt64) (s : List T) : Prop := ∀ i < b, h (bandOf r s i) ≠ 0

/-! ## Bands -/

/-- A band of the shape that a new index gives its bands. -/
def Shaped (b r : Nat) (h : List T → UInt64) (band : Band T C) : Prop :=
  ∃ i < b, band.shape = (i * r, (i + 1) * r, h)

theorem Shaped.key_pos {b r : Nat} {h : List T → UInt64} {band : Band T C} (H : Shaped b r h band) {s : List T}
    (hs : NoZeroKey b r h s) {k : UInt64} (hk : band.keyOf s = .ok k) : k > 0 := by
  obtain ⟨i, hi, e⟩ := H
  rw [Band.keyOf_ok_iff] at hk
  rw [hk.2, key_of_shape e]
  exact UInt64.pos_iff_ne_zero.mpr (hs i hi)

theorem Shaped.insertDebug {b r : Nat} {h : List T → UInt64} {band : Band T C} (H : Shaped b r h band) {s : List T}
    (hs : NoZeroKey b r h s) (id : Id) : band.insertDebug id s = band.insert id s := by
  unfold Band.insertDebug
  cases hk : band.keyOf s with
  | error e => unfold Band.insert; rw [hk]; rfl
  | ok k =>
    show (Band.finishDebug k >>= fun _ => band.insert id s) = _
    rw [Band.finishDebug, if_pos (H.key_pos hs hk)]; rfl

theorem Shaped.lookupDebug {b r : Nat} {h : List T → UInt64} {band : Band T C} (H : Shaped b r h band) {s : List T}
    (hs : NoZeroKey b r h s) {k : UInt64} (hk : band.keyOf s = .ok k) : band.lookupDebug k = .ok () := by
  unfold Band.lookupDebug Band.finishDebug
  rw [if_pos (H.key_pos hs hk)]
  split <;> rfl

theorem Shaped.removeDebug {b r : Nat} {h : List T → UInt64} {band : Band T C} (H : Shaped b r h band) {s : List T}
    (hs : NoZeroKey b r h s) (id : Id) : band.removeDebug id s = band.remove id s := by
  unfold Band.removeDebug
  cases hk : band.keyOf s with
  | error e => unfold Band.remove; rw [hk]; rfl
  | ok k =>
    show (band.lookupDebug k >>= fun _ => band.remove id s) = _
    rw [H.lookupDebug hs hk]; rfl

theorem Shaped.queryDebug {b r : Nat} {h : List T → UInt64} {band : Band T C} (H : Shaped b r h band) {s : List T}
    (hs : NoZeroKey b r h s) (m : HSet Id) : band.queryDebug s m = band.query s m := by
  unfold Band.queryDebug
  cases hk : band.keyOf s with
  | error e => unfold Band.query; rw [hk]; rfl
  | ok k =>
    show (band.lookupDebug k >>= fun _ => band.query s m) = _
    rw [H.lookupDebug hs hk]; rfl

/-! ## Loops -/

theorem forEachMut_congr {σ : Type} {f g : σ → Except Panic σ} (l : List σ) (h : ∀ x ∈ l, f x = g x) :
    forEachMut f l = forEachMut g l := by
  induction l with
  | nil => rfl
  | cons x xs ih =>
    unfold forEachMut
    rw [h x (by simp), ih fun y hy => h y (by simp [hy])]

section
variable {σ ω : Type} {f g : σ → ω → Except Panic σ} {P : σ → Prop} {ops : List ω}

/-- A worker whose item satisfies the invariant and whose operations come from the list. -/
def WorkerIn (P : σ → Prop) (ops : List ω) (w : Worker σ ω) : Prop := P w.st ∧ ∀ op ∈ w.pending, op ∈ ops

theorem worker_step_congr (hfg : ∀ x op, P x → op ∈ ops → f x op = g x op)
    (hP : ∀ x op y, P x → op ∈ ops → g x op = .ok y → P y) {w : Worker σ ω} (hw : WorkerIn P ops w) :
    w.step f = w.step g ∧ WorkerIn P ops (w.step g) := by
  obtain ⟨st, pending, dead⟩ := w
  obtain ⟨h1, h2⟩ := hw
  simp only at h1 h2
  unfold Worker.step
  cases dead with
  | some e => exact ⟨rfl, h1, h2⟩
  | none =>
    cases pending with
    | nil => exact ⟨rfl, h1, h2⟩
    | cons op rest =>
      simp only
      rw [hfg st op h1 (h2 op (by simp))]
      refine ⟨rfl, ?_⟩
      cases hg : g st op with
      | error e => exact ⟨h1, h2⟩
      | ok y => exact ⟨hP st op y h1 (h2 op (by simp)) hg, fun o ho => h2 o (by simp [ho])⟩

theorem worker_finish_congr (hfg : ∀ x op, P x → op ∈ ops → f x op = g x op)
    (hP : ∀ x op y, P x → op ∈ ops → g x op = .ok y → P y) {w : Worker σ ω} (hw : WorkerIn P ops w) :
    w.finish f = w.finish g := by
  unfold Worker.finish
  generalize w.pending = l
  induction l generalizing w with
  | nil => rfl
  | cons a l ih =>
    rw [List.foldl_cons, List.foldl_cons, (worker_step_congr hfg hP hw).1]
    exact ih (worker_step_congr hfg hP hw).2

theorem sched_congr (hfg : ∀ x op, P x → op ∈ ops → f x op = g x op)
    (hP : ∀ x op y, P x → op ∈ ops → g x op = .ok y → P y) (sched : List Nat) (ws : List (Worker σ ω))
    (hws : ∀ w ∈ ws, WorkerIn P ops w) :
    sched.foldl (fun ws i => ws.modify i (Worker.step f)) ws = sched.foldl (fun ws i => ws.modify i (Worker.step g)) ws ∧
    ∀ w ∈ sched.foldl (fun ws i => ws.modify i (Worker.step g)) ws, WorkerIn P ops w := by
  induction sched generalizing ws with
  | nil => exact ⟨rfl, hws⟩
  | cons i sched ih =>
    rw [List.foldl_cons, List.foldl_cons]
    have e : ws.modify i (Worker.step f) = ws.modify i (Worker.step g) := by
      apply List.ext_getElem?
      intro j
      rw [List.getElem?_modify, List.getElem?_modify]
      cases hj : ws[j]? with
      | none => rfl
      | some w =>
        have hw := hws w (List.mem_of_getElem? hj)
        simp only [Option.map_eq_map, Option.map_some]
        split
        · rw [(worker_step_congr hfg hP hw).1]
        · rfl
    rw [e]
    refine ih _ fun w hw => ?_
    obtain ⟨j, hj⟩ := List.mem_iff_getElem?.mp hw
    rw [List.getElem?_modify] at hj
    cases hj' : ws[j]? with
    | none => rw [hj'] at hj; cases hj
    | some w' =>
      have hw' := hws w' (List.mem_of_getElem? hj')
      rw [hj'] at hj
      simp only [Option.map_eq_map, Option.map_some, Option.some.injEq] at hj
      split at hj
      · rw [← hj]; exact (worker_step_congr hfg hP hw').2
      · rw [← hj]; exact hw'

theorem parForEach_congr (hfg : ∀ x op, P x → op ∈ ops → f x op = g x op)
    (hP : ∀ x op y, P x → op ∈ ops → g x op = .ok y → P y) (items : List σ) (hi : ∀ x ∈ items, P x)
    (sched : List Nat) : parForEach f items ops sched = parForEach g items ops sched := by
  obtain ⟨e, hw⟩ := sched_congr hfg hP sched (items.map (Worker.mk · ops none)) (by
    intro w hw
    obtain ⟨x, hx, rfl⟩ := List.mem_map.mp hw
    exact ⟨hi x hx, fun _ h => h⟩)
  unfold parForEach
  simp only
  rw [e]
  have e2 : List.map (Worker.finish f) (sched.foldl (fun ws i => ws.modify i (Worker.step g)) (items.map (Worker.mk · ops none))) =
      List.map (Worker.finish g) (sched.foldl (fun ws i => ws.modify i (Worker.step g)) (items.map (Worker.mk · ops none))) :=
    List.map_congr_left fun w h => worker_finish_congr hfg hP (hw w h)
  rw [e2]

end

/-! ## The MinHash index -/

/-- A stored signature was passed to some call. -/
theorem live_mem {n : Nat} {ops : List (Op T Id)} :
    ∀ id s, live n ops id = some s → ∃ op ∈ ops, s ∈ sigsOf op := by
  induction ops using List.reverseRecOn with
  | nil => intro id s hs; cases hs
  | append_singleton ops op ih =>
    intro id s hs
    rw [live_snoc] at hs
    unfold applyL at hs
    cases ht : touch n id op with
    | none =>
      rw [ht] at hs
      obtain ⟨o, h1, h2⟩ := ih id s hs
      exact ⟨o, by simp [h1], h2⟩
    | some v =>
      rw [ht] at hs
      simp only at hs
      subst hs
      refine ⟨op, by simp, ?_⟩
      cases op with
      | insert id' s' =>
        simp only [touch] at ht
        split_ifs at ht with hc
        cases ht; simp [sigsOf]
      | parBulkInsert ids sigs sched =>
        simp only [touch] at ht
        split_ifs at ht with hc
        cases hl : lastPair (ids.zip sigs) id with
        | none => rw [hl] at ht; cases ht
        | some s' =>
          rw [hl] at ht; cases ht
          have := (List.of_mem_zip (lastPair_mem hl)).2
          simpa [sigsOf] using this
      | parBulkInsertPairs ps sched =>
        simp only [touch] at ht
        split_ifs at ht with hc
        cases hl : lastPair ps id with
        | none => rw [hl] at ht; cases ht
        | some s' =>
          rw [hl] at ht; cases ht
          simpa [sigsOf] using ⟨_, lastPair_mem hl⟩
      | remove id' => simp only [touch] at ht; split_ifs at ht; cases ht
      | bulkRemove ids sched => simp only [touch] at ht; split_ifs at ht; cases ht
      | clear => cases ht
      | shrinkToFit _ => cases ht
      | shrinkTo _ _ _ _ => cases ht

section
variable {b r : Nat} {t : Fl} {h : List T → UInt64}

theorem shaped_of_inv {L : Id → Option (List T)} {idx : MinHashIndex T Id C} (I : Inv h b r t L idx) :
    ∀ band ∈ idx.bands, Shaped b r h band := fun _ hb => Inv.band_shape I.shapes hb

theorem Shaped.of_shape {band band' : Band T C} (H : Shaped b r h band) (e : band'.shape = band.shape) :
    Shaped b r h band' := by
  obtain ⟨i, hi, e'⟩ := H
  exact ⟨i, hi, e.trans e'⟩

/-- One call. -/
theorem stepDebug_eq {L : Id → Option (List T)} {idx : MinHashIndex T Id C} (I : Inv h b r t L idx)
    (hL : ∀ id s, L id = some s → NoZeroKey b r h s) (op : Op T Id) (hop : ∀ s ∈ sigsOf op, NoZeroKey b r h s) :
    idx.stepDebug op = idx.step op := by
  have hS := shaped_of_inv I
  cases op with
  | insert id s =>
    show idx.insertDebug id s = idx.insert id s
    unfold MinHashIndex.insertDebug MinHashIndex.insert
    rw [forEachMut_congr idx.bands fun band hb => (hS band hb).insertDebug (hop s (by simp [sigsOf])) id]
    rfl
  | parBulkInsert ids sigs sched =>
    show idx.parBulkInsertDebug ids sigs sched = idx.parBulkInsert ids sigs sched
    unfold MinHashIndex.parBulkInsertDebug MinHashIndex.parBulkInsert
    rw [parForEach_congr (P := Shaped b r h) (g := fun band (item : List T × Id) => band.insert item.2 item.1)
      (fun x op H ho => H.insertDebug (hop _ (by simpa [sigsOf] using (List.of_mem_zip ho).1)) _)
      (fun x op y H _ e => H.of_shape (Band.insert_shape e)) idx.bands hS]
    rfl
  | parBulkInsertPairs ps sched =>
    show idx.parBulkInsertPairsDebug ps sched = idx.parBulkInsertPairs ps sched
    unfold MinHashIndex.parBulkInsertPairsDebug MinHashIndex.parBulkInsertPairs
    rw [parForEach_congr (P := Shaped b r h) (g := fun band (item : Id × List T) => band.insert item.1 item.2)
      (fun x op H ho => H.insertDebug (hop _ (by simpa [sigsOf] using ⟨_, ho⟩)) _)
      (fun x op y H _ e => H.of_shape (Band.insert_shape e)) idx.bands hS]
    rfl
  | remove id =>
    have e : idx.removeDebug id = idx.remove id := by
      unfold MinHashIndex.removeDebug MinHashIndex.remove
      cases hg : idx.idSignatures.get? id with
      | none => rfl
      | some s =>
        simp only
        rw [forEachMut_congr idx.bands fun band hb => (hS band hb).removeDebug (hL id s (by rw [← I.sigs]; exact hg)) id]
        rfl
    show ((idx.removeDebug id).1, (idx.removeDebug id).2.map fun _ => ()) = _
    rw [e]; rfl
  | bulkRemove ids sched =>
    have e : idx.bulkRemoveDebug ids sched = idx.bulkRemove ids sched := by
      unfold MinHashIndex.bulkRemoveDebug MinHashIndex.bulkRemove
      simp only
      rw [parForEach_congr (P := Shaped b r h) (g := fun band (item : List T × Id) => band.remove item.2 item.1)
        (fun x op H ho => H.removeDebug (by
          obtain ⟨id, _, hid⟩ := take_mem _ _ _ (List.of_mem_zip ho).1
          exact hL id _ (by rw [← I.sigs]; exact hid)) _)
        (fun x op y H _ e => H.of_shape (Band.remove_shape e)) idx.bands hS]
      rfl
    show ((idx.bulkRemoveDebug ids sched).1, (idx.bulkRemoveDebug ids sched).2.map fun _ => ()) = _
    rw [e]; rfl
  | clear => rfl
  | shrinkToFit _ => rfl
  | shrinkTo _ _ _ _ => rfl

/-- C126: if no band of a signature passed to the calls has the key 0, every call of the history leaves the same state in a
debug build. -/
theorem C126_run_partial (C : Type) [IdContainer C Id] [LawfulIdContainer C Id] (b r : Nat) (t : Fl)
    (h : List T → UInt64) (ops : List (Op T Id)) (hb : b * r < 2 ^ 64)
    (hz : ∀ op ∈ ops, ∀ s ∈ sigsOf op, NoZeroKey b r h s) :
    ∃ idx : MinHashIndex T Id C, MinHashIndex.newIndexDebug b r t h = .ok idx ∧
      idx.runDebug ops = After C b r t h ops := by
  refine ⟨MinHashIndex.newIndex b r t h, if_pos hb, ?_⟩
  induction ops using List.reverseRecOn with
  | nil => rfl
  | append_singleton ops op ih =>
    have ih := ih fun o ho => hz o (by simp [ho])
    unfold MinHashIndex.runDebug at ih ⊢
    rw [List.foldl_append, List.foldl_cons, List.foldl_nil, ih]
    have I := inv_run (C := C) h b r t ops
    have e := stepDebug_eq I (fun id s hL => by
      obtain ⟨o, h1, h2⟩ := live_mem id s hL
      exact hz o (by simp [h1]) s h2) op (hz op (by simp))
    show ((After C b r t h ops).stepDebug op).1 = _
    rw [e]
    unfold After MinHashIndex.run
    rw [List.foldl_append]; rfl

/-- C126: and every call panics or returns alike. -/
theorem C126_call_partial (C : Type) [IdContainer C Id] [LawfulIdContainer C Id] (b r : Nat) (t : Fl)
    (h : List T → UInt64) (ops : List (Op T Id)) (op : Op T Id)
    (hz : ∀ o ∈ ops ++ [op], ∀ s ∈ sigsOf o, NoZeroKey b r h s) :
    (After C b r t h ops).stepDebug op = (After C b r t h ops).step op :=
  stepDebug_eq (inv_run (C := C) h b r t ops) (fun id s hL => by
    obtain ⟨o, h1, h2⟩ := live_mem id s hL
    exact hz o (by simp [h1]) s h2) op (hz op (by simp))

/-- C126: queries whose bands do not have the key 0 are answered alike, after every history. -/
theorem C126_query_partial (b r : Nat) (t : Fl) (h : List T → UInt64) (ops : List (Op T Id)) (q : List T)
    (hq : NoZeroKey b r h q) :
    (After C b r t h ops).queryDebug q = (After C b r t h ops).query q ∧
    (After C b r t h ops).queryDebug q = (After C b r t h ops).queryOwned q ∧
    (∀ o, (After C b r t h ops).queryOneDebug o q = (After C b r t h ops).queryOne o q) ∧
    (∀ o1 o2, (After C b r t h ops).queryOwnedReturnSimilarityDebug o1 o2 q =
      (After C b r t h ops).queryOwnedReturnSimilarity o1 o2 q) ∧
    ∀ o1 o2 k, (After C b r t h ops).queryTopKDebug o1 o2 q k = (After C b r t h ops).queryTopK o1 o2 q k := by
  have hS := shaped_of_inv (inv_run (C := C) h b r t ops)
  have e : (After C b r t h ops).candidatesDebug q = (After C b r t h ops).candidates q := by
    unfold MinHashIndex.candidatesDebug MinHashIndex.candidates
    have hS' : ∀ band ∈ (After C b r t h ops).bands, Shaped b r h band := hS
    generalize (HSet.empty : HSet Id) = m
    generalize (After C b r t h ops).bands = bands at hS'
    induction bands generalizing m with
    | nil => rfl
    | cons x xs ih =>
      rw [List.foldlM_cons, List.foldlM_cons, (hS' x (by simp)).queryDebug hq]
      congr 1
      funext m'
      exact ih m' fun y hy => hS' y (by simp [hy])
  have e' : (After C b r t h ops).candidatesDebug q = (After C b r t h ops).candidatesOwned q := e
  refine ⟨?_, ?_, fun o => ?_, fun o1 o2 => ?_, fun o1 o2 k => ?_⟩
  · unfold MinHashIndex.queryDebug MinHashIndex.query; rw [e]
  · unfold MinHashIndex.queryDebug MinHashIndex.queryOwned; rw [e']
  · unfold MinHashIndex.queryOneDebug MinHashIndex.queryOne; rw [e]
  · unfold MinHashIndex.queryOwnedReturnSimilarityDebug MinHashIndex.queryOwnedReturnSimilarity; rw [e']
  · unfold MinHashIndex.queryTopKDebug MinHashIndex.queryTopK; rw [e']

/-- C126: in a debug build `insert` of a signature of the right length panics exactly when one of its bands has the key 0;
in a release build it never does. -/
theorem C126_insert_panics_iff (b r : Nat) (t : Fl) (h : List T → UInt64) (ops : List (Op T Id)) (id : Id) (s : List T)
    (hs : s.length = b * r) :
    ((After C b r t h ops).insert id s).2 = .ok () ∧
    (((After C b r t h ops).insertDebug id s).2 = .ok () ↔ NoZeroKey b r h s) := by
  have I := inv_run (C := C) h b r t ops
  have hS := shaped_of_inv I
  have hfit : ∀ band ∈ (After C b r t h ops).bands, band.Fits s := (all_fits_iff I.shapes s).mpr hs.ge
  have hrel : ((After C b r t h ops).insert id s).2 = .ok () := by
    unfold MinHashIndex.insert
    rw [if_pos (by rw [I.hn, hs])]
    have := forEachMut_ok (fun band : Band T C => band.insert id s) (After C b r t h ops).bands fun x hx =>
      ⟨_, by unfold Band.insert; rw [Band.keyOf_ok (hfit x hx)]; rfl⟩
    revert this
    generalize forEachMut (fun band : Band T C => band.insert id s) (After C b r t h ops).bands = z
    obtain ⟨z1, z2⟩ := z
    rintro rfl
    rfl
  refine ⟨hrel, ⟨fun hd => ?_, fun hz => ?_⟩⟩
  · unfold MinHashIndex.insertDebug at hd
    rw [if_pos (by rw [I.hn, hs])] at hd
    have hok : (forEachMut (fun band : Band T C => band.insertDebug id s) (After C b r t h ops).bands).2 = .ok () := by
      revert hd
      generalize forEachMut (fun band : Band T C => band.insertDebug id s) (After C b r t h ops).bands = z
      obtain ⟨z1, z2 | z2⟩ := z
      · intro hd; exact hd
      · intro _; rfl
    intro i hi h0
    obtain ⟨band, g1, g2⟩ := Inv.shape_band I.shapes hi
    obtain ⟨n, hn, hgn⟩ := List.mem_iff_getElem.mp g1
    have hall := forEachMut_forall₂ _ _ hok
    have := (List.forall₂_iff_get.mp hall).2 n hn (by rw [← hall.length_eq]; exact hn)
    simp only [List.get_eq_getElem] at this
    rw [hgn] at this
    unfold Band.insertDebug at this
    rw [Band.keyOf_ok (hfit band g1), key_of_shape g2, h0] at this
    have hx : (Band.finishDebug 0 : Except Panic Unit) = .error .assert := rfl
    change (Band.finishDebug 0 >>= fun _ => band.insert id s) = _ at this
    rw [hx] at this
    cases this
  · rw [← hrel]
    unfold MinHashIndex.insertDebug MinHashIndex.insert
    rw [forEachMut_congr (After C b r t h ops).bands fun band hb => (hS band hb).insertDebug hz id]
    rfl

/-- After a clean history a table is empty exactly if there is no document. -/
theorem clean_table_empty {b r : Nat} {t : Fl} {h : List T → UInt64} {ops : List (Op T Id)} (hc : Clean (b * r) ops)
    {band : Band T C} (hb : band ∈ (After C b r t h ops).bands) :
    band.hashTable.len = 0 ↔ ∀ id, live (b * r) ops id = none := by
  have EB := exact_run (C := C) h b r t ops hc band hb
  rw [HMap.len_eq_keys, List.length_eq_zero_iff, List.eq_nil_iff_forall_not_mem]
  constructor
  · intro hk id
    cases hl : live (b * r) ops id with
    | none => rfl
    | some s =>
      have := (EB.mem (band.key s) id).mpr ⟨s, hl, rfl⟩
      unfold Band.bucket at this
      cases hg : band.hashTable.get? (band.key s) with
      | none => rw [hg] at this; simp at this
      | some c => exact absurd ((HMap.mem_keys_iff _ _).mpr ⟨c, hg⟩) (hk _)
  · intro hl k hk
    obtain ⟨c, hg⟩ := (HMap.mem_keys_iff _ _).mp hk
    obtain ⟨x, hx⟩ := List.exists_mem_of_ne_nil _ (EB.nonempty k c hg)
    obtain ⟨s, h1, _⟩ := (EB.mem k x).mp (by unfold Band.bucket; rw [hg]; exact hx)
    rw [hl] at h1
    cases h1

theorem foldlM_ok_step {α β : Type} (f : β → α → Except Panic β) (l : List α) (m res : β)
    (h : l.foldlM f m = .ok res) : ∀ x ∈ l, ∃ m' m'', f m' x = .ok m'' := by
  induction l generalizing m with
  | nil => simp
  | cons y l ih =>
    rw [List.foldlM_cons] at h
    cases hy : f m y with
    | error e => rw [hy] at h; cases h
    | ok m' =>
      rw [hy] at h
      intro x hx
      rcases List.mem_cons.mp hx with rfl | hx
      · exact ⟨m, m', hy⟩
      · exact ih m' h x hx

/-- C126: a query of the right length on a clean history returns in a debug build exactly if the index is empty or no band
of the query has the key 0; in a release build it always returns. -/
theorem C126_query_panics_iff (b r : Nat) (t : Fl) (h : List T → UInt64) (ops : List (Op T Id)) (q : List T)
    (hc : Clean (b * r) ops) (hl : RightLengths (b * r) ops) (hq : q.length = b * r) :
    (∃ res, (After C b r t h ops).query q = .ok res) ∧
    ((∃ res, (After C b r t h ops).queryDebug q = .ok res) ↔
      (∀ id, live (b * r) ops id = none) ∨ NoZeroKey b r h q) := by
  obtain ⟨res, hres, _⟩ := C17_query_returns (C := C) b r t h ops q hl hq
  have I := inv_run (C := C) h b r t ops
  have hfit : ∀ band ∈ (After C b r t h ops).bands, band.Fits q := (all_fits_iff I.shapes q).mpr hq.ge
  refine ⟨⟨res, hres⟩, ⟨?_, ?_⟩⟩
  · rintro ⟨res', hd⟩
    by_cases hemp : ∀ id, live (b * r) ops id = none
    · exact .inl hemp
    right
    unfold MinHashIndex.queryDebug at hd
    rw [if_pos (by rw [I.hn, hq])] at hd
    obtain ⟨cs, hcs, _⟩ := bind_ok hd
    intro i hi h0
    obtain ⟨band, g1, g2⟩ := Inv.shape_band I.shapes hi
    obtain ⟨m', m'', hm⟩ := foldlM_ok_step _ _ _ _ hcs band g1
    unfold Band.queryDebug at hm
    rw [Band.keyOf_ok (hfit band g1), key_of_shape g2, h0] at hm
    have hx : (band.lookupDebug 0 : Except Panic Unit) = .error .assert := by
      unfold Band.lookupDebug
      rw [if_neg fun hz => hemp ((clean_table_empty hc g1).mp hz)]
      rfl
    change (band.lookupDebug 0 >>= fun _ => band.query q m') = _ at hm
    rw [hx] at hm
    cases hm
  · rintro (hemp | hz)
    · have e : (After C b r t h ops).candidatesDebug q = (After C b r t h ops).candidates q := by
        unfold MinHashIndex.candidatesDebug MinHashIndex.candidates
        have hE : ∀ band ∈ (After C b r t h ops).bands, band.hashTable.len = 0 := fun band hb =>
          (clean_table_empty hc hb).mpr hemp
        generalize (HSet.empty : HSet Id) = m
        generalize (After C b r t h ops).bands = bands at hE hfit
        induction bands generalizing m with
        | nil => rfl
        | cons x xs ih =>
          have ex : x.queryDebug q m = x.query q m := by
            unfold Band.queryDebug
            rw [Band.keyOf_ok (hfit x (by simp))]
            change (x.lookupDebug _ >>= fun _ => x.query q m) = _
            unfold Band.lookupDebug
            rw [if_pos (hE x (by simp))]
            rfl
          rw [List.foldlM_cons, List.foldlM_cons, ex]
          congr 1
          funext m'
          exact ih m' (fun y hy => hE y (by simp [hy])) fun y hy => hfit y (by simp [hy])
      refine ⟨res, ?_⟩
      rw [← hres]
      unfold MinHashIndex.queryDebug MinHashIndex.query; rw [e]
    · exact ⟨res, by rw [(C126_query_partial b r t h ops q hz).1]; exact hres⟩

/-- C126: the debug constructor panics exactly if the number of hashes does not fit 64 bits. -/
theorem C126_new_panics_iff (b r : Nat) (t : Fl) (h : List T → UInt64) :
    (∃ idx : MinHashIndex T Id C, MinHashIndex.newIndexDebug b r t h = .ok idx) ↔ b * r < 2 ^ 64 := by
  unfold MinHashIndex.newIndexDebug
  split_ifs with hb
  · exact ⟨fun _ => hb, fun _ => ⟨_, rfl⟩⟩
  · exact ⟨(fun ⟨_, e⟩ => nomatch e), fun e => absurd e hb⟩

end

/-- Both kinds of queries exist: with a document present, a query with a zero key and one without. -/
example : Clean (2 * 1) ([.insert 1 [3, 4]] : List (Op Nat Nat)) ∧ RightLengths (2 * 1) ([.insert 1 [3, 4]] : List (Op Nat Nat)) ∧
    ¬ NoZeroKey 2 1 (fun l : List Nat => if l = [7] then 0 else 1) [3, 7] ∧
    NoZeroKey 2 1 (fun l : List Nat => if l = [7] then 0 else 1) [3, 8] := by
  refine ⟨?_, ?_, fun hz => hz 1 (by decide) (by decide), ?_⟩
  · intro pre op post e
    rcases pre with _ | ⟨x, pre⟩
    · simp only [List.nil_append, List.cons.injEq] at e
      rw [← e.1]
      exact fun _ => rfl
    · simp at e
  · intro op hop s hs
    rw [List.mem_singleton.mp hop] at hs
    rw [List.mem_singleton.mp hs]; rfl
  · intro i hi
    interval_cases i <;> decide

/-- C126 is false as stated: with a band key 0 the debug build panics and loses the document. -/
theorem C126_debug_false :
    ∃ (h : List Nat → UInt64) (s : List Nat), s.length = 2 * 1 ∧
      ((After (HashSetContainer Nat) 2 1 (.fin (1 / 2)) h []).insert 1 s).2 = .ok () ∧
      ((After (HashSetContainer Nat) 2 1 (.fin (1 / 2)) h []).insertDebug 1 s).2 = .error .assert ∧
      ((After (HashSetContainer Nat) 2 1 (.fin (1 / 2)) h []).insertDebug 1 s).1.size = 0 :=
  ⟨fun l => if l = [7] then 0 else 1, [3, 7], rfl, by decide +kernel, by decide +kernel, by decide +kernel⟩

/-- The hypotheses are met by the histories used elsewhere. -/
example : ∀ op ∈ exDetour, ∀ s ∈ sigsOf op, NoZeroKey 2 1 exHash s := by
  have : ∀ l : List Nat, l ∈ [[1, 2], [3, 4], [1, 9], [5, 6]] → NoZeroKey 2 1 exHash l := by
    intro l hl i hi
    simp only [List.mem_cons, List.not_mem_nil, or_false] at hl
    interval_cases i <;> rcases hl with rfl | rfl | rfl | rfl <;> decide
  intro op hop s hs
  apply this
  simp only [exDetour, List.mem_cons, List.not_mem_nil, or_false] at hop
  rcases hop with rfl | rfl | rfl | rfl | rfl <;> simp [sigsOf] at hs <;> simp [hs]
  tauto

/-! ## The SimHash index -/
section
variable {w : Nat}

/-- The debug result that corresponds to a release result: whatever does not return panics. -/
def orOverflow {α : Type} : Except Panic α → Except Panic α
  | .ok a => .ok a
  | .error _ => .error .overflow

theorem lowLoopDebug_eq (mask : BitVec w) (n i : Nat) (hi : i + n ≤ w) :
    lowLoopDebug mask n i = orOverflow (lowLoop mask n i) := by
  induction n generalizing i with
  | zero => rfl
  | succ n ih =>
    unfold lowLoopDebug lowLoop shl
    rw [Nat.mod_eq_of_lt (show i < w by omega)]
    split_ifs
    · exact ih (i + 1) (by omega)
    · rfl

theorem measureDebug_eq (masks : List (BitVec w)) (W : Nat) : measureDebug W masks = orOverflow (measure w W masks) := by
  induction masks generalizing W with
  | nil => rfl
  | cons m masks ih =>
    rw [measureDebug, measure, lowLoopDebug_eq _ _ _ (by omega)]
    cases lowLoop m w 0 with
    | error e => rfl
    | ok i =>
      simp only [orOverflow, bind, Except.bind]
      rw [ih]
      cases measure w (W + (highLoop m (w - i) i - i)) masks <;> rfl

theorem newDebug_eq (d : Nat) (masks choice : List (BitVec w)) :
    Permutation.newDebug d masks choice = orOverflow (Permutation.new w d masks choice) := by
  unfold Permutation.newDebug Permutation.new
  rw [measureDebug_eq]
  cases measure w 0 masks with
  | error e => rfl
  | ok ms =>
    simp only [orOverflow, bind, Except.bind]
    split_ifs <;> rfl

theorem mapM_orOverflow {α β : Type} (f : α → Except Panic β) (l : List α) :
    (l.mapM fun a => orOverflow (f a)) = orOverflow (l.mapM f) := by
  induction l with
  | nil => rfl
  | cons a l ih =>
    rw [List.mapM_cons, List.mapM_cons, ih]
    cases f a with
    | error e => rfl
    | ok x =>
      simp only [orOverflow, bind, Except.bind]
      cases l.mapM f <;> rfl

theorem createDebug_eq (nb d : Nat) : Permutation.createDebug w nb d = orOverflow (Permutation.create w w nb d) := by
  unfold Permutation.createDebug Permutation.create
  simp only
  split_ifs
  · rfl
  · simp only [newDebug_eq, mapM_orOverflow]

/-- C126: for valid parameters the debug build constructs the same SimHash index; for more blocks than bits it panics
where the release build does not end; for fewer blocks than the distance both panic. -/
theorem C126_simhash (Id : Type) (nb d : Nat) :
    (nb ≤ w → d ≤ nb → ∃ idx, SimIndex.newDebug w Id nb d = .ok idx ∧ ∀ fuel, w ≤ fuel → SimIndex.new fuel w Id nb d = .ok idx) ∧
    (w < nb → d ≤ nb → SimIndex.newDebug w Id nb d = .error .overflow ∧
      ∀ fuel, SimIndex.new fuel w Id nb d = .error .outOfFuel) ∧
    (nb < d → SimIndex.newDebug w Id nb d = .error .overflow ∧ ∀ fuel, SimIndex.new fuel w Id nb d = .error .overflow) := by
  refine ⟨fun hn hd => ?_, fun hn hd => ⟨?_, fun fuel => ?_⟩, fun hd => ⟨?_, fun fuel => ?_⟩⟩
  · obtain ⟨idx, e⟩ := C51_new_returns (Id := Id) nb d w hn hd (le_refl w)
    refine ⟨idx, ?_, fun fuel hf => ?_⟩
    · rw [← e]
      unfold SimIndex.newDebug SimIndex.new
      rw [createDebug_eq, create_eq hn hd (le_refl w)]; rfl
    · rw [← e]
      unfold SimIndex.new
      rw [create_eq hn hd hf, create_eq hn hd (le_refl w)]
  · unfold SimIndex.newDebug; rw [createDebug_eq, create_diverges hn hd]; rfl
  · unfold SimIndex.new; rw [create_diverges hn hd]; rfl
  · unfold SimIndex.newDebug Permutation.createDebug; simp only; rw [if_pos hd]; rfl
  · unfold SimIndex.new Permutation.create; simp only; rw [if_pos hd]; rfl

/-- The three cases occur. -/
example : (4 ≤ 64 ∧ 3 ≤ 4) ∧ (64 < 65 ∧ 3 ≤ 65) ∧ 2 < 3 := by decide

end
end Verif.Props
