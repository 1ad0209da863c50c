import Verif.Lemmas.IndexExact
import Verif.Spec.Entries

/-! # Bucket entries after arbitrary histories -/
set_option linter.unusedSectionVars false
namespace Verif
open Spec

/-- How a container counts copies. -/
class CountedContainer (C : Type) (Id : outParam Type) (dedup : outParam Bool) [DecidableEq Id] [IdContainer C Id] :
    Prop where
  count_push : ∀ (c : C) (a x : Id), (IdContainer.ids (IdContainer.push c a)).count x =
    if x = a then (if dedup then 1 else (IdContainer.ids c).count x + 1) else (IdContainer.ids c).count x
  count_remove : ∀ (c : C) (a x : Id), (IdContainer.ids (IdContainer.remove c a)).count x =
    if x = a then (IdContainer.ids c).count x - 1 else (IdContainer.ids c).count x

theorem count_hset {Id : Type} [DecidableEq Id] (s : HSet Id) (x : Id) :
    s.elems.count x = if x ∈ s.elems then 1 else 0 := by
  split_ifs with h
  · exact List.count_eq_one_of_mem s.nodup h
  · exact List.count_eq_zero_of_not_mem h

instance HashSetContainer.counted {Id : Type} [DecidableEq Id] : CountedContainer (HashSetContainer Id) Id true where
  count_push := fun c a x => by
    show (c.set.insert a).elems.count x = _
    rw [count_hset]
    by_cases hx : x = a
    · subst hx; simp
    · simp only [hx, if_false, HSet.mem_insert, false_or]
      exact (count_hset c.set x).symm
  count_remove := fun c a x => by
    show (c.set.erase a).elems.count x = _
    rw [count_hset]
    show _ = if x = a then c.set.elems.count x - 1 else c.set.elems.count x
    rw [count_hset]
    by_cases hx : x = a
    · subst hx
      simp only [HSet.mem_erase, if_true]
      split_ifs with h1 <;> simp_all
    · simp [HSet.mem_erase, hx]

theorem count_removeFirst {α : Type} [DecidableEq α] (l : List α) (a x : α) :
    (removeFirst l a).count x = if x = a then l.count x - 1 else l.count x := by
  rcases removeFirst_perm l a with ⟨h1, h2⟩ | ⟨h1, h2⟩
  · rw [h2]
    split_ifs with hx
    · subst hx; rw [List.count_eq_zero_of_not_mem h1]
    · rfl
  · have := h2.count_eq x
    rw [List.count_cons] at this
    split_ifs with hx
    · subst hx; simp at this; omega
    · have : (a == x) = false := by simp [Ne.symm hx]
      simp_all

instance VecContainer.counted {Id : Type} [DecidableEq Id] : CountedContainer (VecContainer Id) Id false where
  count_push := fun c a x => by
    show (c.vec ++ [a]).count x = if x = a then (if false = true then 1 else c.vec.count x + 1) else c.vec.count x
    rw [List.count_append, List.count_singleton]
    by_cases hx : x = a
    · subst hx; simp
    · simp [hx, Ne.symm hx]
  count_remove := fun c a x => count_removeFirst c.vec a x

instance SmallVecContainer.counted {Id : Type} [DecidableEq Id] {N : Nat} : CountedContainer (SmallVecContainer Id N) Id false where
  count_push := fun c a x => by
    show (c.vec ++ [a]).count x = if x = a then (if false = true then 1 else c.vec.count x + 1) else c.vec.count x
    rw [List.count_append, List.count_singleton]
    by_cases hx : x = a
    · subst hx; simp
    · simp [hx, Ne.symm hx]
  count_remove := fun c a x => count_removeFirst c.vec a x

section
variable {T Id C : Type} [DecidableEq T] [DecidableEq Id] [IdContainer C Id] [LawfulIdContainer C Id]
variable {dedup : Bool} [CountedContainer C Id dedup]

theorem Band.count_insert {band band' : Band T C} {id : Id} {s : List T} (h : band.insert id s = .ok band')
    (k : UInt64) (x : Id) : (band'.bucket k).count x =
      if x = id ∧ band.key s = k then (if dedup then 1 else (band.bucket k).count x + 1)
      else (band.bucket k).count x := by
  rw [(Band.insert_eq_ok.mp h).2]
  unfold Band.bucket
  simp only [HMap.get?_upsert]
  by_cases hk : k = band.key s
  · subst hk
    simp only [if_true, Option.map_some, Option.getD_some, and_true]
    cases hc : band.hashTable.get? (band.key s) with
    | none =>
      rw [Option.getD_none, CountedContainer.count_push, LawfulIdContainer.ids_new]
      simp
    | some c =>
      rw [Option.getD_some, CountedContainer.count_push]
      simp
  · simp [hk, Ne.symm hk]

include dedup in
theorem Band.count_remove {band band' : Band T C} {id : Id} {s : List T} (h : band.remove id s = .ok band')
    (k : UInt64) (x : Id) : (band'.bucket k).count x =
      if x = id ∧ band.key s = k then (band.bucket k).count x - 1 else (band.bucket k).count x := by
  rw [Band.bucket_remove h]
  by_cases hk : k = band.key s
  · subst hk
    simp only [if_true, and_true]
    unfold Band.bucket
    cases hc : band.hashTable.get? (band.key s) with
    | none => simp
    | some c =>
      simp only [Option.map_some, Option.getD_some]
      exact CountedContainer.count_remove (dedup := dedup) c id x
  · simp [hk, Ne.symm hk]

theorem Band.count_foldl_insert {α : Type} (g : α → Id × List T) (ps : List α) {band band' : Band T C}
    (h : ps.foldlM (fun (bd : Band T C) p => bd.insert (g p).1 (g p).2) band = .ok band') (k : UInt64) (x : Id) :
    (band'.bucket k).count x =
      if ps.countP (fun p => (g p).1 = x ∧ band.key (g p).2 = k) = 0 then (band.bucket k).count x
      else if dedup then 1 else (band.bucket k).count x + ps.countP fun p => (g p).1 = x ∧ band.key (g p).2 = k := by
  induction ps generalizing band with
  | nil => cases h; simp
  | cons a ps ih =>
    rw [List.foldlM_cons] at h
    cases h1 : band.insert (g a).1 (g a).2 with
    | error e => rw [h1] at h; cases h
    | ok b1 =>
      rw [h1] at h
      rw [ih h, Band.count_insert (dedup := dedup) h1, List.countP_cons]
      have hk : ∀ s, b1.key s = band.key s := Band.key_congr (Band.insert_shape h1)
      simp only [hk]
      by_cases hx : (g a).1 = x ∧ band.key (g a).2 = k
      · have hx' : x = (g a).1 ∧ band.key (g a).2 = k := ⟨hx.1.symm, hx.2⟩
        rw [if_pos hx', if_pos (decide_eq_true hx)]
        generalize List.countP _ ps = m
        cases dedup
        · simp only [Bool.false_eq_true, if_false]
          rw [if_neg (Nat.succ_ne_zero m)]
          by_cases hm : m = 0
          · rw [if_pos hm, hm]
          · rw [if_neg hm]; omega
        · simp
      · have hx' : ¬ (x = (g a).1 ∧ band.key (g a).2 = k) := fun hc => hx ⟨hc.1.symm, hc.2⟩
        simp only [hx, hx', if_false, decide_false, Nat.add_zero, Bool.false_eq_true]

include dedup in
theorem Band.count_foldl_remove {α : Type} (g : α → Id × List T) (ps : List α) {band band' : Band T C}
    (h : ps.foldlM (fun (bd : Band T C) p => bd.remove (g p).1 (g p).2) band = .ok band') (k : UInt64) (x : Id) :
    (band'.bucket k).count x =
      (band.bucket k).count x - ps.countP fun p => (g p).1 = x ∧ band.key (g p).2 = k := by
  induction ps generalizing band with
  | nil => cases h; simp
  | cons a ps ih =>
    rw [List.foldlM_cons] at h
    cases h1 : band.remove (g a).1 (g a).2 with
    | error e => rw [h1] at h; cases h
    | ok b1 =>
      rw [h1] at h
      rw [ih h, Band.count_remove (dedup := dedup) h1, List.countP_cons]
      have hk : ∀ s, b1.key s = band.key s := Band.key_congr (Band.remove_shape h1)
      simp only [hk]
      by_cases hx : (g a).1 = x ∧ band.key (g a).2 = k
      · have hx' : x = (g a).1 ∧ band.key (g a).2 = k := ⟨hx.1.symm, hx.2⟩
        rw [if_pos hx', if_pos (decide_eq_true hx)]
        omega
      · have hx' : ¬ (x = (g a).1 ∧ band.key (g a).2 = k) := fun hc => hx ⟨hc.1.symm, hc.2⟩
        simp only [hx, hx', if_false, decide_false, Nat.add_zero, Bool.false_eq_true]

/-- Band `i` has the entries `E i`. -/
def CountInv (h : List T → UInt64) (r : Nat) (E : Nat → UInt64 → Id → Nat) (idx : MinHashIndex T Id C) : Prop :=
  ∀ band ∈ idx.bands, ∀ i, band.shape = (i * r, (i + 1) * r, h) → ∀ k x, (band.bucket k).count x = E i k x

theorem taken_eq (m : HMap Id (List T)) (ids : List Id) {content : Id → Option (List T)}
    (hm : ∀ id, m.get? id = content id) : (MinHashIndex.takeSignatures m ids).2 = taken content ids := by
  induction ids generalizing m content with
  | nil => rfl
  | cons id ids ih =>
    unfold MinHashIndex.takeSignatures taken
    rw [hm]
    cases hc : content id with
    | none => exact ih m hm
    | some s =>
      simp only
      rw [ih (m.erase id) (content := fun x => if x = id then none else content x)]
      intro x
      rw [HMap.get?_erase]
      by_cases hx : x = id
      · subst hx; simp
      · simp [hx, hm]

theorem countP_swap {α β : Type} (l : List (α × β)) (p : β × α → Bool) :
    (l.map Prod.swap).countP p = l.countP fun q => p (q.2, q.1) := by
  rw [List.countP_map]; rfl

/-- The key of band `i` computed from its columns. -/
def bandKey (h : List T → UInt64) (r : Nat) : Nat → List T → UInt64 := fun i s => h (bandOf r s i)

theorem count_step {h : List T → UInt64} {b r : Nat} {t : Fl} {L : Id → Option (List T)}
    {idx : MinHashIndex T Id C} (I : Inv h b r t L idx) {E : Nat → UInt64 → Id → Nat} (K : CountInv h r E idx)
    (op : Op T Id) (hl : ∀ s ∈ sigsOf op, s.length = b * r) :
    CountInv h r (fun i k x => entryStep dedup (bandKey h r) L op i k x (E i k x)) (idx.step op).1 := by
  have hre : ∀ {idx' : MinHashIndex T Id C}, Rehashed idx idx' → CountInv h r E idx' := by
    intro idx' hr band hb i hsh k x
    obtain ⟨bd, hbd, e1, e2⟩ := forall₂_mem_right hr.bands band hb
    rw [Rehashed.bucket e2]
    exact K bd hbd i (e1 ▸ hsh) k x
  cases op with
  | insert id s =>
    have hs : s.length = b * r := hl s (by simp [sigsOf])
    show CountInv _ _ _ (idx.insert id s).1
    rw [insert_eq I id s hs]
    intro band hb i hsh k x
    obtain ⟨bd, hbd, e⟩ := forall₂_mem_right (forEachMut_forall₂ _ _ (insert_bands I id s hs.ge)) band hb
    have hsh' : bd.shape = (i * r, (i + 1) * r, h) := (Band.insert_shape e).symm.trans hsh
    rw [Band.count_insert (dedup := dedup) e, K bd hbd i hsh' k x, key_of_shape hsh']
    by_cases hx : x = id ∧ h (bandOf r s i) = k
    · have hx' : id = x ∧ bandKey h r i s = k := ⟨hx.1.symm, hx.2⟩
      rw [if_pos hx]
      have : pairsAt (bandKey h r) i k x (insertions (.insert id s : Op T Id)) = 1 := by
        simp only [pairsAt, insertions, List.countP_cons, List.countP_nil, if_pos (decide_eq_true hx')]
      simp only [entryStep, this]
      simp
    · have hx' : ¬ (id = x ∧ bandKey h r i s = k) := fun hc => hx ⟨hc.1.symm, hc.2⟩
      simp only [entryStep, insertions, removals, pairsAt, List.countP_cons, List.countP_nil, hx, hx', if_false,
        decide_false, Nat.add_zero, Bool.false_eq_true, if_true, Nat.sub_zero]
  | parBulkInsert ids sigs sched =>
    have hacc : accepts (b * r) (.parBulkInsert ids sigs sched : Op T Id) = true := by
      simp only [accepts, Bool.and_eq_true, List.all_eq_true, decide_eq_true_eq]
      constructor
      · cases hd : sigs.head? with
        | none => rfl
        | some s => simpa using hl s (by simpa [sigsOf] using List.mem_of_head? hd)
      · intro p hp
        exact (hl p.1 (by simpa [sigsOf] using (List.of_mem_zip (a := p.1) (b := p.2) hp).1)).ge
    show CountInv _ _ _ (idx.parBulkInsert ids sigs sched).1
    rcases bulk_eq I ids sigs sched with ⟨_, hok, e⟩ | ⟨ha', _⟩
    · rw [e]
      intro band hb i hsh k x
      obtain ⟨bd, hbd, e⟩ := forall₂_mem_right (parForEach_ok _ hok) band hb
      have hsh' : bd.shape = (i * r, (i + 1) * r, h) :=
        (Band.foldlM_insert (fun p : List T × Id => (p.2, p.1)) _ e).1.symm.trans hsh
      rw [Band.count_foldl_insert (dedup := dedup) (fun p : List T × Id => (p.2, p.1)) _ e, K bd hbd i hsh' k x]
      have hc : (sigs.zip ids).countP (fun p => decide (p.2 = x ∧ bd.key p.1 = k)) =
          pairsAt (bandKey h r) i k x (insertions (.parBulkInsert ids sigs sched : Op T Id)) := by
        show _ = (ids.zip sigs).countP _
        rw [← List.zip_swap sigs ids, countP_swap]
        exact List.countP_congr fun p _ => by
          rw [key_of_shape hsh']; exact Iff.rfl
      simp only [hc]
      simp only [entryStep]
      split_ifs <;> simp [removals, pairsAt]
    · rw [hacc] at ha'; cases ha'
  | parBulkInsertPairs ps sched =>
    have hacc : accepts (b * r) (.parBulkInsertPairs ps sched : Op T Id) = true := by
      simp only [accepts, List.all_eq_true, decide_eq_true_eq]
      intro p hp
      exact (hl p.2 (by simp only [sigsOf, List.mem_map]; exact ⟨p, hp, rfl⟩)).ge
    show CountInv _ _ _ (idx.parBulkInsertPairs ps sched).1
    rcases pairs_eq I ps sched with ⟨_, hok, e⟩ | ⟨ha', _⟩
    · rw [e]
      intro band hb i hsh k x
      obtain ⟨bd, hbd, e⟩ := forall₂_mem_right (parForEach_ok _ hok) band hb
      have hsh' : bd.shape = (i * r, (i + 1) * r, h) :=
        (Band.foldlM_insert (fun p : Id × List T => p) _ e).1.symm.trans hsh
      rw [Band.count_foldl_insert (dedup := dedup) (fun p : Id × List T => p) _ e, K bd hbd i hsh' k x]
      have hc : ps.countP (fun p => decide (p.1 = x ∧ bd.key p.2 = k)) =
          pairsAt (bandKey h r) i k x (insertions (.parBulkInsertPairs ps sched : Op T Id)) := by
        show _ = ps.countP _
        exact List.countP_congr fun p _ => by
          rw [key_of_shape hsh']; exact Iff.rfl
      simp only [hc]
      simp only [entryStep]
      split_ifs <;> simp [removals, pairsAt]
    · rw [hacc] at ha'; cases ha'
  | remove id =>
    show CountInv _ _ _ (idx.remove id).1
    cases hs : L id with
    | none =>
      rw [remove_none I id hs]
      intro band hb i hsh k x
      rw [K band hb i hsh k x]
      simp [entryStep, insertions, removals, pairsAt, hs]
    | some s =>
      rw [remove_some I id s hs]
      intro band hb i hsh k x
      obtain ⟨bd, hbd, e⟩ := forall₂_mem_right (forEachMut_forall₂ _ _ (remove_bands I id s hs)) band hb
      have hsh' : bd.shape = (i * r, (i + 1) * r, h) := (Band.remove_shape e).symm.trans hsh
      rw [Band.count_remove (dedup := dedup) e, K bd hbd i hsh' k x, key_of_shape hsh']
      by_cases hx : x = id ∧ h (bandOf r s i) = k
      · have hx' : id = x ∧ bandKey h r i s = k := ⟨hx.1.symm, hx.2⟩
        rw [if_pos hx]
        have : pairsAt (bandKey h r) i k x (removals L (.remove id : Op T Id)) = 1 := by
          simp only [pairsAt, removals, hs, List.countP_cons, List.countP_nil, if_pos (decide_eq_true hx')]
        simp only [entryStep, this]
        simp [insertions, pairsAt]
      · have hx' : ¬ (id = x ∧ bandKey h r i s = k) := fun hc => hx ⟨hc.1.symm, hc.2⟩
        simp only [entryStep, insertions, removals, hs, pairsAt, List.countP_cons, List.countP_nil, hx, hx', if_false,
          decide_false, Nat.add_zero, Bool.false_eq_true, if_true, Nat.sub_zero]
  | bulkRemove ids sched =>
    show CountInv _ _ _ (idx.bulkRemove ids sched).1
    obtain ⟨hok, e⟩ := bulkRemove_eq I ids sched
    rw [e]
    intro band hb i hsh k x
    obtain ⟨bd, hbd, e⟩ := forall₂_mem_right (parForEach_ok _ hok) band hb
    have hsh' : bd.shape = (i * r, (i + 1) * r, h) :=
      (Band.foldlM_remove (fun p : List T × Id => (p.2, p.1)) _ e).1.symm.trans hsh
    rw [Band.count_foldl_remove (dedup := dedup) (fun p : List T × Id => (p.2, p.1)) _ e, K bd hbd i hsh' k x]
    have hc : ((MinHashIndex.takeSignatures idx.idSignatures ids).2.zip ids).countP
        (fun p => decide (p.2 = x ∧ bd.key p.1 = k)) =
        pairsAt (bandKey h r) i k x (removals L (.bulkRemove ids sched : Op T Id)) := by
      rw [taken_eq _ _ I.sigs]
      show _ = (ids.zip (taken L ids)).countP _
      rw [← List.zip_swap (taken L ids) ids, countP_swap]
      exact List.countP_congr fun p _ => by
          rw [key_of_shape hsh']; exact Iff.rfl
    simp only [hc]
    simp [entryStep, insertions, pairsAt]
  | clear =>
    intro band hb i hsh k x
    simp only [MinHashIndex.step, MinHashIndex.clear, List.mem_map] at hb
    obtain ⟨bd, _, rfl⟩ := hb
    simp [Band.bucket, Band.clear, entryStep]
  | shrinkToFit o =>
    have := hre (shrinkToFit_rehashed o idx)
    intro band hb i hsh k x
    rw [this band hb i hsh k x]
    simp [entryStep, insertions, removals, pairsAt]
  | shrinkTo m c o sched =>
    have := hre (shrinkTo_rehashed o idx m c sched)
    intro band hb i hsh k x
    rw [this band hb i hsh k x]
    simp [entryStep, insertions, removals, pairsAt]

theorem entries_snoc (dedup : Bool) (key : Nat → List T → UInt64) (n : Nat) (ops : List (Op T Id)) (op : Op T Id)
    (i : Nat) (k : UInt64) (x : Id) : entries dedup key n (ops ++ [op]) i k x =
      entryStep dedup key (live n ops) op i k x (entries dedup key n ops i k x) := by
  unfold entries
  rw [List.reverse_append]
  show entriesRev dedup key n i k x (op :: ops.reverse) = _
  rw [entriesRev, List.reverse_reverse]

/-- The entries after every history with signatures of the right length. -/
theorem count_run (h : List T → UInt64) (b r : Nat) (t : Fl) (ops : List (Op T Id)) (hl : RightLengths (b * r) ops) :
    CountInv h r (entries dedup (bandKey h r) (b * r) ops)
      ((MinHashIndex.newIndex b r t h : MinHashIndex T Id C).run ops) := by
  induction ops using List.reverseRecOn with
  | nil =>
    intro band hb i hsh k x
    have hb' : band ∈ (MinHashIndex.newIndex b r t h : MinHashIndex T Id C).bands := hb
    simp only [MinHashIndex.newIndex, List.mem_map] at hb'
    obtain ⟨i, _, rfl⟩ := hb'
    simp [Band.bucket, Band.new, entries, entriesRev]
  | append_singleton ops op ih =>
    rw [run_snoc]
    have := count_step (dedup := dedup) (inv_run h b r t ops) (ih fun o ho => hl o (by simp [ho])) op
      (hl op (by simp))
    intro band hb i hsh k x
    rw [this band hb i hsh k x, entries_snoc]

/-- The candidates of a query after every history. -/
theorem candidate_entries (h : List T → UInt64) (b r : Nat) (t : Fl) (ops : List (Op T Id))
    (hl : RightLengths (b * r) ops) (q : List T) (id : Id) :
    (∃ band ∈ ((MinHashIndex.newIndex b r t h : MinHashIndex T Id C).run ops).bands,
      id ∈ band.bucket (band.key q)) ↔
    ∃ i < b, 0 < entries dedup (bandKey h r) (b * r) ops i (h (bandOf r q i)) id := by
  have I := inv_run (C := C) h b r t ops
  have K := count_run (C := C) (dedup := dedup) h b r t ops hl
  constructor
  · rintro ⟨band, hb, hm⟩
    obtain ⟨i, hi, e⟩ := Inv.band_shape I.shapes hb
    refine ⟨i, hi, ?_⟩
    rw [← K band hb i e, ← key_of_shape e q]
    exact List.count_pos_iff.mpr hm
  · rintro ⟨i, hi, hpos⟩
    obtain ⟨band, hb, e⟩ := Inv.shape_band I.shapes hi
    refine ⟨band, hb, ?_⟩
    rw [← K band hb i e, ← key_of_shape e q] at hpos
    exact List.count_pos_iff.mp hpos

end

/-! ### Sets -/

section
variable {T Id : Type} [DecidableEq Id]

theorem pairsAt_eq_zero {key : Nat → List T → UInt64} {i : Nat} {k : UInt64} {id : Id} {ps : List (Id × List T)} :
    pairsAt key i k id ps = 0 ↔ ∀ s, (id, s) ∈ ps → key i s ≠ k := by
  unfold pairsAt
  rw [List.countP_eq_zero]
  constructor
  · intro h s hs hk
    exact h _ hs (by simpa using hk)
  · rintro h ⟨x, s⟩ hp hc
    simp only [decide_eq_true_eq] at hc
    obtain ⟨rfl, hk⟩ := hc
    exact h s hp hk

theorem entryStep_le_one (key : Nat → List T → UInt64) (content : Id → Option (List T)) (op : Op T Id) (i : Nat)
    (k : UInt64) (id : Id) {e : Nat} (he : e ≤ 1) : entryStep true key content op i k id e ≤ 1 := by
  unfold entryStep
  split
  · omega
  · simp only [if_true]
    split_ifs <;> omega

theorem entries_le_one (key : Nat → List T → UInt64) (n : Nat) (ops : List (Op T Id)) (i : Nat) (k : UInt64)
    (id : Id) : entries true key n ops i k id ≤ 1 := by
  induction ops using List.reverseRecOn with
  | nil => simp [entries, entriesRev]
  | append_singleton ops op ih =>
    unfold entries at ih ⊢
    rw [List.reverse_append]
    exact entryStep_le_one key _ op i k id ih

theorem listed_snoc (key : Nat → List T → UInt64) (n : Nat) (ops : List (Op T Id)) (op : Op T Id) (i : Nat)
    (k : UInt64) (id : Id) : Listed key n (ops ++ [op]) i k id ↔
      (∃ s, (id, s) ∈ insertions op ∧ key i s = k) ∨
      (Listed key n ops i k id ∧ op ≠ .clear ∧ ∀ s, (id, s) ∈ removals (live n ops) op → key i s ≠ k) := by
  constructor
  · rintro ⟨pre, op0, post, e, hin, hout⟩
    rcases List.eq_nil_or_concat post with rfl | ⟨post', last, rfl⟩
    · have : op0 = op := by
        have := congrArg List.getLast? e
        simpa using this.symm
      subst this
      exact .inl hin
    · have e' : ops ++ [op] = (pre ++ op0 :: post') ++ [last] := by rw [e]; simp
      obtain ⟨e1, e2⟩ := List.append_inj' e' rfl
      cases e2
      refine .inr ⟨⟨pre, op0, post', e1, hin, fun p1 op' p2 ep => hout p1 op' (p2 ++ [op]) (by rw [ep]; simp)⟩, ?_⟩
      rw [e1]
      exact hout post' op [] (by simp)
  · rintro (hin | ⟨⟨pre, op0, post, e, hin, hout⟩, hc, hr⟩)
    · exact ⟨ops, op, [], rfl, hin, fun p1 op' p2 ep => by simp at ep⟩
    · refine ⟨pre, op0, post ++ [op], by rw [e]; simp, hin, fun p1 op' p2 ep => ?_⟩
      rcases List.eq_nil_or_concat p2 with rfl | ⟨p2', last, rfl⟩
      · obtain ⟨e1, e2⟩ := List.append_inj' ep rfl
        cases e2
        subst e1
        rw [← e]
        exact ⟨hc, hr⟩
      · have ep' : post ++ [op] = (p1 ++ op' :: p2') ++ [last] := by rw [ep]; simp
        obtain ⟨e1, e2⟩ := List.append_inj' ep' rfl
        exact hout p1 op' p2' e1

/-- For sets, positive entries are listed ids. -/
theorem entries_listed (key : Nat → List T → UInt64) (n : Nat) (ops : List (Op T Id)) (i : Nat) (k : UInt64)
    (id : Id) : 0 < entries true key n ops i k id ↔ Listed key n ops i k id := by
  induction ops using List.reverseRecOn with
  | nil =>
    simp only [entries, List.reverse_nil, entriesRev, lt_self_iff_false, false_iff]
    rintro ⟨pre, op, post, e, _⟩
    simp at e
  | append_singleton ops op ih =>
    have hle := entries_le_one key n ops i k id
    rw [listed_snoc, ← ih]
    have e : entries true key n (ops ++ [op]) i k id =
        entryStep true key (live n ops) op i k id (entries true key n ops i k id) := by
      unfold entries
      rw [List.reverse_append]
      show entriesRev true key n i k id (op :: ops.reverse) = _
      rw [entriesRev, List.reverse_reverse]
    rw [e]
    have hz := @pairsAt_eq_zero T Id _ key i k id (insertions op)
    have hz' := @pairsAt_eq_zero T Id _ key i k id (removals (live n ops) op)
    rw [← hz']
    have hins : (∃ s, (id, s) ∈ insertions op ∧ key i s = k) ↔ pairsAt key i k id (insertions op) ≠ 0 := by
      rw [ne_eq, hz]; push Not; rfl
    rw [hins]
    by_cases hc : op = .clear
    · subst hc
      simp [entryStep, insertions, pairsAt]
    · have : ∀ e, entryStep true key (live n ops) op i k id e =
          if pairsAt key i k id (insertions op) = 0 then e - pairsAt key i k id (removals (live n ops) op) else 1 := by
        intro e
        cases op <;> first | exact absurd rfl hc | rfl
      rw [this]
      simp only [ne_eq, hc, not_false_eq_true, true_and]
      split_ifs with h1
      · simp only [h1, not_true_eq_false, false_or]
        omega
      · simp [h1]

end
end Verif
