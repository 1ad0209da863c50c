import Verif.Lemmas.IndexInv

set_option linter.unusedSectionVars false

namespace Verif
open Spec

section
variable {T Id C : Type} [DecidableEq T] [DecidableEq Id] [IdContainer C Id] [LawfulIdContainer C Id]

/-! ### Exactness of one band -/

theorem BandExact.congr {L L' : Id → Option (List T)} {band : Band T C} (h : BandExact L band)
    (e : ∀ x, L' x = L x) : BandExact L' band := by
  have : L' = L := funext e
  rw [this]; exact h

theorem BandExact.insert {L L' : Id → Option (List T)} {band band' : Band T C} {id : Id} {s : List T}
    (E : BandExact L band) (hid : L id = none) (h : band.insert id s = .ok band')
    (hL : ∀ x, L' x = if x = id then some s else L x) : BandExact L' band' := by
  have hs := Band.insert_shape h
  have hm := Band.mem_bucket_insert h
  have hnot : ∀ k, id ∉ band.bucket k := by
    intro k hk
    obtain ⟨s', h1, _⟩ := (E.mem k id).mp hk
    rw [hid] at h1; cases h1
  have heq := (Band.insert_eq_ok.mp h).2
  refine ⟨?_, ?_, ?_⟩
  · intro k
    have hn := E.nodup k
    rw [heq]
    unfold Band.bucket at hn ⊢
    simp only [HMap.get?_upsert]
    split_ifs with hk
    · simp only [Option.map_some, Option.getD_some]
      have hk' := hnot k
      unfold Band.bucket at hk'
      rw [← hk]
      cases hc : band.hashTable.get? k with
      | none =>
        rw [Option.getD_none]
        apply LawfulIdContainer.nodup_push
        · rw [LawfulIdContainer.ids_new]; simp
        · rw [LawfulIdContainer.ids_new]; simp
      | some c =>
        rw [hc] at hn hk'
        simp only [Option.map_some, Option.getD_some] at hn hk' ⊢
        exact LawfulIdContainer.nodup_push c id hn hk'
    · exact hn
  · intro k c hc
    rw [heq] at hc
    simp only [HMap.get?_upsert] at hc
    split_ifs at hc with hk
    · cases hc
      intro hnil
      have := (LawfulIdContainer.mem_push ((band.hashTable.get? (band.key s)).getD IdContainer.new) id id).mpr
        (.inl rfl)
      rw [hnil] at this
      cases this
    · exact E.nonempty k c hc
  · intro k x
    rw [hm, E.mem, hL]
    constructor
    · rintro (⟨rfl, rfl⟩ | ⟨s', h1, h2⟩)
      · exact ⟨s, by simp, Band.key_congr hs s⟩
      · have : x ≠ id := by rintro rfl; rw [hid] at h1; cases h1
        exact ⟨s', by simpa [this] using h1, (Band.key_congr hs s').trans h2⟩
    · rintro ⟨s', h1, h2⟩
      rw [Band.key_congr hs] at h2
      split_ifs at h1 with hx
      · cases h1; exact .inl ⟨h2.symm, hx⟩
      · exact .inr ⟨s', h1, h2⟩

theorem BandExact.remove {L L' : Id → Option (List T)} {band band' : Band T C} {id : Id} {s : List T}
    (E : BandExact L band) (hid : L id = some s) (h : band.remove id s = .ok band')
    (hL : ∀ x, L' x = if x = id then none else L x) : BandExact L' band' := by
  have hs := Band.remove_shape h
  have hb := Band.bucket_remove h
  have hf := Band.remove_ok_fits h
  have hnot : ∀ k, id ∉ band'.bucket k := by
    intro k hk
    rw [hb] at hk
    split_ifs at hk with hk'
    · have hn := E.nodup k
      unfold Band.bucket at hn
      cases hc : band.hashTable.get? k with
      | none => rw [hc] at hk; simp at hk
      | some c =>
        rw [hc] at hk hn
        simp only [Option.map_some, Option.getD_some] at hk hn
        exact LawfulIdContainer.notMem_remove c id hn hk
    · obtain ⟨s', h1, h2⟩ := (E.mem k id).mp hk
      rw [hid] at h1; cases h1
      exact hk' h2.symm
  refine ⟨?_, ?_, ?_⟩
  · intro k
    have hn := E.nodup k
    rw [hb]
    split_ifs with hk
    · unfold Band.bucket at hn
      cases hc : band.hashTable.get? k with
      | none => simp
      | some c =>
        rw [hc] at hn
        simp only [Option.map_some, Option.getD_some] at hn ⊢
        exact LawfulIdContainer.nodup_remove c id hn
    · exact hn
  · intro k c hc
    rw [Band.remove_eq_ok hf] at h
    cases hc2 : band.hashTable.get? (band.key s) with
    | none => rw [hc2] at h; cases h; exact E.nonempty k c hc
    | some c2 =>
      rw [hc2] at h
      cases h
      simp only at hc
      split_ifs at hc with he
      · rw [HMap.get?_erase] at hc
        split_ifs at hc
        exact E.nonempty k c hc
      · rw [HMap.get?_insert] at hc
        split_ifs at hc
        · cases hc
          intro hnil
          rw [← LawfulIdContainer.len_eq_zero] at hnil
          simp [IdContainer.isEmpty, hnil] at he
        · exact E.nonempty k c hc
  · intro k x
    rw [hL]
    by_cases hx : x = id
    · subst hx
      simp [hnot k]
    · rw [Band.mem_bucket_remove_ne h k hx, E.mem]
      simp only [hx, if_false, Band.key_congr hs]

theorem BandExact.foldl_insert {α : Type} (g : α → Id × List T) (items : List α)
    {L L' : Id → Option (List T)} {band band' : Band T C} (E : BandExact L band)
    (hnd : (items.map fun a => (g a).1).Nodup) (habs : ∀ a ∈ items, L (g a).1 = none)
    (h : items.foldlM (fun (bd : Band T C) p => bd.insert (g p).1 (g p).2) band = .ok band')
    (hL : ∀ x, L' x = (lastPair (items.map g) x).or (L x)) : BandExact L' band' := by
  induction items generalizing band L with
  | nil =>
    cases h
    exact E.congr fun x => by simp [hL, lastPair]
  | cons a items ih =>
    rw [List.foldlM_cons] at h
    rw [List.map_cons, List.nodup_cons] at hnd
    cases h1 : band.insert (g a).1 (g a).2 with
    | error e => rw [h1] at h; cases h
    | ok b1 =>
      rw [h1] at h
      have E1 := E.insert (L' := fun x => if x = (g a).1 then some (g a).2 else L x)
        (habs a (by simp)) h1 (fun x => rfl)
      refine ih E1 hnd.2 ?_ h ?_
      · intro c hc
        have : (g c).1 ≠ (g a).1 := fun e => hnd.1 (e ▸ List.mem_map_of_mem (f := fun a => (g a).1) hc)
        simp only [this, if_false]
        exact habs c (by simp [hc])
      · intro x
        rw [hL, List.map_cons, lastPair_cons]
        cases lastPair (items.map g) x with
        | some y => simp
        | none =>
          by_cases hx : x = (g a).1
          · subst hx; simp
          · simp [hx, Ne.symm hx]

theorem BandExact.foldl_remove {α : Type} (g : α → Id × List T) (items : List α)
    {L L' : Id → Option (List T)} {band band' : Band T C} (E : BandExact L band)
    (hnd : (items.map fun a => (g a).1).Nodup) (hpres : ∀ a ∈ items, L (g a).1 = some (g a).2)
    (h : items.foldlM (fun (bd : Band T C) p => bd.remove (g p).1 (g p).2) band = .ok band')
    (hL : ∀ x, L' x = if x ∈ items.map (fun a => (g a).1) then none else L x) : BandExact L' band' := by
  induction items generalizing band L with
  | nil =>
    cases h
    exact E.congr fun x => by simp [hL]
  | cons a items ih =>
    rw [List.foldlM_cons] at h
    rw [List.map_cons, List.nodup_cons] at hnd
    cases h1 : band.remove (g a).1 (g a).2 with
    | error e => rw [h1] at h; cases h
    | ok b1 =>
      rw [h1] at h
      have E1 := E.remove (L' := fun x => if x = (g a).1 then none else L x)
        (hpres a (by simp)) h1 (fun x => rfl)
      refine ih E1 hnd.2 ?_ h ?_
      · intro c hc
        have : (g c).1 ≠ (g a).1 := fun e => hnd.1 (e ▸ List.mem_map_of_mem (f := fun a => (g a).1) hc)
        simp only [this, if_false]
        exact hpres c (by simp [hc])
      · intro x
        rw [hL]
        simp only [List.map_cons, List.mem_cons]
        by_cases hx : x = (g a).1
        · simp [hx]
        · simp [hx]

/-! ### Exactness of the index on clean histories -/

/-- Every band is exact. -/
def Exact (L : Id → Option (List T)) (idx : MinHashIndex T Id C) : Prop :=
  ∀ band ∈ idx.bands, BandExact L band

theorem exact_new (h : List T → UInt64) (b r : Nat) (t : Fl) :
    Exact (fun _ => none) (MinHashIndex.newIndex b r t h : MinHashIndex T Id C) := by
  intro band hb
  simp only [MinHashIndex.newIndex, List.mem_map] at hb
  obtain ⟨i, _, rfl⟩ := hb
  refine ⟨?_, ?_, ?_⟩ <;> simp [Band.bucket, Band.new]

theorem zip_fst_nodup {ids : List Id} {sigs : List (List T)} (h : ((ids.zip sigs).map Prod.fst).Nodup) :
    ((sigs.zip ids).map fun a => a.2).Nodup := by
  rw [← List.zip_swap, List.map_map]
  exact h

theorem map_swap_zip (ids : List Id) (sigs : List (List T)) :
    (sigs.zip ids).map (fun p => (p.2, p.1)) = ids.zip sigs := by
  rw [← List.zip_swap sigs ids]; rfl

theorem exact_rehashed {L : Id → Option (List T)} {idx idx' : MinHashIndex T Id C} (E : Exact L idx)
    (hr : Rehashed idx idx') : Exact L idx' := by
  intro band hb
  obtain ⟨bd, hbd, e1, e2⟩ := forall₂_mem_right hr.bands band hb
  have E' := E bd hbd
  refine ⟨?_, ?_, ?_⟩
  · intro k; rw [Rehashed.bucket e2]; exact E'.nodup k
  · intro k c hc; exact E'.nonempty k c (by rw [← e2]; exact hc)
  · intro k x; rw [Rehashed.bucket e2, E'.mem]
    simp only [Band.key_congr e1]

theorem exact_step {h : List T → UInt64} {b r : Nat} {t : Fl} {L : Id → Option (List T)}
    {idx : MinHashIndex T Id C} (I : Inv h b r t L idx) (E : Exact L idx) (op : Op T Id)
    (hc : cleanCall (b * r) L op) : Exact (applyL (b * r) L op) (idx.step op).1 := by
  cases op with
  | insert id s =>
    show Exact _ (idx.insert id s).1
    by_cases hs : s.length = b * r
    · rw [insert_eq I id s hs]
      have hf := forEachMut_forall₂ _ _ (insert_bands I id s hs.ge)
      intro band hb
      obtain ⟨bd, hbd, e⟩ := forall₂_mem_right hf band hb
      refine (E bd hbd).insert (hc hs) e ?_
      intro x
      simp only [applyL, touch]
      by_cases hx : id = x
      · subst hx; simp [hs]
      · simp [hx, Ne.symm hx]
    · rw [insert_ne I id s hs]
      intro band hb
      exact (E band hb).congr fun x => by simp [applyL, touch, hs]
  | parBulkInsert ids sigs sched =>
    show Exact _ (idx.parBulkInsert ids sigs sched).1
    obtain ⟨ha, hnd, habs⟩ := hc
    rcases bulk_eq I ids sigs sched with ⟨_, hok, e⟩ | ⟨ha', _⟩
    · rw [e]
      intro band hb
      obtain ⟨bd, hbd, e⟩ := forall₂_mem_right (parForEach_ok _ hok) band hb
      refine (E bd hbd).foldl_insert (fun p : List T × Id => (p.2, p.1)) _ (zip_fst_nodup hnd) ?_ e ?_
      · intro a ha
        exact habs (a.2, a.1) (mem_zip_comm.mp ha)
      · intro x
        rw [map_swap_zip]
        simp only [applyL, touch, ha, if_true]
        cases lastPair (ids.zip sigs) x <;> rfl
    · rw [ha] at ha'; cases ha'
  | parBulkInsertPairs ps sched =>
    show Exact _ (idx.parBulkInsertPairs ps sched).1
    obtain ⟨ha, hnd, habs⟩ := hc
    rcases pairs_eq I ps sched with ⟨_, hok, e⟩ | ⟨ha', _⟩
    · rw [e]
      intro band hb
      obtain ⟨bd, hbd, e⟩ := forall₂_mem_right (parForEach_ok _ hok) band hb
      refine (E bd hbd).foldl_insert (fun p : Id × List T => p) _ hnd habs e ?_
      intro x
      simp only [applyL, touch, ha, if_true, List.map_id']
      cases lastPair ps x <;> rfl
    · rw [ha] at ha'; cases ha'
  | remove id =>
    show Exact _ (idx.remove id).1
    have hL : ∀ x, applyL (b * r) L (.remove id) x = if x = id then none else L x := by
      intro x
      simp only [applyL, touch]
      by_cases hx : id = x
      · subst hx; simp
      · simp [hx, Ne.symm hx]
    cases hs : L id with
    | none =>
      rw [remove_none I id hs]
      intro band hb
      refine (E band hb).congr fun x => ?_
      rw [hL]; split_ifs with hx
      · subst hx; exact hs.symm
      · rfl
    | some s =>
      rw [remove_some I id s hs]
      have hf := forEachMut_forall₂ _ _ (remove_bands I id s hs)
      intro band hb
      obtain ⟨bd, hbd, e⟩ := forall₂_mem_right hf band hb
      exact (E bd hbd).remove hs e hL
  | bulkRemove ids sched =>
    show Exact _ (idx.bulkRemove ids sched).1
    obtain ⟨hnd, hpres⟩ := hc
    obtain ⟨hok, e⟩ := bulkRemove_eq I ids sched
    rw [e]
    have ht := take_distinct idx.idSignatures ids hnd (fun id hid => by rw [I.sigs]; exact hpres id hid)
    have hlen := ht.length_eq
    have hmap : ((MinHashIndex.takeSignatures idx.idSignatures ids).2.zip ids).map (fun a => a.2) = ids :=
      List.map_snd_zip (by omega)
    intro band hb
    obtain ⟨bd, hbd, e⟩ := forall₂_mem_right (parForEach_ok _ hok) band hb
    refine (E bd hbd).foldl_remove (fun p : List T × Id => (p.2, p.1)) _ (by rw [hmap]; exact hnd) ?_ e ?_
    · intro a ha
      have ha' : (a.2, a.1) ∈ ids.zip (MinHashIndex.takeSignatures idx.idSignatures ids).2 := mem_zip_comm.mp ha
      have := (List.forall₂_iff_zip.mp ht).2 ha'
      rw [I.sigs] at this; exact this
    · intro x
      rw [hmap]
      simp only [applyL, touch]
      by_cases hx : x ∈ ids <;> simp [hx]
  | clear =>
    intro band hb
    simp only [MinHashIndex.step, MinHashIndex.clear, List.mem_map] at hb
    obtain ⟨bd, _, rfl⟩ := hb
    refine ⟨?_, ?_, ?_⟩ <;> simp [Band.bucket, Band.clear, applyL, touch]
  | shrinkToFit o => exact exact_rehashed E (shrinkToFit_rehashed o idx)
  | shrinkTo m c o sched => exact exact_rehashed E (shrinkTo_rehashed o idx m c sched)

theorem Clean.init {n : Nat} {ops : List (Op T Id)} {op : Op T Id} (h : Clean n (ops ++ [op])) :
    Clean n ops ∧ cleanCall n (live n ops) op := by
  refine ⟨?_, h ops op [] rfl⟩
  intro pre o post e
  exact h pre o (post ++ [op]) (by rw [e]; simp)

theorem exact_run (h : List T → UInt64) (b r : Nat) (t : Fl) (ops : List (Op T Id))
    (hc : Clean (b * r) ops) :
    Exact (live (b * r) ops) ((MinHashIndex.newIndex b r t h : MinHashIndex T Id C).run ops) := by
  induction ops using List.reverseRecOn with
  | nil => exact exact_new h b r t
  | append_singleton ops op ih =>
    obtain ⟨h1, h2⟩ := Clean.init hc
    rw [run_snoc, live_snoc]
    exact exact_step (inv_run h b r t ops) (ih h1) op h2

/-! ### Queries -/

theorem band_query_ok {band : Band T C} {q : List T} (hf : band.Fits q) (S : HSet Id) :
    ∃ S', band.query q S = .ok S' ∧ ∀ x, x ∈ S'.elems ↔ x ∈ S.elems ∨ x ∈ band.bucket (band.key q) := by
  unfold Band.query
  rw [Band.keyOf_ok hf]
  show ∃ S' : HSet Id, (match band.hashTable.get? (band.key q) with
    | some ids => (pure (S.extend (IdContainer.ids ids)) : Except Panic (HSet Id))
    | none => pure S) = .ok S' ∧ _
  unfold Band.bucket
  cases band.hashTable.get? (band.key q) with
  | none => exact ⟨S, rfl, by simp⟩
  | some c => exact ⟨_, rfl, by simp⟩

theorem band_queryToOwned_eq (band : Band T C) (q : List T) (S : HSet Id) :
    band.queryToOwned q S = band.query q S := rfl

theorem candidates_aux (bands : List (Band T C)) (q : List T) (hf : ∀ band ∈ bands, band.Fits q)
    (S : HSet Id) :
    ∃ S', bands.foldlM (fun matchIds band => band.query q matchIds) S = .ok S' ∧
      ∀ x, x ∈ S'.elems ↔ x ∈ S.elems ∨ ∃ band ∈ bands, x ∈ band.bucket (band.key q) := by
  induction bands generalizing S with
  | nil => exact ⟨S, rfl, by simp⟩
  | cons bd bands ih =>
    obtain ⟨S1, e1, h1⟩ := band_query_ok (hf bd (by simp)) S
    obtain ⟨S2, e2, h2⟩ := ih (fun b hb => hf b (by simp [hb])) S1
    refine ⟨S2, ?_, ?_⟩
    · rw [List.foldlM_cons, e1]; exact e2
    · intro x
      rw [h2, h1]
      simp only [List.mem_cons, exists_eq_or_imp]
      tauto

theorem candidates_ok {h : List T → UInt64} {b r : Nat} {t : Fl} {L : Id → Option (List T)}
    {idx : MinHashIndex T Id C} (I : Inv h b r t L idx) (q : List T) (hq : q.length = b * r) :
    ∃ S, idx.candidates q = .ok S ∧ idx.candidatesOwned q = .ok S ∧
      ∀ x, x ∈ S.elems ↔ ∃ band ∈ idx.bands, x ∈ band.bucket (band.key q) := by
  obtain ⟨S, e, hS⟩ := candidates_aux idx.bands q ((all_fits_iff I.shapes q).mpr hq.ge) HSet.empty
  exact ⟨S, e, e, by simpa using hS⟩

/-- Present ids whose signature agrees with the query on a band are candidates. -/
theorem candidate_of_band {h : List T → UInt64} {b r : Nat} {t : Fl} {L : Id → Option (List T)}
    {idx : MinHashIndex T Id C} (I : Inv h b r t L idx) {q s : List T} {id : Id} (hL : L id = some s)
    {i : Nat} (hi : i < b) (he : h (bandOf r s i) = h (bandOf r q i)) :
    ∃ band ∈ idx.bands, id ∈ band.bucket (band.key q) := by
  obtain ⟨band, h1, h2⟩ := Inv.shape_band I.shapes hi
  refine ⟨band, h1, ?_⟩
  have := I.bucketed band h1 id s hL
  rwa [key_of_shape h2, he, ← key_of_shape h2 q] at this

/-- On clean histories candidates are exactly the present ids sharing a band key. -/
theorem candidate_exact {h : List T → UInt64} {b r : Nat} {t : Fl} {L : Id → Option (List T)}
    {idx : MinHashIndex T Id C} (I : Inv h b r t L idx) (E : Exact L idx) (q : List T) (id : Id) :
    (∃ band ∈ idx.bands, id ∈ band.bucket (band.key q)) ↔
      ∃ s, L id = some s ∧ ∃ i < b, h (bandOf r s i) = h (bandOf r q i) := by
  constructor
  · rintro ⟨band, hb, hm⟩
    obtain ⟨s, h1, h2⟩ := ((E band hb).mem _ _).mp hm
    obtain ⟨i, hi, e⟩ := Inv.band_shape I.shapes hb
    refine ⟨s, h1, i, hi, ?_⟩
    rw [← key_of_shape e s, h2, key_of_shape e q]
  · rintro ⟨s, h1, i, hi, e⟩
    exact candidate_of_band I h1 hi e

theorem sameBand_bandOf {r i : Nat} {s q : List T} (h : sameBand r s q i) :
    bandOf r s i = bandOf r q i := by
  unfold bandOf
  apply List.ext_getElem?
  intro j
  rw [List.getElem?_take, List.getElem?_take]
  split_ifs with hj
  · rw [List.getElem?_drop, List.getElem?_drop]
    exact h _ (by omega) (by rw [Nat.add_mul]; omega)
  · rfl

/-- The filter of the query functions. -/
theorem keeps_iff {h : List T → UInt64} {b r : Nat} {t : Fl} {L : Id → Option (List T)}
    {idx : MinHashIndex T Id C} (I : Inv h b r t L idx) (q : List T) (id : Id) :
    idx.keeps q id = .ok true ↔ ∃ s v, L id = some s ∧ minhashSimilarity s q = .ok v ∧ Fl.ge v t = true := by
  unfold MinHashIndex.keeps
  rw [I.sigs, I.ht]
  cases hL : L id with
  | none => simp
  | some s =>
    simp only [Option.some.injEq, exists_and_left, exists_eq_left']
    cases minhashSimilarity s q with
    | error e => constructor <;> intro h' <;> [cases h'; (obtain ⟨v, h1, _⟩ := h'; cases h1)]
    | ok v =>
      show (Except.ok (Fl.ge v t) : Except Panic Bool) = .ok true ↔ _
      constructor
      · intro h'; injection h' with h'; exact ⟨v, rfl, h'⟩
      · rintro ⟨v', h1, h2⟩; cases h1; rw [h2]

theorem keeps_ok {h : List T → UInt64} {b r : Nat} {t : Fl} {L : Id → Option (List T)}
    {idx : MinHashIndex T Id C} (I : Inv h b r t L idx) (q : List T) (id : Id) :
    (∃ v, idx.keeps q id = .ok v) ↔ ∀ s, L id = some s → s.length = q.length := by
  unfold MinHashIndex.keeps
  rw [I.sigs, I.ht]
  cases hL : L id with
  | none => simp
  | some s =>
    simp only [Option.some.injEq, forall_eq']
    rw [← minhashSimilarity_ok_iff]
    cases minhashSimilarity s q with
    | error e => constructor <;> rintro ⟨v, h'⟩ <;> cases h'
    | ok v => exact ⟨fun _ => ⟨v, rfl⟩, fun _ => ⟨_, rfl⟩⟩

/-- What a query that returns contains. -/
theorem query_mem {h : List T → UInt64} {b r : Nat} {t : Fl} {L : Id → Option (List T)}
    {idx : MinHashIndex T Id C} (I : Inv h b r t L idx) {q : List T} {res : HSet Id}
    (hr : idx.query q = .ok res) :
    q.length = b * r ∧ ∀ id, id ∈ res.elems ↔ (∃ band ∈ idx.bands, id ∈ band.bucket (band.key q)) ∧
      ∃ s v, L id = some s ∧ minhashSimilarity s q = .ok v ∧ Fl.ge v t = true := by
  unfold MinHashIndex.query at hr
  split_ifs at hr with hq
  rw [I.hn] at hq
  refine ⟨hq.symm, fun id => ?_⟩
  obtain ⟨S, e, _, hS⟩ := candidates_ok I q hq.symm
  rw [e] at hr
  have := HSet.mem_of_retainE (s := S) hr id
  rw [this, hS, keeps_iff I]

/-- When a query returns. -/
theorem query_ok_iff {h : List T → UInt64} {b r : Nat} {t : Fl} {L : Id → Option (List T)}
    {idx : MinHashIndex T Id C} (I : Inv h b r t L idx) {q : List T} (hq : q.length = b * r) :
    (∃ res, idx.query q = .ok res) ↔ ∀ id s, (∃ band ∈ idx.bands, id ∈ band.bucket (band.key q)) →
      L id = some s → s.length = b * r := by
  unfold MinHashIndex.query
  rw [if_pos (I.hn.trans hq.symm)]
  obtain ⟨S, e, _, hS⟩ := candidates_ok I q hq
  rw [e]
  show (∃ res, S.retainE (idx.keeps q) = .ok res) ↔ _
  constructor
  · rintro ⟨res, hr⟩ id s hc hL
    have := (keeps_ok I q id).mp ((HSet.retainE_ok_iff.mp hr).1 id ((hS id).mpr hc)) s hL
    omega
  · intro hall
    exact ⟨_, HSet.retainE_ok_iff.mpr ⟨fun a ha => (keeps_ok I q a).mpr fun s hL => by
      rw [hq]; exact hall a s ((hS a).mp ha) hL, rfl⟩⟩

theorem query_returns {h : List T → UInt64} {b r : Nat} {t : Fl} {L : Id → Option (List T)}
    {idx : MinHashIndex T Id C} (I : Inv h b r t L idx) {q : List T} (hq : q.length = b * r)
    (hall : ∀ id s, L id = some s → s.length = b * r) : ∃ res, idx.query q = .ok res :=
  (query_ok_iff I hq).mpr fun id s _ hL => hall id s hL

theorem rightLengths_live {n : Nat} {ops : List (Op T Id)} (h : RightLengths n ops) :
    ∀ id s, live n ops id = some s → s.length = n := by
  induction ops using List.reverseRecOn with
  | nil => intro id s hs; cases hs
  | append_singleton ops op ih =>
    have ih := ih fun o ho => h o (by simp [ho])
    have hop := h op (by simp)
    intro id s hs
    rw [live_snoc] at hs
    unfold applyL at hs
    cases ht : touch n id op with
    | none => rw [ht] at hs; exact ih id s hs
    | some v =>
      rw [ht] at hs
      simp only at hs
      subst hs
      cases op with
      | insert id' s' =>
        simp only [touch] at ht
        split_ifs at ht with hc
        cases ht; exact hc.2
      | parBulkInsert ids sigs sched =>
        simp only [touch] at ht
        split_ifs at ht with hc
        cases hl : lastPair (ids.zip sigs) id with
        | none => rw [hl] at ht; cases ht
        | some s' =>
          rw [hl] at ht; cases ht
          have := (List.of_mem_zip (lastPair_mem hl)).2
          exact hop _ (by simpa [sigsOf] using this)
      | parBulkInsertPairs ps sched =>
        simp only [touch] at ht
        split_ifs at ht with hc
        cases hl : lastPair ps id with
        | none => rw [hl] at ht; cases ht
        | some s' =>
          rw [hl] at ht; cases ht
          exact hop _ (by simpa [sigsOf] using ⟨_, lastPair_mem hl⟩)
      | remove id' => simp only [touch] at ht; split_ifs at ht; cases ht
      | bulkRemove ids sched => simp only [touch] at ht; split_ifs at ht; cases ht
      | clear => cases ht
      | shrinkToFit _ => cases ht
      | shrinkTo _ _ _ _ => cases ht

theorem query_owned_eq (idx : MinHashIndex T Id C) (q : List T) : idx.queryOwned q = idx.query q := rfl

end
end Verif
