import Verif.Spec.SimHashIndex
import Verif.Lemmas.Permutation
import Verif.Lemmas.Prelude

/-! # Lemmas on the SimHash index -/
namespace Verif
open Verif.Spec
variable {w : Nat} {Id : Type} [DecidableEq Id]

/-! ### Fuel -/

theorem lowLoop_mono (mask : BitVec w) (fuel fuel' i x : Nat) (hf : fuel ≤ fuel') (h : lowLoop mask fuel i = .ok x) :
    lowLoop mask fuel' i = .ok x := by
  induction fuel generalizing fuel' i with
  | zero => cases h
  | succ fuel ih =>
    obtain ⟨f', rfl⟩ : ∃ f', fuel' = f' + 1 := ⟨fuel' - 1, by omega⟩
    unfold lowLoop at h ⊢
    split_ifs at h ⊢
    · exact ih f' (i + 1) (by omega) h
    · exact h

theorem measure_mono (masks : List (BitVec w)) (fuel fuel' W : Nat) (r : List (Nat × Int)) (hf : fuel ≤ fuel')
    (h : measure fuel W masks = .ok r) : measure fuel' W masks = .ok r := by
  induction masks generalizing W r with
  | nil => exact h
  | cons m masks ih =>
    rw [measure] at h ⊢
    cases e : lowLoop m fuel 0 with
    | error _ => rw [e] at h; cases h
    | ok i =>
      rw [e] at h
      rw [lowLoop_mono m fuel fuel' 0 i hf e]
      simp only [bind, Except.bind] at h ⊢
      cases e2 : measure fuel (W + (highLoop m (w - i) i - i)) masks with
      | error _ => rw [e2] at h; cases h
      | ok rest =>
        rw [e2] at h
        rw [ih _ _ e2]
        exact h

theorem new_mono (masks choice : List (BitVec w)) (fuel fuel' d : Nat) (p : Permutation w) (hf : fuel ≤ fuel')
    (h : Permutation.new fuel d masks choice = .ok p) : Permutation.new fuel' d masks choice = .ok p := by
  unfold Permutation.new at h ⊢
  cases e : measure fuel 0 masks with
  | error _ => rw [e] at h; cases h
  | ok ms =>
    rw [e] at h
    rw [measure_mono masks fuel fuel' 0 ms hf e]
    exact h

theorem create_mono {nb d : Nat} (fuel fuel' : Nat) (ts : List (Permutation w)) (hf : fuel ≤ fuel')
    (h : Permutation.create fuel w nb d = .ok ts) : Permutation.create fuel' w nb d = .ok ts := by
  unfold Permutation.create at h ⊢
  simp only at h ⊢
  split_ifs at h ⊢
  rw [mapM_ok_iff] at h ⊢
  exact h.imp fun a b hab => new_mono _ _ _ _ _ _ hf hab

/-- When `create` returns at all. -/
theorem create_ok {nb d fuel : Nat} {ts : List (Permutation w)} (h : Permutation.create fuel w nb d = .ok ts) :
    nb ≤ w ∧ d ≤ nb ∧ ts = (combinations (nb - d) (List.range nb)).map (permOf w nb) := by
  have hd : d ≤ nb := by
    by_contra hc
    unfold Permutation.create at h
    simp only at h
    rw [if_pos (by omega)] at h
    cases h
  have hn : nb ≤ w := by
    by_contra hc
    rw [create_diverges (by omega) hd] at h
    cases h
  refine ⟨hn, hd, ?_⟩
  have h1 := create_mono fuel (max fuel w) ts (by omega) h
  rw [create_eq hn hd (by omega)] at h1
  injection h1 with h1
  exact h1.symm

/-! ### Tables -/

/-- Ids of the pairs that fall in the bucket `k`. -/
def bucketIds (mask : BitVec w) (ps : List (Id × BitVec w)) (k : BitVec w) : List Id :=
  (ps.filter fun p => decide (p.2 &&& mask = k)).map Prod.fst

theorem insertAll_table (t : SimTable w Id) (ps : List (Id × BitVec w)) :
    (ps.foldl (fun t p => t.insert p.1 p.2) t).permutation = t.permutation ∧
    ∀ k, (ps.foldl (fun t p => t.insert p.1 p.2) t).table.get? k =
      if bucketIds t.permutation.simpleMask ps k = [] then t.table.get? k
      else some ((t.table.get? k).getD [] ++ bucketIds t.permutation.simpleMask ps k) := by
  induction ps generalizing t with
  | nil => exact ⟨rfl, fun k => by simp [bucketIds]⟩
  | cons p ps ih =>
    obtain ⟨h1, h2⟩ := ih (t.insert p.1 p.2)
    rw [List.foldl_cons]
    refine ⟨h1, fun k => ?_⟩
    rw [h2]
    have hp : (t.insert p.1 p.2).permutation = t.permutation := rfl
    have ht : (t.insert p.1 p.2).table.get? k =
        if p.2 &&& t.permutation.simpleMask = k then some ((t.table.get? k).getD [] ++ [p.1]) else t.table.get? k := by
      unfold SimTable.insert
      simp only
      rw [HMap.get?_upsert]
      by_cases e : p.2 &&& t.permutation.simpleMask = k
      · subst e
        simp
      · have : k ≠ p.2 &&& t.permutation.simpleMask := fun h => e h.symm
        simp [e, this]
    have hc : bucketIds t.permutation.simpleMask (p :: ps) k =
        (if p.2 &&& t.permutation.simpleMask = k then [p.1] else []) ++ bucketIds t.permutation.simpleMask ps k := by
      unfold bucketIds
      by_cases e : p.2 &&& t.permutation.simpleMask = k
      · rw [List.filter_cons_of_pos (by simpa using e)]; simp [e]
      · rw [List.filter_cons_of_neg (by simpa using e)]; simp [e]
    rw [hp, ht, hc]
    by_cases e : p.2 &&& t.permutation.simpleMask = k
    · simp only [e, if_true]
      by_cases h : bucketIds t.permutation.simpleMask ps k = []
      · simp [h]
      · simp [h]
    · simp only [e, if_false, List.nil_append]

/-! ### Histories -/

theorem parForEach_total {σ ω : Type} (g : σ → ω → σ) (items : List σ) (ops : List ω) (sched : List Nat) :
    parForEach (fun s op => .ok (g s op)) items ops sched = (items.map fun s => ops.foldl g s, .ok ()) := by
  have hfold : ∀ s, ops.foldlM (fun s op => (.ok (g s op) : Except Panic σ)) s = .ok (ops.foldl g s) := by
    intro s
    induction ops generalizing s with
    | nil => rfl
    | cons o ops ih => rw [List.foldlM_cons]; exact ih (g s o)
  have h1 := parForEach_returns (f := fun s op => (.ok (g s op) : Except Panic σ)) (items := items) (ops := ops) sched
    (fun s _ => ⟨_, hfold s⟩)
  have h2 := parForEach_ok _ h1
  refine Prod.ext ?_ h1
  simp only
  generalize (parForEach (fun s op => (.ok (g s op) : Except Panic σ)) items ops sched).1 = r at h2
  clear h1
  induction h2 with
  | nil => rfl
  | cons ha _ ih =>
    rw [hfold] at ha
    injection ha with ha
    rw [List.map_cons, ← ih, ha]

/-- One by one insertion of pairs. -/
def SimIndex.insertSeq (idx : SimIndex w Id) (ps : List (Id × BitVec w)) : SimIndex w Id :=
  ps.foldl (fun idx p => idx.insert p.1 p.2) idx

theorem insertSeq_eq (idx : SimIndex w Id) (ps : List (Id × BitVec w)) :
    idx.insertSeq ps = { idx with
      hashTables := idx.hashTables.map fun t => ps.foldl (fun t p => t.insert p.1 p.2) t
      idSignatures := ps.foldl (fun m p => m.insert p.1 p.2) idx.idSignatures } := by
  unfold SimIndex.insertSeq
  induction ps generalizing idx with
  | nil => simp
  | cons p ps ih =>
    rw [List.foldl_cons, ih]
    unfold SimIndex.insert
    simp only [List.map_map, List.foldl_cons]
    rfl

/-- Equal up to the iteration order of the signature map. -/
structure SimSame (a b : SimIndex w Id) : Prop where
  blocks : a.numBlocks = b.numBlocks
  distance : a.hammingDistance = b.hammingDistance
  tables : a.hashTables = b.hashTables
  signatures : ∀ id, a.idSignatures.get? id = b.idSignatures.get? id
  size : a.size = b.size

theorem SimSame.refl (a : SimIndex w Id) : SimSame a a := ⟨rfl, rfl, rfl, fun _ => rfl, rfl⟩

theorem SimSame.trans {a b c : SimIndex w Id} (h : SimSame a b) (h' : SimSame b c) : SimSame a c :=
  ⟨h.1.trans h'.1, h.2.trans h'.2, h.3.trans h'.3, fun id => (h.4 id).trans (h'.4 id), h.5.trans h'.5⟩

theorem parBulkInsertPairs_eq (o : Order) (idx : SimIndex w Id) (ps : List (Id × BitVec w)) (sched : List Nat) :
    (idx.parBulkInsertPairs o ps sched).2 = .ok () ∧ SimSame (idx.parBulkInsertPairs o ps sched).1 (idx.insertSeq ps) := by
  unfold SimIndex.parBulkInsertPairs
  rw [parForEach_total (fun (t : SimTable w Id) (p : Id × BitVec w) => t.insert p.1 p.2), insertSeq_eq]
  exact ⟨rfl, rfl, rfl, rfl, fun id => HMap.get?_rehash _ _ _, rfl⟩

theorem parBulkInsert_eq (o : Order) (idx : SimIndex w Id) (ids : List Id) (ss : List (BitVec w)) (sched : List Nat) :
    idx.parBulkInsert o ids ss sched = idx.parBulkInsertPairs o (ids.zip ss) sched := rfl

theorem foldl_insert_congr {m m' : HMap Id (BitVec w)} (h : ∀ id, m.get? id = m'.get? id) (ps : List (Id × BitVec w))
    (id : Id) : (ps.foldl (fun m p => m.insert p.1 p.2) m).get? id =
      (ps.foldl (fun m p => m.insert p.1 p.2) m').get? id := by
  induction ps generalizing m m' with
  | nil => exact h id
  | cons p ps ih =>
    rw [List.foldl_cons, List.foldl_cons]
    apply ih
    intro id
    rw [HMap.get?_insert, HMap.get?_insert, h]

theorem SimSame.insertSeq {a b : SimIndex w Id} (h : SimSame a b) (ps : List (Id × BitVec w)) :
    SimSame (a.insertSeq ps) (b.insertSeq ps) := by
  rw [insertSeq_eq, insertSeq_eq]
  exact ⟨h.1, h.2, by simp only [h.3], fun id => foldl_insert_congr h.4 ps id, h.5⟩

theorem insertSeq_append (idx : SimIndex w Id) (ps qs : List (Id × BitVec w)) :
    idx.insertSeq (ps ++ qs) = (idx.insertSeq ps).insertSeq qs := by
  unfold SimIndex.insertSeq
  rw [List.foldl_append]

/-- Every history amounts to the one by one insertion of the assigned pairs. -/
theorem run_same (idx : SimIndex w Id) (ops : List (SimOp w Id)) :
    SimSame (idx.run ops) (idx.insertSeq (assigned ops)) := by
  have key : ∀ (ops : List (SimOp w Id)) (a b : SimIndex w Id), SimSame a b →
      SimSame (a.run ops) (b.insertSeq (assigned ops)) := by
    intro ops
    induction ops with
    | nil => intro a b h; exact h
    | cons op ops ih =>
      intro a b h
      unfold SimIndex.run
      rw [List.foldl_cons]
      change SimSame ((a.step op).run ops) _
      cases op with
      | insert id s =>
        change SimSame _ ((b.insertSeq [(id, s)]).insertSeq (assigned ops))
        exact ih _ _ (h.insertSeq [(id, s)])
      | parBulkInsert ids ss o sched =>
        change SimSame _ (b.insertSeq (ids.zip ss ++ assigned ops))
        rw [insertSeq_append]
        exact ih _ _ ((parBulkInsertPairs_eq o a (ids.zip ss) sched).2.trans (h.insertSeq _))
      | parBulkInsertPairs ps o sched =>
        change SimSame _ (b.insertSeq (ps ++ assigned ops))
        rw [insertSeq_append]
        exact ih _ _ ((parBulkInsertPairs_eq o a ps sched).2.trans (h.insertSeq _))
  exact key ops idx idx (SimSame.refl idx)

theorem get?_foldl_insert (m : HMap Id (BitVec w)) (ps : List (Id × BitVec w)) (id : Id) :
    (ps.foldl (fun m p => m.insert p.1 p.2) m).get? id = (lastSig ps id).or (m.get? id) := by
  induction ps generalizing m with
  | nil => simp [lastSig]
  | cons p ps ih =>
    rw [List.foldl_cons, ih, HMap.get?_insert]
    unfold lastSig
    rw [List.reverse_cons, List.find?_append]
    cases h : List.find? (fun p => decide (p.1 = id)) ps.reverse with
    | some v => simp
    | none =>
      by_cases e : p.1 = id
      · simp [e]
      · have : id ≠ p.1 := fun h => e h.symm
        simp [e, this]

theorem lastSig_mem {ps : List (Id × BitVec w)} {id : Id} {s : BitVec w} (h : lastSig ps id = some s) :
    (id, s) ∈ ps := by
  unfold lastSig at h
  obtain ⟨p, hp, rfl⟩ := Option.map_eq_some_iff.mp h
  have h1 := List.mem_of_find?_eq_some hp
  have h2 := List.find?_some hp
  simp only [decide_eq_true_eq] at h2
  subst h2
  exact List.mem_reverse.mp h1

theorem lastSig_isSome {ps : List (Id × BitVec w)} {id : Id} {s : BitVec w} (h : (id, s) ∈ ps) :
    ∃ s', lastSig ps id = some s' := by
  unfold lastSig
  cases e : ps.reverse.find? fun p => decide (p.1 = id) with
  | some v => exact ⟨v.2, rfl⟩
  | none =>
    rw [List.find?_eq_none] at e
    exact absurd (by simp) (e _ (List.mem_reverse.mpr h))

/-! ### State reached from a new index -/

/-- What a state reached from `new` by calls assigning `ps` looks like. -/
structure SimReach (nb d : Nat) (ps : List (Id × BitVec w)) (idx : SimIndex w Id) : Prop where
  nb_le : nb ≤ w
  d_le : d ≤ nb
  distance : idx.hammingDistance = d
  tables : idx.hashTables = (combinations (nb - d) (List.range nb)).map fun ks =>
    ps.foldl (fun t p => t.insert p.1 p.2) (SimTable.new (permOf w nb ks))
  signatures : ∀ id, idx.idSignatures.get? id = lastSig ps id
  size : idx.size = 0

theorem new_eq_ok {fuel nb d : Nat} {idx : SimIndex w Id} (h : SimIndex.new fuel w Id nb d = .ok idx) :
    SimReach nb d [] idx := by
  unfold SimIndex.new at h
  cases e : Permutation.create fuel w nb d with
  | error _ => rw [e] at h; cases h
  | ok ts =>
    rw [e] at h
    obtain ⟨hn, hd, rfl⟩ := create_ok e
    simp only [bind, Except.bind] at h
    split at h
    · cases h
    · injection h with h
      subst h
      exact ⟨hn, hd, rfl, by simp [List.map_map], fun id => by simp [lastSig], rfl⟩

omit [DecidableEq Id] in
theorem new_returns {fuel nb d : Nat} (hn : nb ≤ w) (hd : d ≤ nb) (hf : w ≤ fuel) :
    ∃ idx, SimIndex.new fuel w Id nb d = .ok idx := by
  unfold SimIndex.new
  rw [create_eq hn hd hf]
  simp only [bind, Except.bind]
  have hne : (combinations (nb - d) (List.range nb)).length ≠ 0 := by
    rw [combinations_length, List.length_range]
    exact (Nat.choose_pos (by omega)).ne'
  cases e : maxBy compare (((combinations (nb - d) (List.range nb)).map (permOf w nb)).map fun p => p.width) with
  | none =>
    have := ((maxBy_spec (fun x : Nat => x) _).1).mp e
    rw [List.map_eq_nil_iff, List.map_eq_nil_iff] at this
    rw [this] at hne
    exact absurd rfl hne
  | some m => exact ⟨_, rfl⟩

theorem reach_run {fuel nb d : Nat} {idx : SimIndex w Id} (h : SimIndex.new fuel w Id nb d = .ok idx)
    (ops : List (SimOp w Id)) : SimReach nb d (assigned ops) (idx.run ops) := by
  have h0 := new_eq_ok h
  have hs := run_same idx ops
  rw [insertSeq_eq] at hs
  refine ⟨h0.1, h0.2, hs.distance.trans h0.3, ?_, fun id => ?_, hs.size.trans h0.6⟩
  · rw [hs.tables]
    simp only
    rw [h0.tables, List.map_map]
    rfl
  · rw [hs.signatures]
    simp only
    rw [get?_foldl_insert, h0.signatures]
    simp [lastSig]

/-! ### Queries -/

theorem filterM_ok {α : Type} (p : α → Except Panic Bool) (g : α → Bool) (l : List α) (h : ∀ a ∈ l, p a = .ok (g a)) :
    l.filterM p = .ok (l.filter g) := by
  have aux : ∀ (l acc : List α), (∀ a ∈ l, p a = .ok (g a)) →
      l.filterAuxM p acc = .ok ((l.filter g).reverse ++ acc) := by
    intro l
    induction l with
    | nil => intro acc _; rfl
    | cons a l ih =>
      intro acc h
      rw [List.filterAuxM, h a (by simp)]
      simp only [bind, Except.bind]
      rw [ih _ fun b hb => h b (by simp [hb])]
      cases hg : g a <;> simp [hg]
  unfold List.filterM
  rw [aux l [] h]
  simp [bind, Except.bind, pure, Except.pure]

variable {nb d : Nat} {ps : List (Id × BitVec w)} {idx : SimIndex w Id}

theorem SimReach.bucket (R : SimReach nb d ps idx) {t : SimTable w Id} (ht : t ∈ idx.hashTables) (k : BitVec w) :
    t.table.get? k = if bucketIds t.permutation.simpleMask ps k = [] then none
      else some (bucketIds t.permutation.simpleMask ps k) := by
  rw [R.tables] at ht
  obtain ⟨ks, _, rfl⟩ := List.mem_map.mp ht
  obtain ⟨h1, h2⟩ := insertAll_table (SimTable.new (permOf w nb ks)) ps
  rw [h2, h1]
  simp [SimTable.new]

theorem SimReach.query_table (R : SimReach nb d ps idx) {t : SimTable w Id} (ht : t ∈ idx.hashTables) (q : BitVec w)
    (acc : HSet Id) : ∃ s, t.query q idx.idSignatures acc d = .ok s ∧
      ∀ id, id ∈ s.elems ↔ id ∈ acc.elems ∨ id ∈ bucketIds t.permutation.simpleMask ps (q &&& t.permutation.simpleMask) ∧
        ∃ sig, lastSig ps id = some sig ∧ hammingDistance q sig < d := by
  unfold SimTable.query
  rw [R.bucket ht]
  split_ifs with h
  · exact ⟨acc, rfl, fun id => by simp [h]⟩
  · simp only
    rw [filterM_ok _ (fun id => match lastSig ps id with
      | some sig => decide (hammingDistance q sig < d)
      | none => false)]
    · refine ⟨_, rfl, fun id => ?_⟩
      rw [HSet.mem_extend, List.mem_filter]
      cases e : lastSig ps id <;> simp
    · intro id hid
      obtain ⟨p, hp, rfl⟩ := List.mem_map.mp hid
      obtain ⟨s, hs⟩ := lastSig_isSome (List.mem_filter.mp hp).1
      unfold SimTable.close
      rw [R.signatures, hs]
      rfl

theorem SimReach.query_fold (R : SimReach nb d ps idx) (q : BitVec w) (ts : List (SimTable w Id))
    (hts : ∀ t ∈ ts, t ∈ idx.hashTables) (acc : HSet Id) :
    ∃ s, ts.foldlM (fun matchIds table => SimTable.query table q idx.idSignatures matchIds d) acc = .ok s ∧
      ∀ id, id ∈ s.elems ↔ id ∈ acc.elems ∨
        (∃ t ∈ ts, id ∈ bucketIds t.permutation.simpleMask ps (q &&& t.permutation.simpleMask)) ∧
        ∃ sig, lastSig ps id = some sig ∧ hammingDistance q sig < d := by
  induction ts generalizing acc with
  | nil => exact ⟨acc, rfl, fun id => by simp⟩
  | cons t ts ih =>
    obtain ⟨s1, e1, m1⟩ := R.query_table (hts t (by simp)) q acc
    obtain ⟨s2, e2, m2⟩ := ih (fun t ht => hts t (by simp [ht])) s1
    refine ⟨s2, ?_, fun id => ?_⟩
    · rw [List.foldlM_cons, e1]; exact e2
    · rw [m2, m1]
      constructor
      · rintro ((h | ⟨h1, h2⟩) | ⟨⟨t', h1, h1'⟩, h2⟩)
        · exact Or.inl h
        · exact Or.inr ⟨⟨t, by simp, h1⟩, h2⟩
        · exact Or.inr ⟨⟨t', by simp [h1], h1'⟩, h2⟩
      · rintro (h | ⟨⟨t', h1, h1'⟩, h2⟩)
        · exact Or.inl (Or.inl h)
        · rcases List.mem_cons.mp h1 with rfl | h1
          · exact Or.inl (Or.inr ⟨h1', h2⟩)
          · exact Or.inr ⟨⟨t', h1, h1'⟩, h2⟩

theorem SimReach.pigeonhole (R : SimReach nb d ps idx) {id : Id} {x : BitVec w} (hx : (id, x) ∈ ps) (q : BitVec w)
    (h : hammingDistance q x ≤ d) : ∃ t ∈ idx.hashTables,
      id ∈ bucketIds t.permutation.simpleMask ps (q &&& t.permutation.simpleMask) := by
  obtain ⟨ks, hks, hag⟩ := Verif.pigeonhole (nb := nb) q x h
  rw [R.tables]
  refine ⟨_, List.mem_map.mpr ⟨ks, hks, rfl⟩, ?_⟩
  rw [(insertAll_table (SimTable.new (permOf w nb ks)) ps).1]
  have hlt : ∀ k ∈ ks, k < nb := fun k hk =>
    List.mem_range.mp (((mem_combinations _ _ _).mp hks).1.subset hk)
  unfold bucketIds
  refine List.mem_map.mpr ⟨(id, x), List.mem_filter.mpr ⟨hx, ?_⟩, rfl⟩
  rw [decide_eq_true_eq]
  change x &&& (permOf w nb ks).simpleMask = q &&& (permOf w nb ks).simpleMask
  by_cases hw : 1 ≤ w
  · exact ((key_eq_iff hlt hw q x).mpr hag).symm
  · have : w = 0 := by omega
    subst this
    exact Subsingleton.elim _ _

theorem SimReach.query (R : SimReach nb d ps idx) (q : BitVec w) : ∃ s, idx.query q = .ok s ∧
    ∀ id, id ∈ s.elems ↔ ∃ sig, lastSig ps id = some sig ∧ hammingDistance q sig < d := by
  obtain ⟨s, e, m⟩ := R.query_fold q idx.hashTables (fun _ h => h) HSet.empty
  refine ⟨s, ?_, fun id => ?_⟩
  · unfold SimIndex.query
    rw [R.distance]
    exact e
  · rw [m]
    simp only [HSet.mem_empty, false_or]
    constructor
    · exact fun h => h.2
    · rintro ⟨sig, h1, h2⟩
      exact ⟨R.pigeonhole (lastSig_mem h1) q (by omega), sig, h1, h2⟩

end Verif
