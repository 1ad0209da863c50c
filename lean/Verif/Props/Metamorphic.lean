import Verif.Lemmas.Events
import Verif.Lemmas.Threshold
import Verif.Props.IndexEntries
import Verif.Props.SimHashIndex

/-! # Properties C111 to C113: symmetry, thresholds, and independence of documents -/
set_option linter.unusedSectionVars false
namespace Verif.Props
open Verif.Spec

variable {T Id : Type} [DecidableEq T] [DecidableEq Id]
variable {C : Type} [IdContainer C Id] [LawfulIdContainer C Id]

/-! ## C111 -/

/-- `id` is only inserted while it is absent, and once per call. -/
def NotOverwritten (n : Nat) (ops : List (Op T Id)) (id : Id) : Prop :=
  ∀ pre op post, ops = pre ++ op :: post → (∃ s, (id, s) ∈ insertions op) →
    live n pre id = none ∧ (insertions op).countP (fun p => p.1 = id) = 1

theorem events_snoc (dedup : Bool) (key : Nat → List T → UInt64) (n : Nat) (i : Nat) (k : UInt64) (id : Id)
    (ops : List (Op T Id)) (op : Op T Id) (hl : RightLengths n (ops ++ [op])) (hb : ProperBulk n (ops ++ [op])) :
    (live n (ops ++ [op]) id, entries dedup key n (ops ++ [op]) i k id) =
      match eventOf id op with
      | none => (live n ops id, entries dedup key n ops i k id)
      | some ev => evStep dedup key i k (live n ops id, entries dedup key n ops i k id) ev := by
  rw [events_fold dedup key n i k id _ hl hb, events_fold dedup key n i k id ops (fun o ho => hl o (by simp [ho]))
    (fun pre ids sched post e => hb pre ids sched (post ++ [op]) (by simp [e]))]
  unfold eventsOf
  rw [List.filterMap_append, List.foldl_append]
  cases h : eventOf id op with
  | none => simp [h]
  | some ev => simp [h]

theorem eventOf_put {id : Id} {op : Op T Id} {l : List (List T)} (h : eventOf id op = some (.put l)) :
    l = (insertions op).filterMap (fun p => if p.1 = id then some p.2 else none) ∧ l ≠ [] := by
  have key : ∀ ps : List (Id × List T), (match ps.filterMap (fun p => if p.1 = id then some p.2 else none) with
      | [] => none
      | s :: ss => some (Event.put (s :: ss))) = some (.put l) →
      l = ps.filterMap (fun p => if p.1 = id then some p.2 else none) ∧ l ≠ [] := by
    intro ps h
    cases hf : ps.filterMap (fun p => if p.1 = id then some p.2 else none) with
    | nil => rw [hf] at h; cases h
    | cons s ss =>
      rw [hf] at h
      injection h with h
      injection h with h
      subst h
      exact ⟨rfl, by simp⟩
  cases op with
  | clear => simp [eventOf] at h
  | remove id' => by_cases hi : id' = id <;> simp [eventOf, hi] at h
  | bulkRemove ids sched => by_cases hi : id ∈ ids <;> simp [eventOf, hi] at h
  | insert id' s => exact key _ h
  | parBulkInsert ids sigs sched => exact key _ h
  | parBulkInsertPairs ps sched => exact key _ h
  | shrinkToFit o => exact key _ h
  | shrinkTo m c o sched => exact key _ h

/-- The entries of an id that was never overwritten are those of its current signature. -/
theorem entries_current (dedup : Bool) (key : Nat → List T → UInt64) (n : Nat) (i : Nat) (k : UInt64) (id : Id)
    (ops : List (Op T Id)) (hl : RightLengths n ops) (hb : ProperBulk n ops) (ho : NotOverwritten n ops id) :
    entries dedup key n ops i k id = match live n ops id with | some s => if key i s = k then 1 else 0 | none => 0 := by
  induction ops using List.reverseRecOn with
  | nil => rfl
  | append_singleton ops op ih =>
    have ih := ih (fun o ho => hl o (by simp [ho])) (fun pre ids sched post e => hb pre ids sched (post ++ [op]) (by simp [e]))
      (fun pre o post e => ho pre o (post ++ [op]) (by simp [e]))
    have hs := events_snoc dedup key n i k id ops op hl hb
    have hop := ho ops op [] rfl
    cases he : eventOf id op with
    | none =>
      rw [he] at hs
      simp only [Prod.mk.injEq] at hs
      rw [hs.1, hs.2]
      exact ih
    | some ev =>
      rw [he] at hs
      cases ev with
      | clear =>
        simp only [evStep, Prod.mk.injEq] at hs
        rw [hs.1, hs.2]
      | delete =>
        simp only [evStep, Prod.mk.injEq] at hs
        rw [hs.1, hs.2, ih]
        exact Nat.sub_self _
      | put l =>
        obtain ⟨h1, h2⟩ := eventOf_put he
        obtain ⟨s, ss, e⟩ := List.exists_cons_of_ne_nil h2
        have hm : ∃ s, (id, s) ∈ insertions op := by
          have : s ∈ (insertions op).filterMap (fun p => if p.1 = id then some p.2 else none) := by rw [← h1, e]; simp
          obtain ⟨p, hp, hps⟩ := List.mem_filterMap.mp this
          split_ifs at hps with hpi
          exact ⟨p.2, by rw [← hpi]; exact hp⟩
        obtain ⟨h3, h4⟩ := hop hm
        have h5 : l.length = 1 := by
          rw [h1, List.length_filterMap_eq_countP, ← h4]
          congr 1
          funext p
          by_cases hp : p.1 = id <;> simp [hp]
        have h6 : ss = [] := by rw [e] at h5; simpa using h5
        subst h6
        rw [h3] at ih
        rw [e, h3, ih] at hs
        simp only [evStep, Prod.mk.injEq, List.getLast?_singleton] at hs
        rw [hs.1, hs.2]
        by_cases hk : key i s = k <;> cases dedup <;> simp [hk]

/-- C111, the part that holds: two documents that were never overwritten find each other or neither finds the other,
whatever else happened (bulk removals with distinct present ids). Missing: overwritten documents, for which it is
false. -/
theorem C111_symmetric_partial {dedup : Bool} [CountedContainer C Id dedup] (b r : Nat) (t : Fl) (h : List T → UInt64)
    (ops : List (Op T Id)) (hl : RightLengths (b * r) ops) (hb : ProperBulk (b * r) ops) (x y : Id) (s s' : List T)
    (hx : live (b * r) ops x = some s) (hy : live (b * r) ops y = some s') (ox : NotOverwritten (b * r) ops x)
    (oy : NotOverwritten (b * r) ops y) :
    ∃ res res', (After C b r t h ops).queryById x = .ok res ∧ (After C b r t h ops).queryById y = .ok res' ∧
      (y ∈ res.elems ↔ x ∈ res'.elems) := by
  obtain ⟨res, e1, _, h1⟩ := C87_query (C := C) b r t h ops hl s (rightLengths_live hl x s hx)
  obtain ⟨res', e2, _, h2⟩ := C87_query (C := C) b r t h ops hl s' (rightLengths_live hl y s' hy)
  have I := inv_run (C := C) h b r t ops
  refine ⟨res, res', ?_, ?_, ?_⟩
  · unfold MinHashIndex.queryById
    rw [I.sigs, hx]
    exact e1
  · unfold MinHashIndex.queryById
    rw [I.sigs, hy]
    exact e2
  · rw [h1, h2]
    simp only [entries_current _ _ _ _ _ _ ops hl hb ox, entries_current _ _ _ _ _ _ ops hl hb oy, hx, hy, bandKey]
    refine and_congr ?_ ?_
    · refine exists_congr fun i => and_congr_right fun _ => ?_
      by_cases hk : h (bandOf r s' i) = h (bandOf r s i)
      · simp [hk]
      · simp [hk, Ne.symm hk]
    · simp only [Option.some.injEq]
      constructor
      · rintro ⟨_, v, rfl, hv, hg⟩
        exact ⟨_, v, rfl, by rw [C08_symmetric]; exact hv, hg⟩
      · rintro ⟨_, v, rfl, hv, hg⟩
        exact ⟨_, v, rfl, by rw [C08_symmetric]; exact hv, hg⟩

/-- C111, exactly: after every history (signatures of the right length), two present documents are treated differently iff
they are similar enough and only one of them is listed under a key of the other. -/
theorem C111_asymmetric_iff {dedup : Bool} [CountedContainer C Id dedup] (b r : Nat) (t : Fl) (h : List T → UInt64)
    (ops : List (Op T Id)) (hl : RightLengths (b * r) ops) (x y : Id) (s s' : List T)
    (hx : live (b * r) ops x = some s) (hy : live (b * r) ops y = some s') :
    ∃ res res', (After C b r t h ops).queryById x = .ok res ∧ (After C b r t h ops).queryById y = .ok res' ∧
      (¬ (y ∈ res.elems ↔ x ∈ res'.elems) ↔
        (∃ v, minhashSimilarity s s' = .ok v ∧ Fl.ge v t = true) ∧
        ¬ ((∃ i < b, 0 < entries dedup (bandKey h r) (b * r) ops i (h (bandOf r s i)) y) ↔
          ∃ i < b, 0 < entries dedup (bandKey h r) (b * r) ops i (h (bandOf r s' i)) x)) := by
  obtain ⟨res, e1, _, h1⟩ := C87_query (C := C) b r t h ops hl s (rightLengths_live hl x s hx)
  obtain ⟨res', e2, _, h2⟩ := C87_query (C := C) b r t h ops hl s' (rightLengths_live hl y s' hy)
  have I := inv_run (C := C) h b r t ops
  refine ⟨res, res', ?_, ?_, ?_⟩
  · unfold MinHashIndex.queryById
    rw [I.sigs, hx]
    exact e1
  · unfold MinHashIndex.queryById
    rw [I.sigs, hy]
    exact e2
  · rw [h1, h2, hx, hy]
    have c1 : (∃ s0 v, some s' = some s0 ∧ minhashSimilarity s0 s = .ok v ∧ Fl.ge v t = true) ↔
        ∃ v, minhashSimilarity s s' = .ok v ∧ Fl.ge v t = true := by
      simp only [Option.some.injEq]
      constructor
      · rintro ⟨_, v, rfl, hv, hg⟩
        exact ⟨v, by rw [C08_symmetric]; exact hv, hg⟩
      · rintro ⟨v, hv, hg⟩
        exact ⟨_, v, rfl, by rw [C08_symmetric]; exact hv, hg⟩
    have c2 : (∃ s0 v, some s = some s0 ∧ minhashSimilarity s0 s' = .ok v ∧ Fl.ge v t = true) ↔
        ∃ v, minhashSimilarity s s' = .ok v ∧ Fl.ge v t = true := by
      simp only [Option.some.injEq]
      constructor
      · rintro ⟨_, v, rfl, hv, hg⟩
        exact ⟨v, hv, hg⟩
      · rintro ⟨v, hv, hg⟩
        exact ⟨_, v, rfl, hv, hg⟩
    rw [c1, c2]
    have taut : ∀ A B P : Prop, ¬ (A ∧ P ↔ B ∧ P) ↔ P ∧ ¬ (A ↔ B) := by
      intro A B P
      by_cases hP : P <;> simp [hP]
    exact taut _ _ _

/-- Both sides of `C111_asymmetric_iff` hold: document 2 was overwritten and is listed under a key of document 1, not the
other way round. -/
example : let ops : List (Op Nat Nat) := [.insert 1 [1, 2, 3, 4], .insert 2 [1, 2, 9, 9], .insert 2 [1, 8, 3, 9]]
    live (2 * 2) ops 1 = some [1, 2, 3, 4] ∧ live (2 * 2) ops 2 = some [1, 8, 3, 9] ∧
    minhashSimilarity [1, 2, 3, 4] [1, 8, 3, 9] = .ok (.fin (1 / 2)) ∧
    0 < entries true (bandKey exHash 2) (2 * 2) ops 0 (exHash (bandOf 2 [1, 2, 3, 4] 0)) 2 ∧
    ∀ i < 2, entries true (bandKey exHash 2) (2 * 2) ops i (exHash (bandOf 2 [1, 8, 3, 9] i)) 1 = 0 :=
  ⟨rfl, rfl, by decide +kernel, by decide +kernel, by decide +kernel⟩

/-- The hypotheses of C111 (partial) are met; another document is overwritten in between. -/
example : ∃ (ops : List (Op Nat Nat)), RightLengths (2 * 2) ops ∧ ProperBulk (2 * 2) ops ∧
    NotOverwritten (2 * 2) ops 1 ∧ NotOverwritten (2 * 2) ops 2 ∧ live (2 * 2) ops 1 = some [1, 2, 3, 4] ∧
    live (2 * 2) ops 2 = some [1, 2, 3, 9] := by
  refine ⟨[.insert 1 [1, 2, 3, 4], .insert 3 [1, 2, 9, 9], .insert 3 [1, 8, 3, 9], .insert 2 [1, 2, 3, 9]], ?_, ?_, ?_, ?_,
    rfl, rfl⟩
  · intro op hop s hs
    simp at hop
    rcases hop with rfl | rfl | rfl | rfl <;> simp [sigsOf] at hs <;> subst hs <;> rfl
  · intro pre ids sched post e
    have : (Op.bulkRemove ids sched : Op Nat Nat) ∈ [.insert 1 [1, 2, 3, 4], .insert 3 [1, 2, 9, 9], .insert 3 [1, 8, 3, 9],
        .insert 2 [1, 2, 3, 9]] := by rw [e]; simp
    simp at this
  all_goals
    intro pre op post e hm
    match pre, e with
    | [], e => simp at e; obtain ⟨rfl, _⟩ := e; simp [insertions, live] at hm ⊢
    | [_], e => simp at e; obtain ⟨_, rfl, _⟩ := e; simp [insertions] at hm
    | [_, _], e => simp at e; obtain ⟨_, _, rfl, _⟩ := e; simp [insertions] at hm
    | [_, _, _], e =>
      simp at e
      obtain ⟨rfl, rfl, rfl, rfl, _⟩ := e
      simp [insertions, live, touch] at hm ⊢
    | _ :: _ :: _ :: _ :: _, e => simp at e

/-- C111 is false of the code: document 2 is overwritten. Document 1 still finds it through its first signature, but it
does not find document 1. -/
theorem C111_symmetric_false :
    ∃ (ops : List (Op Nat Nat)), RightLengths (2 * 2) ops ∧ ProperBulk (2 * 2) ops ∧
      live (2 * 2) ops 1 = some [1, 2, 3, 4] ∧ live (2 * 2) ops 2 = some [1, 8, 3, 9] ∧
      ((After (HashSetContainer Nat) 2 2 (.fin (1 / 2)) exHash ops).queryById 1).map HSet.elems = .ok [1, 2] ∧
      ((After (HashSetContainer Nat) 2 2 (.fin (1 / 2)) exHash ops).queryById 2).map HSet.elems = .ok [2] := by
  refine ⟨[.insert 1 [1, 2, 3, 4], .insert 2 [1, 2, 9, 9], .insert 2 [1, 8, 3, 9]], ?_, ?_, rfl, rfl,
    by decide +kernel, by decide +kernel⟩
  · intro op hop s hs
    simp at hop
    rcases hop with rfl | rfl | rfl <;> simp [sigsOf] at hs <;> subst hs <;> rfl
  · intro pre ids sched post e
    have : (Op.bulkRemove ids sched : Op Nat Nat) ∈ [.insert 1 [1, 2, 3, 4], .insert 2 [1, 2, 9, 9], .insert 2 [1, 8, 3, 9]] := by
      rw [e]; simp
    simp at this

/-- C111 for the SimHash index, after every history. -/
theorem C111_simhash {w fuel nb d : Nat} {idx : SimIndex w Id} (h : SimIndex.new fuel w Id nb d = .ok idx)
    (ops : List (SimOp w Id)) (x y : Id) (s s' : BitVec w) (hx : lastSig (assigned ops) x = some s)
    (hy : lastSig (assigned ops) y = some s') :
    ∃ res res', (idx.run ops).query s = .ok res ∧ (idx.run ops).query s' = .ok res' ∧
      (y ∈ res.elems ↔ x ∈ res'.elems) := by
  obtain ⟨res, e1, _, h1⟩ := C51_query_exact h ops s
  obtain ⟨res', e2, _, h2⟩ := C51_query_exact h ops s'
  refine ⟨res, res', e1, e2, ?_⟩
  rw [h1, h2, hx, hy]
  have : diffBits s s' = diffBits s' s := by
    unfold diffBits
    ext j
    simp [eq_comm]
  simp [this]

/-! ## C112 -/

theorem after_threshold (b r : Nat) (t t' : Fl) (h : List T → UInt64) (ops : List (Op T Id)) :
    After C b r t' h ops = { After C b r t h ops with threshold := t' } :=
  run_threshold (MinHashIndex.newIndex b r t h : MinHashIndex T Id C) t' ops

/-- C112: after every history, the answer for a higher threshold is the answer for the lower one without the documents
below the higher threshold. -/
theorem C112_query (b r : Nat) (t t' : Fl) (ht : Fl.ge t' t = true) (h : List T → UInt64) (ops : List (Op T Id))
    (q : List T) (res : HSet Id) (hr : (After C b r t h ops).query q = .ok res) :
    ∃ res', (After C b r t' h ops).query q = .ok res' ∧
      ∀ id, id ∈ res'.elems ↔ id ∈ res.elems ∧
        ∃ s v, live (b * r) ops id = some s ∧ minhashSimilarity s q = .ok v ∧ Fl.ge v t' = true := by
  have I := inv_run (C := C) h b r t ops
  have I' := inv_run (C := C) h b r t' ops
  obtain ⟨hq, hm⟩ := query_mem I hr
  have hb : (After C b r t' h ops).bands = (After C b r t h ops).bands := by rw [after_threshold b r t t' h ops]
  have hok := (query_ok_iff I hq).mp ⟨res, hr⟩
  obtain ⟨res', e⟩ := (query_ok_iff I' hq).mpr (by
    intro id s
    rw [show ((MinHashIndex.newIndex b r t' h : MinHashIndex T Id C).run ops).bands = _ from hb]
    exact hok id s)
  refine ⟨res', e, fun id => ?_⟩
  rw [(query_mem I' e).2 id, hm id, show ((MinHashIndex.newIndex b r t' h : MinHashIndex T Id C).run ops).bands = _ from hb]
  constructor
  · rintro ⟨h1, s, v, h2, h3, h4⟩
    exact ⟨⟨h1, s, v, h2, h3, Fl.ge_trans h4 ht⟩, s, v, h2, h3, h4⟩
  · rintro ⟨⟨h1, _⟩, h2⟩
    exact ⟨h1, h2⟩

/-- C112 for the query with similarities: the same pairs without those below the higher threshold. -/
theorem C112_similarity (b r : Nat) (t t' : Fl) (ht : Fl.ge t' t = true) (h : List T → UInt64) (ops : List (Op T Id))
    (q : List T) (o1 o2 o1' o2' : Order) (l : List (Id × Fl))
    (hr : (After C b r t h ops).queryOwnedReturnSimilarity o1 o2 q = .ok l) :
    ∃ l', (After C b r t' h ops).queryOwnedReturnSimilarity o1' o2' q = .ok l' ∧
      l'.Perm (l.filter fun p => Fl.ge p.2 t') := by
  obtain ⟨S, h1, h2, h3, h4, h5⟩ := retSim_ok hr
  have hth : (After C b r t h ops).threshold = t := (inv_run (C := C) h b r t ops).ht
  obtain ⟨l', e'⟩ := retSim_returns (o1 := o1') (o2 := o2') (idx := After C b r t' h ops) (q := q) (S := S)
    (by rw [after_threshold b r t t' h ops]; exact h1) (by
      rw [after_threshold b r t t' h ops]
      intro id hid
      obtain ⟨s, v, g1, g2⟩ := h2 id hid
      exact ⟨s, g1, minhashSimilarity_ok_iff.mp ⟨v, g2⟩⟩)
  refine ⟨l', e', ?_⟩
  obtain ⟨S', g1, g2, g3, g4, g5⟩ := retSim_ok e'
  rw [after_threshold b r t t' h ops] at g1 g4
  have hS : S' = S := Except.ok.inj (g1.symm.trans h1)
  subst hS
  rw [List.perm_ext_iff_of_nodup g3.of_map (h3.of_map.filter _)]
  intro p
  rw [g4, List.mem_filter, h4, hth]
  constructor
  · rintro ⟨a1, s, a2, a3, a4⟩
    exact ⟨⟨a1, s, a2, a3, Fl.ge_trans a4 ht⟩, a4⟩
  · rintro ⟨⟨a1, s, a2, a3, _⟩, a4⟩
    exact ⟨a1, s, a2, a3, a4⟩

/-- C112: the k nearest documents do not depend on the threshold. -/
theorem C112_top_k (b r : Nat) (t t' : Fl) (h : List T → UInt64) (ops : List (Op T Id)) (q : List T) (o1 o2 : Order)
    (k : Nat) : (After C b r t' h ops).queryTopK o1 o2 q k = (After C b r t h ops).queryTopK o1 o2 q k := by
  rw [after_threshold b r t t' h ops]
  rfl

/-- C112 for `SimHashIndex`: an index for a smaller distance returns those ids of the answer of an index for a larger
distance that are within the smaller one, whatever the numbers of blocks. -/
theorem C112_simhash {w fuel fuel' nb nb' d d' : Nat} {idx idx' : SimIndex w Id} (h : SimIndex.new fuel w Id nb d = .ok idx)
    (h' : SimIndex.new fuel' w Id nb' d' = .ok idx') (hd : d' ≤ d) (ops : List (SimOp w Id)) (q : BitVec w) :
    ∃ res res', (idx.run ops).query q = .ok res ∧ (idx'.run ops).query q = .ok res' ∧
      ∀ id, id ∈ res'.elems ↔ id ∈ res.elems ∧
        ∃ s, lastSig (assigned ops) id = some s ∧ (diffBits q s).card < d' := by
  obtain ⟨res, e1, _, h1⟩ := C51_query_exact h ops q
  obtain ⟨res', e2, _, h2⟩ := C51_query_exact h' ops q
  refine ⟨res, res', e1, e2, fun id => ?_⟩
  rw [h1, h2]
  exact ⟨fun ⟨s, e, hs⟩ => ⟨⟨s, e, by omega⟩, s, e, hs⟩, fun hs => hs.2⟩

/-- Both indexes exist, and the answers differ. -/
example : (SimIndex.new 64 64 Nat 6 3).toOption.map (fun idx =>
      ((idx.run [.insert 1 1, .insert 2 3]).query 0#64).toOption.map fun s => s.elems) = some (some [2, 1]) ∧
    (SimIndex.new 64 64 Nat 4 2).toOption.map (fun idx =>
      ((idx.run [.insert 1 1, .insert 2 3]).query 0#64).toOption.map fun s => s.elems) = some (some [1]) := by
  refine ⟨by decide +kernel, by decide +kernel⟩

/-- The hypotheses of C112 are met, and the answers differ. -/
example : Fl.ge (.fin (3 / 4)) (.fin (1 / 2)) = true ∧
    ((After (HashSetContainer Nat) 4 1 (.fin (1 / 2)) exHash
      [.insert 1 [1, 2, 3, 4], .insert 2 [1, 2, 9, 9], .insert 3 [1, 2, 3, 9]]).query [1, 2, 3, 5]).map HSet.elems =
        .ok [1, 2, 3] ∧
    ((After (HashSetContainer Nat) 4 1 (.fin (3 / 4)) exHash
      [.insert 1 [1, 2, 3, 4], .insert 2 [1, 2, 9, 9], .insert 3 [1, 2, 3, 9]]).query [1, 2, 3, 5]).map HSet.elems =
        .ok [1, 3] := by
  refine ⟨by decide +kernel, by decide +kernel, by decide +kernel⟩

/-! ## C113 -/

/-- C113, the part that holds: whether a query returns a document depends only on the calls that concern it (bulk
removals with distinct present ids). Missing: other bulk removals, for which it is false. -/
theorem C113_independent_partial {dedup : Bool} [CountedContainer C Id dedup] (b r : Nat) (t : Fl) (h : List T → UInt64)
    (ops ops' : List (Op T Id)) (hl : RightLengths (b * r) ops) (hl' : RightLengths (b * r) ops')
    (hb : ProperBulk (b * r) ops) (hb' : ProperBulk (b * r) ops') (id : Id) (he : eventsOf id ops = eventsOf id ops')
    (q : List T) (hq : q.length = b * r) :
    ∃ res res', (After C b r t h ops).query q = .ok res ∧ (After C b r t h ops').query q = .ok res' ∧
      (id ∈ res.elems ↔ id ∈ res'.elems) := by
  obtain ⟨res, e1, _, h1⟩ := C87_query (C := C) b r t h ops hl q hq
  obtain ⟨res', e2, _, h2⟩ := C87_query (C := C) b r t h ops' hl' q hq
  refine ⟨res, res', e1, e2, ?_⟩
  have hs : ∀ i k, (live (b * r) ops id, entries dedup (bandKey h r) (b * r) ops i k id) =
      (live (b * r) ops' id, entries dedup (bandKey h r) (b * r) ops' i k id) := by
    intro i k
    rw [events_fold dedup _ _ i k id ops hl hb, events_fold dedup _ _ i k id ops' hl' hb', he]
  have hlive : live (b * r) ops id = live (b * r) ops' id := congrArg Prod.fst (hs 0 0)
  have hent : ∀ i k, entries dedup (bandKey h r) (b * r) ops i k id = entries dedup (bandKey h r) (b * r) ops' i k id :=
    fun i k => congrArg Prod.snd (hs i k)
  rw [h1, h2, hlive]
  simp only [hent]

/-- C113 is false of the code: a bulk removal that names an absent id leaves entries of another document behind. Both
histories insert document 1, remove it and insert it again; only the first one finds it through its old signature. -/
theorem C113_bulk_remove_false :
    ∃ (ops ops' : List (Op Nat Nat)) (q : List Nat), RightLengths (2 * 2) ops ∧ RightLengths (2 * 2) ops' ∧
      q.length = 2 * 2 ∧ eventsOf 1 ops = [.put [[1, 2, 3, 4]], .delete, .put [[1, 8, 3, 9]]] ∧
      eventsOf 1 ops' = [.put [[1, 2, 3, 4]], .delete, .put [[1, 8, 3, 9]]] ∧
      ((After (HashSetContainer Nat) 2 2 (.fin (1 / 2)) exHash ops).query q).map HSet.elems = .ok [1] ∧
      ((After (HashSetContainer Nat) 2 2 (.fin (1 / 2)) exHash ops').query q).map HSet.elems = .ok [] := by
  refine ⟨[.insert 1 [1, 2, 3, 4], .bulkRemove [9, 1] [], .insert 1 [1, 8, 3, 9]],
    [.insert 1 [1, 2, 3, 4], .bulkRemove [1] [], .insert 1 [1, 8, 3, 9]], [1, 2, 3, 4], ?_, ?_, rfl, rfl, rfl,
    by decide +kernel, by decide +kernel⟩ <;>
  · intro op hop s hs
    simp at hop
    rcases hop with rfl | rfl | rfl <;> simp [sigsOf] at hs <;> subst hs <;> rfl

/-- C113 is false of the code for the queries with similarities: overwriting and removing document 2 makes the queries
that should return document 1 panic. -/
theorem C113_similarity_false :
    ∃ (ops ops' : List (Op Nat Nat)) (q : List Nat), RightLengths (2 * 2) ops ∧ RightLengths (2 * 2) ops' ∧
      q.length = 2 * 2 ∧ eventsOf 1 ops = eventsOf 1 ops' ∧
      (∃ e, (After (HashSetContainer Nat) 2 2 (.fin (1 / 2)) exHash ops).queryOwnedReturnSimilarity Order.id Order.id q =
        .error e) ∧
      (After (HashSetContainer Nat) 2 2 (.fin (1 / 2)) exHash ops').queryOwnedReturnSimilarity Order.id Order.id q =
        .ok [(1, .fin 1)] := by
  refine ⟨[.insert 1 [1, 2, 3, 4], .insert 2 [1, 2, 9, 9], .insert 2 [7, 7, 7, 7], .remove 2],
    [.insert 1 [1, 2, 3, 4]], [1, 2, 3, 4], ?_, ?_, rfl, rfl, ⟨.index, by decide +kernel⟩, by decide +kernel⟩
  · intro op hop s hs
    simp at hop
    rcases hop with rfl | rfl | rfl | rfl <;> simp [sigsOf] at hs <;> subst hs <;> rfl
  · intro op hop s hs
    simp at hop
    subst hop
    simp [sigsOf] at hs
    subst hs
    rfl

/-- C113 for the SimHash index, after every history: only the signatures given to the document matter. -/
theorem C113_simhash {w fuel nb d : Nat} {idx : SimIndex w Id} (h : SimIndex.new fuel w Id nb d = .ok idx)
    (ops ops' : List (SimOp w Id)) (id : Id)
    (he : (assigned ops).filter (fun p => p.1 = id) = (assigned ops').filter (fun p => p.1 = id)) (q : BitVec w) :
    ∃ res res', (idx.run ops).query q = .ok res ∧ (idx.run ops').query q = .ok res' ∧
      (id ∈ res.elems ↔ id ∈ res'.elems) := by
  obtain ⟨res, e1, _, h1⟩ := C51_query_exact h ops q
  obtain ⟨res', e2, _, h2⟩ := C51_query_exact h ops' q
  refine ⟨res, res', e1, e2, ?_⟩
  have hl : ∀ ps : List (Id × BitVec w), lastSig ps id = lastSig (ps.filter fun p => p.1 = id) id := by
    intro ps
    unfold lastSig
    rw [← List.filter_reverse, List.find?_filter]
    simp
  rw [h1, h2, hl (assigned ops), hl (assigned ops'), he]

/-- The hypotheses of C113 are met by histories that differ in everything that concerns other documents. -/
example : ∃ (ops ops' : List (Op Nat Nat)), RightLengths (2 * 2) ops ∧ RightLengths (2 * 2) ops' ∧
    ProperBulk (2 * 2) ops ∧ ProperBulk (2 * 2) ops' ∧ eventsOf 1 ops = eventsOf 1 ops' ∧
    ((After (HashSetContainer Nat) 2 2 (.fin (1 / 2)) exHash ops).query [1, 2, 3, 5]).map HSet.elems = .ok [1] ∧
    ((After (HashSetContainer Nat) 2 2 (.fin (1 / 2)) exHash ops').query [1, 2, 3, 5]).map HSet.elems = .ok [1, 3] := by
  refine ⟨[.insert 2 [1, 2, 9, 9], .parBulkInsert [1, 3] [[1, 2, 3, 4], [5, 6, 7, 8]] [], .bulkRemove [2] []],
    [.insert 1 [1, 2, 3, 4], .insert 3 [1, 2, 3, 8]], ?_, ?_, ?_, ?_, rfl, by decide +kernel, by decide +kernel⟩
  · intro op hop s hs
    simp at hop
    rcases hop with rfl | rfl | rfl <;> simp [sigsOf] at hs
    · subst hs; rfl
    · rcases hs with rfl | rfl <;> rfl
  · intro op hop s hs
    simp at hop
    rcases hop with rfl | rfl <;> simp [sigsOf] at hs <;> subst hs <;> rfl
  · intro pre ids sched post e
    match pre, e with
    | [a, b], e =>
      simp at e
      obtain ⟨rfl, rfl, ⟨rfl, rfl⟩, rfl⟩ := e
      exact ⟨by simp, by simp [live, touch, accepts, lastPair]⟩
    | [], e => simp at e
    | [_], e => simp at e
    | _ :: _ :: _ :: _, e => simp at e
  · intro pre ids sched post e
    have : (Op.bulkRemove ids sched : Op Nat Nat) ∈ [.insert 1 [1, 2, 3, 4], .insert 3 [1, 2, 3, 8]] := by
      rw [e]; simp
    simp at this

end Verif.Props
