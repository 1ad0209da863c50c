import Verif.Lemmas.IndexSeq
import Verif.Props.Index
import Verif.Props.IndexRank

/-! # Properties C26 - C30: bulk calls and rejected calls -/
set_option linter.unusedSectionVars false
namespace Verif.Props
open Verif.Spec

variable {T Id : Type} [DecidableEq T] [DecidableEq Id]
variable {C : Type} [IdContainer C Id] [LawfulIdContainer C Id]

/-! ## C26 -/

/-- C26: `par_bulk_insert_pairs` under every interleaving of the band workers leaves exactly the state that
inserting the pairs one by one leaves. -/
theorem C26_pairs (b r : Nat) (t : Fl) (h : List T → UInt64) (ops : List (Op T Id)) (ps : List (Id × List T))
    (hps : ∀ p ∈ ps, p.2.length = b * r) (sched : List Nat) :
    (After C b r t h ops).parBulkInsertPairs ps sched =
      (After C b r t h (ops ++ ps.map fun p => .insert p.1 p.2), .ok ()) := by
  have I := inv_run (C := C) h b r t ops
  obtain ⟨B, hB, hrun⟩ := seq_insert I ps hps
  show _ = ((MinHashIndex.newIndex b r t h : MinHashIndex T Id C).run _, _)
  rw [run_append, hrun]
  rcases pairs_eq I ps sched with ⟨_, hok, e⟩ | ⟨ha, _⟩
  · rw [e]
    have := parForEach_ok _ hok
    rw [forall₂_func this hB]
  · have : accepts (b * r) (.parBulkInsertPairs ps sched : Op T Id) = true := by
      simp only [accepts, List.all_eq_true, decide_eq_true_eq]
      exact fun p hp => (hps p hp).ge
    rw [this] at ha; cases ha

/-- The hypothesis of `C26_pairs` is met, after a history and with a repeated id. -/
example : (After (VecContainer Nat) 2 1 (.fin 0) exHash exOps).parBulkInsertPairs [(1, [1, 2]), (1, [5, 6])] [1, 0] =
    (After (VecContainer Nat) 2 1 (.fin 0) exHash (exOps ++ [.insert 1 [1, 2], .insert 1 [5, 6]]), .ok ()) :=
  C26_pairs 2 1 _ _ _ _ (by decide) _

/-- C26: the same for `par_bulk_insert` (ids and signatures are paired up; extra ones are ignored). -/
theorem C26_bulk (b r : Nat) (t : Fl) (h : List T → UInt64) (ops : List (Op T Id)) (ids : List Id)
    (sigs : List (List T)) (hs : ∀ s ∈ sigs, s.length = b * r) (sched : List Nat) :
    (After C b r t h ops).parBulkInsert ids sigs sched =
      (After C b r t h (ops ++ (ids.zip sigs).map fun p => .insert p.1 p.2), .ok ()) := by
  have I := inv_run (C := C) h b r t ops
  have hz : ∀ p ∈ ids.zip sigs, p.2.length = b * r := fun p hp =>
    hs _ (List.of_mem_zip (a := p.1) (b := p.2) hp).2
  obtain ⟨B, hB, hrun⟩ := seq_insert I (ids.zip sigs) hz
  show _ = ((MinHashIndex.newIndex b r t h : MinHashIndex T Id C).run _, _)
  rw [run_append, hrun]
  rcases bulk_eq I ids sigs sched with ⟨_, hok, e⟩ | ⟨ha, _⟩
  · rw [e]
    have := parForEach_ok _ hok
    have hB' : List.Forall₂ (fun bd bd' => (sigs.zip ids).foldlM
        (fun (bd : Band T C) (p : List T × Id) => bd.insert p.2 p.1) bd = .ok bd')
        (After C b r t h ops).bands B := by
      refine hB.imp fun x y hxy => ?_
      rw [← List.zip_swap, List.foldlM_map]
      exact hxy
    rw [forall₂_func this hB']
  · have : accepts (b * r) (.parBulkInsert ids sigs sched : Op T Id) = true := by
      simp only [accepts, Bool.and_eq_true, List.all_eq_true, decide_eq_true_eq]
      constructor
      · cases hd : sigs.head? with
        | none => rfl
        | some s => simpa using hs s (List.mem_of_head? hd)
      · intro p hp
        exact (hs p.1 (List.of_mem_zip (a := p.1) (b := p.2) hp).1).ge
    rw [this] at ha; cases ha

/-- The hypotheses are met by a batch with a repeated id, and different interleavings agree. -/
example : (∀ p ∈ [(1, [1, 2]), (2, [3, 4]), (1, [5, 6])], (p : Nat × List Nat).2.length = 2 * 1) ∧
    (After (VecContainer Nat) 2 1 (.fin 0) exHash []).parBulkInsertPairs [(1, [1, 2]), (2, [3, 4]), (1, [5, 6])]
      [1, 0, 1, 1, 0] =
    (After (VecContainer Nat) 2 1 (.fin 0) exHash []).parBulkInsertPairs [(1, [1, 2]), (2, [3, 4]), (1, [5, 6])]
      [] := by
  refine ⟨by decide, ?_⟩
  rw [C26_pairs _ _ _ _ _ _ (by decide), C26_pairs _ _ _ _ _ _ (by decide)]

/-! ## C27 -/

/-- C27: `par_bulk_query` returns exactly the individual `query_owned` results in input order, under every
schedule, and panics iff one of them does. -/
theorem C27_bulk_query (idx : MinHashIndex T Id C) (sigs : List (List T)) (sched : List Nat)
    (res : List (HSet Id)) :
    idx.parBulkQuery sigs sched = .ok res ↔ List.Forall₂ (fun s x => idx.queryOwned s = .ok x) sigs res := by
  unfold MinHashIndex.parBulkQuery
  rw [parMap_eq_map, mapM_ok_iff, List.forall₂_map_left_iff]

example : ((After (HashSetContainer Nat) 2 1 (.fin (1 / 2)) exHash exOps).parBulkQuery [[1, 2], [5, 0], [9, 9]]
    [2, 0, 1]).map (List.map HSet.elems) = .ok [[3], [1], [5]] := by decide +kernel

/-- C27: so does `par_bulk_query_return_similarity`. -/
theorem C27_bulk_query_similarity (o1 o2 : Order) (idx : MinHashIndex T Id C) (sigs : List (List T))
    (sched : List Nat) (res : List (List (Id × Fl))) :
    idx.parBulkQueryReturnSimilarity o1 o2 sigs sched = .ok res ↔
      List.Forall₂ (fun s x => idx.queryOwnedReturnSimilarity o1 o2 s = .ok x) sigs res := by
  unfold MinHashIndex.parBulkQueryReturnSimilarity
  rw [parMap_eq_map, mapM_ok_iff, List.forall₂_map_left_iff]

example : (After (HashSetContainer Nat) 2 1 (.fin (1 / 2)) exHash exClean).parBulkQueryReturnSimilarity Order.id
    Order.rev [[3, 4], [5, 0]] [1, 1, 0] = .ok [[(2, .fin 1)], [(1, .fin (1 / 2))]] := by decide +kernel

/-- C27 after right-length histories: the bulk query returns and each answer is that of the single query. -/
theorem C27_bulk_query_returns (b r : Nat) (t : Fl) (h : List T → UInt64) (ops : List (Op T Id))
    (hl : RightLengths (b * r) ops) (sigs : List (List T)) (hs : ∀ s ∈ sigs, s.length = b * r)
    (sched : List Nat) :
    ∃ res, (After C b r t h ops).parBulkQuery sigs sched = .ok res ∧ res.length = sigs.length ∧
      ∀ (i : Nat) s, sigs[i]? = some s → ∃ x, res[i]? = some x ∧ (After C b r t h ops).query s = .ok x := by
  have hex : ∃ res, List.Forall₂ (fun s x => (After C b r t h ops).queryOwned s = .ok x) sigs res := by
    induction sigs with
    | nil => exact ⟨[], .nil⟩
    | cons s sigs ih =>
      obtain ⟨res, hres⟩ := ih fun s hs' => hs s (by simp [hs'])
      obtain ⟨x, _, hx⟩ := C17_query_returns (C := C) b r t h ops s hl (hs s (by simp))
      exact ⟨x :: res, .cons hx hres⟩
  obtain ⟨res, hres⟩ := hex
  refine ⟨res, (C27_bulk_query _ _ _ _).mpr hres, hres.length_eq.symm, ?_⟩
  intro i s hi
  rw [List.getElem?_eq_some_iff] at hi
  obtain ⟨hi, e⟩ := hi
  have := (List.forall₂_iff_get.mp hres).2 i hi (by rw [← hres.length_eq]; exact hi)
  refine ⟨res[i]'(by rw [← hres.length_eq]; exact hi), by simp, ?_⟩
  simp only [List.get_eq_getElem] at this
  rw [← e]; exact this

example : ∃ res, (After (VecContainer Nat) 2 1 (.fin (1 / 2)) exHash exClean).parBulkQuery [] [3, 1] = .ok res :=
  ⟨[], rfl⟩

/-! ## C28 -/

/-- C28 is false of the code: with an unknown id in the list the removed signatures are paired with the wrong
ids, stale entries remain, and `query_top_k` panics, which it does not after removing one by one. -/
theorem C28_bulk_remove_false :
    ∃ (b r : Nat) (t : Fl) (h : List Nat → UInt64) (ops : List (Op Nat Nat)) (ids : List Nat) (q : List Nat),
      Clean (b * r) ops ∧ RightLengths (b * r) ops ∧ q.length = b * r ∧
      (((After (HashSetContainer Nat) b r t h ops).bulkRemove ids []).1.queryTopK Order.id Order.id q 1
        = .error .index) ∧
      ((After (HashSetContainer Nat) b r t h (ops ++ ids.map .remove)).queryTopK Order.id Order.id q 1
        = .ok []) := by
  refine ⟨2, 1, .fin (1 / 2), exHash, [.insert 1 [1, 2]], [9, 1], [1, 2], ?_, ?_, rfl, rfl, by decide +kernel⟩
  · apply clean_of_prefixes
    intro i hi op hop
    have hi' : i < 1 := hi
    interval_cases i
    simp at hop; subst hop
    intro _; rfl
  · intro op hop s hs
    simp at hop; subst hop
    simp [sigsOf] at hs; subst hs; rfl

/-- C28, the part that holds: if the list starts with distinct present ids and everything after them is
absent by then, `bulk_remove` leaves exactly the state that removing one by one leaves and returns the removed
signatures in the order of the ids. Missing from the claim: absent or repeated ids before a present one. -/
theorem C28_bulk_remove_partial (b r : Nat) (t : Fl) (h : List T → UInt64) (ops : List (Op T Id))
    (ids rest : List Id) (hnd : ids.Nodup) (hp : ∀ id ∈ ids, live (b * r) ops id ≠ none)
    (hrest : ∀ id ∈ rest, id ∈ ids ∨ live (b * r) ops id = none) (sched : List Nat) :
    ∃ sigs, (After C b r t h ops).bulkRemove (ids ++ rest) sched =
        (After C b r t h (ops ++ (ids ++ rest).map .remove), .ok sigs) ∧
      List.Forall₂ (fun id s => live (b * r) ops id = some s) ids sigs := by
  have I := inv_run (C := C) h b r t ops
  obtain ⟨B, hB, hrun⟩ := seq_remove I ids hnd hp
  have htake : MinHashIndex.takeSignatures (After C b r t h ops).idSignatures (ids ++ rest) =
      MinHashIndex.takeSignatures (After C b r t h ops).idSignatures ids := by
    rw [take_append, take_absent]
    · simp
    · intro id hid
      rw [take_get?]
      rcases hrest id hid with h1 | h1
      · rw [if_pos h1]
      · rw [I.sigs, h1]; split_ifs <;> rfl
  have hd := take_distinct (After C b r t h ops).idSignatures ids hnd (fun id hid => by rw [I.sigs]; exact hp id hid)
  refine ⟨(MinHashIndex.takeSignatures (After C b r t h ops).idSignatures ids).2, ?_, ?_⟩
  · obtain ⟨hok, e⟩ := bulkRemove_eq I (ids ++ rest) sched
    rw [e]
    have hf := parForEach_ok _ hok
    have hlen := hd.length_eq
    have hzip : (MinHashIndex.takeSignatures (After C b r t h ops).idSignatures (ids ++ rest)).2.zip (ids ++ rest)
        = (MinHashIndex.takeSignatures (After C b r t h ops).idSignatures ids).2.zip ids := by
      rw [htake]
      have := List.zip_append (l₁ := (MinHashIndex.takeSignatures (After C b r t h ops).idSignatures ids).2)
        (l₂ := ids) (r₁ := ([] : List (List T))) (r₂ := rest) hlen.symm
      simpa using this
    rw [hzip] at hf
    rw [hzip, htake, forall₂_func hf hB]
    congr 1
    show _ = (MinHashIndex.newIndex b r t h : MinHashIndex T Id C).run _
    rw [run_append, List.map_append, run_append, hrun]
    symm
    have I2 : Inv h b r t (live (b * r) (ops ++ ids.map .remove))
        ((After C b r t h ops).run (ids.map fun id => .remove id)) := by
      rw [← run_append]; exact inv_run h b r t _
    have hrun' : (After C b r t h ops).run (ids.map fun id => .remove id) = _ := hrun
    rw [← hrun']
    apply seq_remove_absent I2
    intro id hid
    rw [← I2.sigs, hrun']
    show (MinHashIndex.takeSignatures _ ids).1.get? id = none
    rw [take_get?]
    rcases hrest id hid with h1 | h1
    · rw [if_pos h1]
    · rw [I.sigs, h1]; split_ifs <;> rfl
  · refine hd.imp fun id s hs => ?_
    rw [← I.sigs]; exact hs

/-- The hypotheses are met: two present ids followed by a repeated and an unknown one. -/
example : ([2, 1] : List Nat).Nodup ∧
    (∀ id ∈ [2, 1], live 2 ([.insert 1 [1, 2], .insert 2 [3, 4]] : List (Op Nat Nat)) id ≠ none) ∧
    ∀ id ∈ [1, 9], id ∈ [2, 1] ∨ live 2 ([.insert 1 [1, 2], .insert 2 [3, 4]] : List (Op Nat Nat)) id = none := by
  decide

/-! ## C29 -/

/-- C29 is false of the code: `par_bulk_insert` checks only the first signature, so a longer one gets stored
by a call that returns normally, and a query of the right length then panics. -/
theorem C29_lengths_false :
    ∃ (b r : Nat) (t : Fl) (h : List Nat → UInt64) (ids : List Nat) (sigs : List (List Nat)) (q : List Nat),
      ((After (HashSetContainer Nat) b r t h []).parBulkInsert ids sigs []).2 = .ok () ∧
      (∃ s, live (b * r) [.parBulkInsert ids sigs []] 2 = some s ∧ s.length ≠ b * r) ∧
      q.length = b * r ∧
      (After (HashSetContainer Nat) b r t h [.parBulkInsert ids sigs []]).query q = .error .assert := by
  refine ⟨1, 2, .fin (1 / 2), exHash, [1, 2], [[3, 4], [1, 2, 3]], [1, 2], by decide, ⟨[1, 2, 3], by decide, by decide⟩,
    rfl, rfl⟩

/-- Right lengths are required of bulk calls only. -/
def BulkRight (n : Nat) (ops : List (Op T Id)) : Prop :=
  ∀ op ∈ ops, (∃ id s, op = .insert id s) ∨ ∀ s ∈ sigsOf op, s.length = n

/-- C29, the part that holds: if the signatures passed to bulk calls have the right length (nothing is
required of `insert`), every stored signature has it and a query of that length returns. Missing from the
claim: bulk calls with longer signatures after the first. -/
theorem C29_lengths_partial (b r : Nat) (t : Fl) (h : List T → UInt64) (ops : List (Op T Id))
    (hb : BulkRight (b * r) ops) :
    (∀ id s, (After C b r t h ops).getSignature id = some s → s.length = b * r) ∧
    ∀ q : List T, q.length = b * r → ∃ res, (After C b r t h ops).query q = .ok res := by
  have key : ∀ id s, live (b * r) ops id = some s → s.length = b * r := by
    clear h
    induction ops using List.reverseRecOn with
    | nil => intro id s hs; cases hs
    | append_singleton ops op ih =>
      have ih := ih fun o ho => hb o (by simp [ho])
      rcases hb op (by simp) with ⟨id', s', rfl⟩ | hop
      · intro id s hs
        rw [live_snoc] at hs
        simp only [applyL, touch] at hs
        split_ifs at hs with hc
        · cases hs; exact hc.2
        · exact ih id s hs
      · intro id s hs
        rw [live_snoc] at hs
        unfold applyL at hs
        cases ht : touch (b * r) id op with
        | none => rw [ht] at hs; exact ih id s hs
        | some v =>
          have h2 : live (b * r) [op] id = some s := by
            rw [ht] at hs
            simpa [live, ht] using hs
          exact rightLengths_live (ops := [op]) (fun o ho => by
            rw [List.mem_singleton] at ho; subst ho; exact hop) id s h2
  refine ⟨fun id s hs => key id s ?_, fun q hq => query_returns (inv_run h b r t ops) hq key⟩
  rw [← C15_get_signature (C := C) b r t h ops id]; exact hs

/-- The hypothesis is met by a history with a wrong-length `insert`. -/
example : BulkRight 2 ([.insert 1 [1, 2, 3], .parBulkInsert [1] [[4, 5]] []] : List (Op Nat Nat)) := by
  intro op hop
  simp at hop
  rcases hop with rfl | rfl
  · exact .inl ⟨_, _, rfl⟩
  · right; intro s hs; simp [sigsOf] at hs; subst hs; rfl

/-! ## C30 -/

/-- C30: `insert` panics iff the length is wrong, and then the index is unchanged. -/
theorem C30_insert_rejected (b r : Nat) (t : Fl) (h : List T → UInt64) (ops : List (Op T Id)) (id : Id)
    (s : List T) :
    (((After C b r t h ops).insert id s).2 = .ok () ↔ s.length = b * r) ∧
    (∀ e, ((After C b r t h ops).insert id s).2 = .error e →
      ((After C b r t h ops).insert id s).1 = After C b r t h ops) := by
  have I := inv_run (C := C) h b r t ops
  by_cases hs : s.length = b * r
  · rw [insert_eq I id s hs]
    exact ⟨⟨fun _ => hs, fun _ => rfl⟩, fun e he => by cases he⟩
  · rw [insert_ne I id s hs]
    exact ⟨⟨fun h' => (by cases h'), fun h' => absurd h' hs⟩, fun e _ => rfl⟩

example : (((After (VecContainer Nat) 2 1 (.fin 0) exHash exOps).insert 1 [1, 2, 3]).2 = .error .assert) ∧
    (((After (VecContainer Nat) 2 1 (.fin 0) exHash exOps).insert 1 [1, 2]).2 = .ok ()) := by decide +kernel

/-- C30: a bulk insert that panics, whatever its workers have done by then, stores nothing, leaves every query
sound and every document stored before findable; queries still return if they did before. -/
theorem C30_bulk_crash (b r : Nat) (t : Fl) (h : List T → UInt64) (ops : List (Op T Id)) (op : Op T Id)
    (hop : (∃ ids sigs sched, op = .parBulkInsert ids sigs sched) ∨ ∃ ps sched, op = .parBulkInsertPairs ps sched)
    (e : Panic) (he : ((After C b r t h ops).step op).2 = .error e) :
    let after := ((After C b r t h ops).step op).1
    (∀ id, after.getSignature id = live (b * r) ops id) ∧
    (∀ q res, after.query q = .ok res → ∀ id ∈ res.elems, SimilarAndPresent (b * r) t ops q id) ∧
    (∀ q res, after.query q = .ok res → ∀ id s v, live (b * r) ops id = some s →
      (∃ i < b, sameBand r s q i) → minhashSimilarity s q = .ok v → Fl.ge v t = true → id ∈ res.elems) ∧
    (RightLengths (b * r) ops → ∀ q : List T, q.length = b * r → ∃ res, after.query q = .ok res) := by
  intro after
  have hafter : after = After C b r t h (ops ++ [op]) := (run_snoc _ ops op).symm
  have hacc : accepts (b * r) op = false := by
    have := C15_accepted_calls (C := C) b r t h ops op (by
      rintro m c o sched rfl
      rcases hop with ⟨_, _, _, h'⟩ | ⟨_, _, h'⟩ <;> cases h')
    rw [he] at this
    by_contra hc
    rw [Bool.not_eq_false] at hc
    exact absurd (this.mpr hc) (by simp)
  have hlive : live (b * r) (ops ++ [op]) = live (b * r) ops := by
    rw [live_snoc]
    funext x
    rcases hop with ⟨ids, sigs, sched, rfl⟩ | ⟨ps, sched, rfl⟩ <;> simp [applyL, touch, hacc]
  refine ⟨?_, ?_, ?_, ?_⟩
  · intro id
    rw [hafter, C15_get_signature, hlive]
  · intro q res hq id hid
    rw [hafter] at hq
    have := C16_query b r t h (ops ++ [op]) q res hq id hid
    unfold SimilarAndPresent at this ⊢
    rw [hlive] at this
    exact this
  · intro q res hq id s v hs hb hv hg
    rw [hafter] at hq
    exact C17_complete b r t h (ops ++ [op]) q res (.inl hq) id s v (by rw [hlive]; exact hs) hb hv hg
  · intro hl q hq
    rw [hafter]
    apply query_returns (inv_run h b r t (ops ++ [op])) hq
    rw [hlive]
    exact rightLengths_live hl

/-- The hypotheses are met: a batch whose second signature is too short panics after one band has already
stored entries. -/
example : ∃ e, ((After (VecContainer Nat) 2 1 (.fin 0) exHash [.insert 7 [1, 2]]).step
    (.parBulkInsert [1, 2] [[1, 2], [3]] [0, 1, 1])).2 = .error e := ⟨.index, by decide⟩

end Verif.Props
