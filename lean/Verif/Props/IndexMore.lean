import Verif.Props.IndexEntries
import Verif.Props.IndexBulk

/-! # What holds without the restrictions of the partial theorems: C11, C22, C28, C29 -/
set_option linter.unusedSectionVars false
namespace Verif.Props
open Verif.Spec

variable {T Id : Type} [DecidableEq T] [DecidableEq Id]
variable {C : Type} [IdContainer C Id] [LawfulIdContainer C Id]

/-! ## C11 -/

/-- C11 is false even for thresholds on the grid of similarities, with the threshold the double nearest to `1/49` and
signatures of length 49: the rounded product is just below one, so signatures without any agreement are accepted. -/
theorem C11_grid_false :
    ∃ (a b : List Nat) (k : Nat) (s : Fl), a.length = b.length ∧ k ≤ a.length ∧
      minhashSimilarity a b = .ok s ∧
      similarityGreaterThanThreshold a b (rnd b64 ((k : ℚ) / a.length)) = .ok true ∧
      Fl.ge s (rnd b64 ((k : ℚ) / a.length)) = false := by
  refine ⟨List.range 49, List.range' 49 49, 1, .fin 0, by decide, by decide, ?_, by decide +kernel, by decide +kernel⟩
  refine (C08_zero_iff_disjoint _ _ (by decide) (by decide) (by decide)).mpr ?_
  decide

/-- C11, the exact decision for thresholds between 0 and 1 and lengths that fit in 32 bits: true iff the agreements
reach the product of length and threshold, rounded and then truncated. -/
theorem C11_exact (a b : List T) (x : ℚ) (h : a.length = b.length) (h0 : 0 < a.length) (hn : a.length < 2 ^ 32)
    (x0 : 0 ≤ x) (x1 : x ≤ 1) :
    similarityGreaterThanThreshold a b (.fin x) = .ok true ↔ ⌊rndQ b64 (a.length * x)⌋ ≤ (agree a b : ℤ) := by
  have c0 : (0 : ℚ) ≤ a.length * x := by positivity
  have c1 : (a.length : ℚ) * x ≤ a.length := mul_le_of_le_one_right (by positivity) x1
  have hr : Repr b64 (a.length : ℚ) := repr_nat b64_ok (by simp only [b64]; omega)
  have hle : rndQ b64 (a.length * x) ≤ a.length := by
    have := rndQ_mono (f := b64) (by decide) c0 c1
    rwa [rndQ_of_repr (by decide) hr] at this
  have hx : Fl.mul b64 (Fl.ofNat b64 a.length) (.fin x) = .fin (rndQ b64 (a.length * x)) := by
    rw [ofNat_exact b64_ok (by simp only [b64]; omega)]
    simp only [Fl.mul]
    refine rnd_of_bounds b64_ok (k := 32) c0 (by simp [b64]) (by simp [b64]) (c1.trans ?_)
    exact_mod_cast hn.le
  rw [similarityGreaterThanThreshold_eq h h0, hx]
  have hf : ⌊rndQ b64 (a.length * x)⌋ ≤ a.length := by
    rw [Int.floor_le_iff]; push_cast; linarith
  have hf0 : 0 ≤ ⌊rndQ b64 (a.length * x)⌋ := Int.floor_nonneg.mpr (rndQ_nonneg c0)
  rw [Except.ok.injEq, decide_eq_true_iff]
  change min ⌊rndQ b64 (a.length * x)⌋.toNat (2 ^ 32 - 1) ≤ agree a b ↔ _
  omega

/-- C11 holds when the product of length and threshold is an integer, without rounding (for example thresholds that
are multiples of `1/n` for a length `n` that is a power of two). -/
theorem C11_integral_partial (a b : List T) (x : ℚ) (s : Fl) (h : a.length = b.length) (h0 : 0 < a.length)
    (hn : a.length < 2 ^ 32) (x0 : 0 ≤ x) (x1 : x ≤ 1) (hx : Repr b64 x) (k : Nat) (hk : a.length * x = k)
    (hs : minhashSimilarity a b = .ok s) :
    similarityGreaterThanThreshold a b (.fin x) = .ok true ↔ Fl.ge s (.fin x) = true := by
  constructor
  · intro hp
    rw [C11_exact a b x h h0 hn x0 x1, hk] at hp
    have hkn : k ≤ a.length := by
      have : (k : ℚ) ≤ a.length := by
        rw [← hk]; exact mul_le_of_le_one_right (by positivity) x1
      exact_mod_cast this
    rw [rndQ_of_repr (by decide) (repr_nat b64_ok (by simp only [b64]; omega)), Int.floor_natCast] at hp
    rw [minhashSimilarity_eq h h0 (by omega)] at hs
    cases hs
    rw [ge_fin]
    have hpos : (0 : ℚ) < a.length := by exact_mod_cast h0
    have hle : x ≤ (agree a b : ℚ) / a.length := by
      rw [le_div_iff₀ hpos, mul_comm, hk]
      exact_mod_cast hp
    have := rndQ_mono (f := b64) (by decide) x0 hle
    rwa [rndQ_of_repr (by decide) hx] at this
  · exact C10_no_false_negative a b _ s h0 (by omega) hs

/-- Length two and threshold one half. -/
example : Repr b64 (1 / 2) ∧ (([1, 2] : List Nat).length : ℚ) * (1 / 2) = (1 : Nat) ∧
    similarityGreaterThanThreshold ([1, 2] : List Nat) [3, 4] (.fin (1 / 2)) = .ok false ∧
    similarityGreaterThanThreshold ([1, 2] : List Nat) [1, 4] (.fin (1 / 2)) = .ok true :=
  ⟨⟨1, -1, by norm_num, by simp [b64], by simp [b64]⟩, by norm_num, by decide +kernel, by decide +kernel⟩

/-! ## C22 -/

/-- C22, exactly when the two calls disagree: `query_one` finds nothing iff every id returned by `query` has a
similarity equal to the threshold. -/
theorem C22_iff (b r : Nat) (t : Fl) (h : List T → UInt64) (ops : List (Op T Id)) (q : List T) (res : HSet Id)
    (hr : (After C b r t h ops).query q = .ok res) (o : Order) :
    (After C b r t h ops).queryOne o q = .ok none ↔
      ∀ id ∈ res.elems, ∀ s v, live (b * r) ops id = some s → minhashSimilarity s q = .ok v →
        Fl.cmp v t = some .eq := by
  obtain ⟨one, h1, h2, _⟩ := C21_best_match b r t h ops q res hr o
  constructor
  · intro hn id hid s v hs hv
    by_contra hne
    obtain ⟨p, hp⟩ := C22_above_threshold_partial b r t h ops q res hr o id hid s v hs hv hne
    rw [hn] at hp
    cases hp
  · intro hall
    rw [h1, h2.mpr]
    intro id hid s v hs hv
    have := hall id hid s v hs hv
    unfold Fl.gt
    rw [this]
    rfl

/-- In the counterexample of C22 an id is returned, and every returned id is exactly at the threshold. -/
example : ∃ (b r : Nat) (t : Fl) (h : List Nat → UInt64) (ops : List (Op Nat Nat)) (q : List Nat) (res : HSet Nat),
    (After (HashSetContainer Nat) b r t h ops).query q = .ok res ∧ 1 ∈ res.elems ∧
    ∀ id ∈ res.elems, ∀ s v, live (b * r) ops id = some s → minhashSimilarity s q = .ok v → Fl.cmp v t = some .eq := by
  obtain ⟨b, r, t, h, ops, q, res, _, _, hr, h1, hn⟩ := C22_query_one_agrees_false
  exact ⟨b, r, t, h, ops, q, res, hr, h1, (C22_iff b r t h ops q res hr Order.id).mp (hn _)⟩

/-! ## C28 -/

theorem live_removes (n : Nat) (ops : List (Op T Id)) (ids : List Id) (id : Id) :
    live n (ops ++ ids.map .remove) id = if id ∈ ids then none else live n ops id := by
  induction ids using List.reverseRecOn with
  | nil => simp
  | append_singleton ids x ih =>
    rw [List.map_append, ← List.append_assoc, List.map_singleton, live_snoc]
    unfold applyL
    simp only [touch, List.mem_append, List.mem_singleton]
    by_cases hx : x = id
    · subst hx; simp
    · have hx' : id ≠ x := fun h => hx h.symm
      simp [hx, hx', ih]

theorem live_bulkRemove (n : Nat) (ops : List (Op T Id)) (ids : List Id) (sched : List Nat) (id : Id) :
    live n (ops ++ [.bulkRemove ids sched]) id = if id ∈ ids then none else live n ops id := by
  rw [live_snoc]
  unfold applyL
  simp only [touch]
  by_cases h : id ∈ ids <;> simp [h]

theorem entries_removes (dedup : Bool) (key : Nat → List T → UInt64) (n : Nat) (ops : List (Op T Id)) (ids : List Id)
    (i : Nat) (k : UInt64) (id : Id) (hid : id ∉ ids) :
    entries dedup key n (ops ++ ids.map .remove) i k id = entries dedup key n ops i k id := by
  induction ids using List.reverseRecOn with
  | nil => simp
  | append_singleton ids x ih =>
    simp only [List.mem_append, List.mem_singleton, not_or] at hid
    rw [List.map_append, ← List.append_assoc, List.map_singleton, entries_snoc, ih hid.1]
    unfold entryStep
    have hx : x ≠ id := fun h => hid.2 h.symm
    have h0 : pairsAt key i k id (removals (live n (ops ++ ids.map .remove)) (.remove x : Op T Id)) = 0 := by
      unfold pairsAt removals
      simp only
      cases live n (ops ++ ids.map .remove) x <;> simp [hx]
    show (if 0 = 0 then _ - pairsAt key i k id (removals (live n (ops ++ ids.map .remove)) (.remove x)) else _) = _
    rw [h0]
    simp

theorem entries_bulkRemove (dedup : Bool) (key : Nat → List T → UInt64) (n : Nat) (ops : List (Op T Id)) (ids : List Id)
    (sched : List Nat) (i : Nat) (k : UInt64) (id : Id) (hid : id ∉ ids) :
    entries dedup key n (ops ++ [.bulkRemove ids sched]) i k id = entries dedup key n ops i k id := by
  rw [entries_snoc]
  unfold entryStep
  have h0 : pairsAt key i k id (removals (live n ops) (.bulkRemove ids sched : Op T Id)) = 0 := by
    unfold pairsAt removals
    rw [List.countP_eq_zero]
    rintro ⟨x, s⟩ hx
    have := (List.of_mem_zip hx).1
    simp only [decide_eq_true_eq, not_and]
    rintro rfl
    exact absurd this hid
  show (if 0 = 0 then _ - pairsAt key i k id (removals (live n ops) (.bulkRemove ids sched)) else _) = _
  rw [h0]
  simp

theorem taken_removes (content : Id → Option (List T)) (ids : List Id) :
    taken content ids = ids.zipIdx.filterMap fun p =>
      if p.1 ∈ ids.take p.2 then none else content p.1 := by
  suffices H : ∀ (ids pre : List Id), taken (fun x => if x ∈ pre then none else content x) ids =
      (ids.zipIdx pre.length).filterMap fun p => if p.1 ∈ (pre ++ ids).take p.2 then none else content p.1 by
    simpa using H ids []
  intro ids
  induction ids with
  | nil => intro pre; rfl
  | cons id ids ih =>
    intro pre
    have h1 := ih (pre ++ [id])
    rw [List.length_append, List.length_singleton, List.append_assoc, List.singleton_append] at h1
    have hf : (fun x => if x ∈ pre ++ [id] then none else content x) =
        fun x => if x = id then none else if x ∈ pre then none else content x := by
      funext x
      by_cases hx : x = id <;> simp [hx]
    rw [List.zipIdx_cons, List.filterMap_cons, ← h1, hf]
    have ht : (pre ++ id :: ids).take pre.length = pre := by simp
    simp only [ht]
    rw [taken]
    by_cases hp : id ∈ pre
    · simp only [hp, if_true]
      congr 1
      funext x
      by_cases hx : x = id
      · subst hx; simp [hp]
      · simp [hx]
    · simp only [hp, if_false]
      cases hc : content id with
      | none =>
        simp only
        congr 1
        funext x
        by_cases hx : x = id
        · subst hx; simp [hp, hc]
        · simp [hx]
      | some s => rfl

/-- C28 without any condition on the list: for every list of ids, unknown and repeated ones included, a bulk removal
leaves the same content, gives the same answers to `query`, and returns the signatures that the single removals
return, in order. What differs after other lists than those of `C28_bulk_remove_partial` are the remains in the
buckets (`C28_bulk_remove_false`). -/
theorem C28_query_partial {dedup : Bool} [CountedContainer C Id dedup] (b r : Nat) (t : Fl) (h : List T → UInt64)
    (ops : List (Op T Id)) (hl : RightLengths (b * r) ops) (ids : List Id) (sched : List Nat) :
    (∀ id, ((After C b r t h ops).bulkRemove ids sched).1.getSignature id =
      (After C b r t h (ops ++ ids.map .remove)).getSignature id) ∧
    (∃ sigs, ((After C b r t h ops).bulkRemove ids sched).2 = .ok sigs ∧
      sigs = ids.zipIdx.filterMap fun p =>
        match ((After C b r t h (ops ++ (ids.take p.2).map .remove)).remove p.1).2 with
        | .ok s => s
        | .error _ => none) ∧
    ∀ q : List T, q.length = b * r → ∃ res res',
      ((After C b r t h ops).bulkRemove ids sched).1.query q = .ok res ∧
      (After C b r t h (ops ++ ids.map .remove)).query q = .ok res' ∧ ∀ id, id ∈ res.elems ↔ id ∈ res'.elems := by
  have hstep : ((After C b r t h ops).bulkRemove ids sched).1 = After C b r t h (ops ++ [.bulkRemove ids sched]) := by
    unfold After MinHashIndex.run
    rw [List.foldl_append]
    show _ = (MinHashIndex.step _ _).1
    unfold MinHashIndex.step
    split <;> simp_all
  rw [hstep]
  refine ⟨?_, ?_, ?_⟩
  · intro id
    rw [C15_get_signature, C15_get_signature, live_removes, live_bulkRemove]
  · have I := inv_run (C := C) h b r t ops
    refine ⟨_, by rw [(bulkRemove_eq I ids sched).2], ?_⟩
    rw [taken_eq _ _ I.sigs, taken_removes]
    congr 1
    funext p
    rw [C15_remove, live_removes]
  · intro q hq
    have hl1 : RightLengths (b * r) (ops ++ [.bulkRemove ids sched]) := by
      intro op hop
      rcases List.mem_append.mp hop with h1 | h1
      · exact hl op h1
      · rw [List.mem_singleton.mp h1]; simp [sigsOf]
    have hl2 : RightLengths (b * r) (ops ++ ids.map .remove) := by
      intro op hop
      rcases List.mem_append.mp hop with h1 | h1
      · exact hl op h1
      · obtain ⟨x, _, rfl⟩ := List.mem_map.mp h1; simp [sigsOf]
    obtain ⟨res, e1, _, m1⟩ := C87_query (C := C) (dedup := dedup) b r t h _ hl1 q hq
    obtain ⟨res', e2, _, m2⟩ := C87_query (C := C) (dedup := dedup) b r t h _ hl2 q hq
    refine ⟨res, res', e1, e2, fun id => ?_⟩
    rw [m1, m2, live_removes, live_bulkRemove]
    by_cases hid : id ∈ ids
    · simp [hid]
    · simp only [entries_removes _ _ _ _ _ _ _ _ hid, entries_bulkRemove _ _ _ _ _ _ _ _ _ hid]

/-- The list of the counterexample, with an unknown id first: the answers of `query` agree. -/
example : ∃ res res',
    ((After (HashSetContainer Nat) 2 1 (.fin (1 / 2)) exHash [.insert 1 [1, 2], .insert 3 [1, 4]]).bulkRemove [9, 1, 1]
      []).1.query [1, 2] = .ok res ∧
    (After (HashSetContainer Nat) 2 1 (.fin (1 / 2)) exHash [.insert 1 [1, 2], .insert 3 [1, 4], .remove 9, .remove 1,
      .remove 1]).query [1, 2] = .ok res' ∧ ∀ id, id ∈ res.elems ↔ id ∈ res'.elems :=
  (C28_query_partial (C := HashSetContainer Nat) 2 1 (.fin (1 / 2)) exHash [.insert 1 [1, 2], .insert 3 [1, 4]]
    (by intro op hop s hs; simp at hop; rcases hop with rfl | rfl <;> (simp [sigsOf] at hs; subst hs; rfl))
    [9, 1, 1] []).2.2 [1, 2] rfl

/-! ## C29 -/

/-- C29, what always holds: no stored signature is too short. -/
theorem C29_at_least_partial (b r : Nat) (t : Fl) (h : List T → UInt64) (ops : List (Op T Id)) (id : Id) (s : List T)
    (hs : (After C b r t h ops).getSignature id = some s) : b * r ≤ s.length := by
  rw [C15_get_signature] at hs
  exact (inv_run (C := C) h b r t ops).long id s hs

/-- C29, exactly when queries panic: every query of the right length returns iff every stored signature has the right
length. -/
theorem C29_iff (b r : Nat) (hb : 0 < b) (t : Fl) (h : List T → UInt64) (ops : List (Op T Id)) :
    (∀ q : List T, q.length = b * r → ∃ res, (After C b r t h ops).query q = .ok res) ↔
      ∀ id s, (After C b r t h ops).getSignature id = some s → s.length = b * r := by
  have I := inv_run (C := C) h b r t ops
  simp only [C15_get_signature]
  constructor
  · intro hall id s hs
    have hlong := I.long id s hs
    have hlen : (s.take (b * r)).length = b * r := by rw [List.length_take]; omega
    refine (query_ok_iff I hlen).mp (hall _ hlen) id s ?_ hs
    have hsh := I.shapes
    have h0 : 0 < (After C b r t h ops).bands.length := by
      have := congrArg List.length hsh
      simp only [List.length_map, List.length_range] at this
      rw [this]; exact hb
    refine ⟨(After C b r t h ops).bands[0], List.getElem_mem _, ?_⟩
    have hb1 := I.bucketed _ (List.getElem_mem h0) id s hs
    have hshape : (After C b r t h ops).bands[0].shape = (0 * r, (0 + 1) * r, h) := by
      have := congrArg (fun l => l[0]?) hsh
      simp only [List.getElem?_map, List.getElem?_eq_getElem h0, List.getElem?_range hb, Option.map_some] at this
      exact Option.some.inj this
    have hk : (After C b r t h ops).bands[0].key (s.take (b * r)) = (After C b r t h ops).bands[0].key s := by
      rw [key_of_shape hshape, key_of_shape hshape]
      unfold bandOf
      rw [Nat.zero_mul, List.drop_zero, List.drop_zero, List.take_take,
        min_eq_left (Nat.le_mul_of_pos_left r hb)]
    rw [hk]
    exact hb1
  · intro hall q hq
    exact (query_ok_iff I hq).mpr fun id s _ hs => hall id s hs

end Verif.Props
