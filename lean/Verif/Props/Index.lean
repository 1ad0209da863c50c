import Verif.Lemmas.IndexRank
import Mathlib.Tactic.IntervalCases

/-!
# Properties C15 - C22: the MinHash index as a map with similarity queries

`After C b r t h ops` is the index that `new_index(b, r, t)` becomes after the calls `ops` (going on after
panics). All theorems quantify over every lawful id container `C` (the three containers of the crate are
instances), every band hash function `h`, every history and every threshold.
-/
set_option linter.unusedSectionVars false
namespace Verif.Props
open Verif.Spec

variable {T Id : Type} [DecidableEq T] [DecidableEq Id]

/-- The index after a history. -/
abbrev After (C : Type) {T Id : Type} [DecidableEq Id] [IdContainer C Id] (b r : Nat) (t : Fl)
    (h : List T → UInt64) (ops : List (Op T Id)) : MinHashIndex T Id C :=
  (MinHashIndex.newIndex b r t h : MinHashIndex T Id C).run ops

variable {C : Type} [IdContainer C Id] [LawfulIdContainer C Id]

/-- A band hash for the examples. -/
def exHash (l : List Nat) : UInt64 := UInt64.ofNat (l.foldl (fun a x => a * 31 + x) 7)

/-- A history for the examples: overwriting, bulk insertion, removal, a rejected call. -/
def exOps : List (Op Nat Nat) :=
  [.insert 1 [1, 2], .insert 2 [3, 4], .insert 1 [5, 6], .insert 9 [1], .parBulkInsert [3, 4] [[1, 2], [7, 8]] [1, 0],
   .parBulkInsertPairs [(5, [3, 9])] [0], .remove 2, .bulkRemove [4] [], .shrinkToFit Order.rev]

/-- The content the specification assigns to it. -/
example : (List.range 10).map (live 2 exOps) =
    [none, some [5, 6], none, some [1, 2], none, some [3, 9], none, none, none, none] := by decide

/-! ## C15 -/

/-- C15: `get_signature` answers with the last insertion not followed by a removal. -/
theorem C15_get_signature (b r : Nat) (t : Fl) (h : List T → UInt64) (ops : List (Op T Id)) (id : Id) :
    (After C b r t h ops).getSignature id = live (b * r) ops id :=
  (inv_run h b r t ops).sigs id

example : (After (HashSetContainer Nat) 2 1 (.fin 0) exHash exOps).getSignature 3 = some [1, 2] ∧
    (After (HashSetContainer Nat) 2 1 (.fin 0) exHash exOps).getSignature 2 = none := by
  rw [C15_get_signature, C15_get_signature]; decide

/-- C15: so does `get_id_signature_map`. -/
theorem C15_map (b r : Nat) (t : Fl) (h : List T → UInt64) (ops : List (Op T Id)) (id : Id) :
    (After C b r t h ops).getIdSignatureMap.get? id = live (b * r) ops id :=
  (inv_run h b r t ops).sigs id

example : (After (VecContainer Nat) 2 1 (.fin 0) exHash exOps).getIdSignatureMap.get? 5 = some [3, 9] := by
  rw [C15_map]; decide

/-- C15: `size` is the number of present ids. -/
theorem C15_size (b r : Nat) (t : Fl) (h : List T → UInt64) (ops : List (Op T Id)) (ids : List Id)
    (hnd : ids.Nodup) (hmem : ∀ id, id ∈ ids ↔ live (b * r) ops id ≠ none) :
    (After C b r t h ops).size = ids.length := by
  have I := inv_run (C := C) h b r t ops
  unfold MinHashIndex.size
  rw [HMap.len_eq_keys]
  apply List.Perm.length_eq
  rw [List.perm_ext_iff_of_nodup (HMap.keys_nodup _) hnd]
  intro id
  rw [hmem, HMap.mem_keys_iff, Option.ne_none_iff_exists']
  simp only [I.sigs]

/-- The hypotheses of `C15_size` are met: the present ids of the example history are 1, 3, 5. -/
example : (After (SmallVecContainer Nat 2) 2 1 (.fin 0) exHash [.insert 1 [1, 2], .insert 2 [3, 4], .insert 1 [5, 6],
    .remove 2, .insert 7 [0, 0]]).size = 2 := by
  refine C15_size 2 1 _ _ _ [1, 7] (by decide) ?_
  intro id
  simp only [live, touch, List.reverse_cons, List.reverse_nil, List.nil_append, List.cons_append, List.findSome?,
    List.length_cons, List.length_nil, List.mem_cons, List.not_mem_nil, or_false]
  by_cases h1 : id = 1 <;> by_cases h7 : id = 7 <;> by_cases h2 : id = 2 <;> subst_vars <;>
    simp_all [eq_comm]

/-- C15: `remove` never panics and returns the current signature. -/
theorem C15_remove (b r : Nat) (t : Fl) (h : List T → UInt64) (ops : List (Op T Id)) (id : Id) :
    ((After C b r t h ops).remove id).2 = .ok (live (b * r) ops id) := by
  have I := inv_run (C := C) h b r t ops
  cases hs : live (b * r) ops id with
  | none => rw [remove_none I id hs]
  | some s => rw [remove_some I id s hs]

example : ((After (VecContainer Nat) 2 1 (.fin 0) exHash exOps).remove 1).2 = .ok (some [5, 6]) := by
  rw [C15_remove]; decide

/-- C15: which calls return normally (`shrink_to` is C32). -/
theorem C15_accepted_calls (b r : Nat) (t : Fl) (h : List T → UInt64) (ops : List (Op T Id)) (op : Op T Id)
    (hop : ∀ m c o sched, op ≠ .shrinkTo m c o sched) :
    ((After C b r t h ops).step op).2 = .ok () ↔ accepts (b * r) op = true := by
  have I := inv_run (C := C) h b r t ops
  cases op with
  | insert id s =>
    show ((After C b r t h ops).insert id s).2 = .ok () ↔ _
    by_cases hs : s.length = b * r
    · rw [insert_eq I id s hs]; simp [accepts, hs]
    · rw [insert_ne I id s hs]; simp [accepts, hs]
  | parBulkInsert ids sigs sched =>
    show ((After C b r t h ops).parBulkInsert ids sigs sched).2 = .ok () ↔ _
    rcases bulk_eq I ids sigs sched with ⟨ha, _, e⟩ | ⟨ha, er, e⟩
    · rw [e, ha]; simp
    · rcases e with ⟨e, _⟩ | ⟨e, _⟩ <;> rw [e, ha] <;> simp
  | parBulkInsertPairs ps sched =>
    show ((After C b r t h ops).parBulkInsertPairs ps sched).2 = .ok () ↔ _
    rcases pairs_eq I ps sched with ⟨ha, _, e⟩ | ⟨ha, er, e⟩
    · rw [e, ha]; simp
    · rw [e, ha]; simp
  | remove id =>
    have := C15_remove (C := C) b r t h ops id
    simp only [MinHashIndex.step, accepts, iff_true]
    rw [this]; rfl
  | bulkRemove ids sched =>
    have := (bulkRemove_eq I ids sched).2
    simp only [MinHashIndex.step, accepts, iff_true]
    rw [this]; rfl
  | clear => simp [MinHashIndex.step, accepts]
  | shrinkToFit o => simp [MinHashIndex.step, MinHashIndex.shrinkToFit, accepts]
  | shrinkTo m c o sched => exact absurd rfl (hop m c o sched)

/-- C15 on the example history: sizes and signatures, with each of the three containers. -/
example : (After (HashSetContainer Nat) 2 1 (.fin 0) exHash exOps).size = 3 ∧
    (After (VecContainer Nat) 2 1 (.fin 0) exHash exOps).getSignature 1 = some [5, 6] ∧
    ((After (SmallVecContainer Nat 2) 2 1 (.fin 0) exHash exOps).remove 3).2 = .ok (some [1, 2]) := by
  decide +kernel

/-! ## C16 -/

/-- An id is present with a current signature at least as similar to `q` as the threshold. -/
def SimilarAndPresent (n : Nat) (t : Fl) (ops : List (Op T Id)) (q : List T) (id : Id) : Prop :=
  ∃ s v, live n ops id = some s ∧ minhashSimilarity s q = .ok v ∧ Fl.ge v t = true

/-- C16 for `query`. -/
theorem C16_query (b r : Nat) (t : Fl) (h : List T → UInt64) (ops : List (Op T Id)) (q : List T)
    (res : HSet Id) (hr : (After C b r t h ops).query q = .ok res) (id : Id) (hid : id ∈ res.elems) :
    SimilarAndPresent (b * r) t ops q id :=
  (((query_mem (inv_run h b r t ops) hr).2 id).mp hid).2

/-- The hypotheses of C16 are met: after an overwriting insert the query for the new signature returns the id. -/
example : ((After (HashSetContainer Nat) 2 1 (.fin (1 / 2)) exHash
    [.insert 1 [1, 2], .insert 2 [3, 4], .insert 1 [3, 6]]).query [3, 7]).map HSet.elems = .ok [2, 1] := by decide +kernel

/-- C16 for `query_owned`. -/
theorem C16_query_owned (b r : Nat) (t : Fl) (h : List T → UInt64) (ops : List (Op T Id)) (q : List T)
    (res : HSet Id) (hr : (After C b r t h ops).queryOwned q = .ok res) (id : Id) (hid : id ∈ res.elems) :
    SimilarAndPresent (b * r) t ops q id :=
  C16_query b r t h ops q res hr id hid

example : ((After (VecContainer Nat) 2 1 (.fin (1 / 2)) exHash
    [.insert 1 [1, 2], .insert 2 [3, 4], .insert 1 [3, 6]]).queryOwned [3, 7]).map HSet.elems = .ok [1, 2] := by decide +kernel

/-- C16 for `query_by_id`, `query_by_id_owned` and `QueryIndex::query`: the query signature is the current
signature of the given id, and nothing is returned for an unknown id. -/
theorem C16_query_by_id (b r : Nat) (t : Fl) (h : List T → UInt64) (ops : List (Op T Id)) (id0 : Id)
    (res : HSet Id) (hr : (After C b r t h ops).queryById id0 = .ok res ∨
      (After C b r t h ops).queryByIdOwned id0 = .ok res ∨
      (After C b r t h ops).queryIndexQuery id0 = .ok res) (id : Id) (hid : id ∈ res.elems) :
    ∃ q, live (b * r) ops id0 = some q ∧ SimilarAndPresent (b * r) t ops q id := by
  have I := inv_run (C := C) h b r t ops
  have key : ∀ f : List T → Except Panic (HSet Id), (∀ q, f q = (After C b r t h ops).query q) →
      (match (After C b r t h ops).idSignatures.get? id0 with
        | some signature => f signature
        | none => .ok HSet.empty) = .ok res →
      ∃ q, live (b * r) ops id0 = some q ∧ SimilarAndPresent (b * r) t ops q id := by
    intro f hf hh
    rw [I.sigs] at hh
    cases hL : live (b * r) ops id0 with
    | none =>
      rw [hL] at hh
      cases hh
      simp at hid
    | some q =>
      rw [hL] at hh
      simp only [hf] at hh
      exact ⟨q, rfl, C16_query b r t h ops q res hh id hid⟩
  rcases hr with hr | hr | hr
  · exact key _ (fun _ => rfl) hr
  · exact key _ (fun _ => rfl) hr
  · exact key _ (fun _ => rfl) hr

example : ((After (VecContainer Nat) 2 1 (.fin (1 / 2)) exHash
    [.insert 1 [1, 2], .insert 2 [3, 4], .insert 1 [3, 6]]).queryById 2).map HSet.elems = .ok [1, 2] := by decide +kernel

/-! ## C17 -/

/-- A query of the right length returns normally after any history whose signatures have the right length. -/
theorem C17_query_returns (b r : Nat) (t : Fl) (h : List T → UInt64) (ops : List (Op T Id)) (q : List T)
    (hl : RightLengths (b * r) ops) (hq : q.length = b * r) :
    ∃ res, (After C b r t h ops).query q = .ok res ∧ (After C b r t h ops).queryOwned q = .ok res := by
  obtain ⟨res, e⟩ := query_returns (inv_run (C := C) h b r t ops) hq (rightLengths_live hl)
  exact ⟨res, e, e⟩

example : RightLengths 2 ([.insert 1 [1, 2], .parBulkInsert [3, 4] [[1, 2], [7, 8]] [], .remove 1] : List (Op Nat Nat)) ∧
    [1, 7].length = 2 * 1 := by
  refine ⟨?_, rfl⟩
  intro op hop s hs
  simp at hop
  rcases hop with rfl | rfl | rfl <;> simp [sigsOf] at hs
  · subst hs; rfl
  · rcases hs with rfl | rfl <;> rfl

/-- C17: completeness of `query` and `query_owned`. -/
theorem C17_complete (b r : Nat) (t : Fl) (h : List T → UInt64) (ops : List (Op T Id)) (q : List T)
    (res : HSet Id) (hr : (After C b r t h ops).query q = .ok res ∨ (After C b r t h ops).queryOwned q = .ok res)
    (id : Id) (s : List T) (v : Fl) (hs : live (b * r) ops id = some s)
    (hband : ∃ i < b, sameBand r s q i) (hv : minhashSimilarity s q = .ok v) (ht : Fl.ge v t = true) :
    id ∈ res.elems := by
  have hr : (After C b r t h ops).query q = .ok res := by rcases hr with hr | hr <;> exact hr
  have I := inv_run (C := C) h b r t ops
  rw [(query_mem I hr).2 id]
  obtain ⟨i, hi, hb⟩ := hband
  exact ⟨candidate_of_band I hs hi (by rw [sameBand_bandOf hb]), s, v, hs, hv, ht⟩

/-- The hypotheses of C17 are met: a right-length history, a stored signature that shares a band. -/
example : RightLengths 2 ([.insert 1 [1, 2], .insert 2 [3, 4], .remove 2] : List (Op Nat Nat)) ∧
    live 2 ([.insert 1 [1, 2], .insert 2 [3, 4], .remove 2] : List (Op Nat Nat)) 1 = some [1, 2] ∧
    ∃ i < 2, sameBand 1 [1, 2] [1, 7] i := by
  refine ⟨?_, by decide, 0, by decide, ?_⟩
  · intro op hop s hs
    simp at hop
    rcases hop with rfl | rfl | rfl <;> simp [sigsOf] at hs <;> subst hs <;> rfl
  · intro j h1 h2
    have : j = 0 := by omega
    subst this; rfl

/-! ## C18 -/

/-- C18: without overwriting, `query` returns exactly the present ids that share a band key and reach the
threshold. -/
theorem C18_exact (b r : Nat) (t : Fl) (h : List T → UInt64) (ops : List (Op T Id)) (q : List T)
    (hc : Clean (b * r) ops) (res : HSet Id) (hr : (After C b r t h ops).query q = .ok res) (id : Id) :
    id ∈ res.elems ↔ ∃ s v, live (b * r) ops id = some s ∧ (∃ i < b, h (bandOf r s i) = h (bandOf r q i)) ∧
      minhashSimilarity s q = .ok v ∧ Fl.ge v t = true := by
  have I := inv_run (C := C) h b r t ops
  rw [(query_mem I hr).2 id, candidate_exact I (exact_run h b r t ops hc)]
  constructor
  · rintro ⟨⟨s, h1, h2⟩, s', v, h3, h4, h5⟩
    rw [h1] at h3; cases h3
    exact ⟨s, v, h1, h2, h4, h5⟩
  · rintro ⟨s, v, h1, h2, h3, h4⟩
    exact ⟨⟨s, h1, h2⟩, s, v, h1, h3, h4⟩

/-- C18: a query on a clean history panics iff a present signature sharing a band key has the wrong length. -/
theorem C18_returns_iff (b r : Nat) (t : Fl) (h : List T → UInt64) (ops : List (Op T Id)) (q : List T)
    (hc : Clean (b * r) ops) (hq : q.length = b * r) :
    (∃ res, (After C b r t h ops).query q = .ok res) ↔
      ∀ id s, live (b * r) ops id = some s → (∃ i < b, h (bandOf r s i) = h (bandOf r q i)) →
        s.length = b * r := by
  have I := inv_run (C := C) h b r t ops
  rw [query_ok_iff I hq]
  constructor
  · intro hall id s hL hi
    exact hall id s ((candidate_exact I (exact_run h b r t ops hc) q id).mpr ⟨s, hL, hi⟩) hL
  · intro hall id s hcand hL
    obtain ⟨s', h1, h2⟩ := (candidate_exact I (exact_run h b r t ops hc) q id).mp hcand
    rw [hL] at h1; cases h1
    exact hall id s hL h2

/-- C18: the answer depends only on the content, not on the history (nor on the container). -/
theorem C18_history_independent {C' : Type} [IdContainer C' Id] [LawfulIdContainer C' Id]
    (b r : Nat) (t : Fl) (h : List T → UInt64) (ops ops' : List (Op T Id)) (q : List T)
    (hc : Clean (b * r) ops) (hc' : Clean (b * r) ops') (hlive : live (b * r) ops = live (b * r) ops') :
    ((∃ res, (After C b r t h ops).query q = .ok res) ↔ ∃ res, (After C' b r t h ops').query q = .ok res) ∧
    ∀ res res', (After C b r t h ops).query q = .ok res → (After C' b r t h ops').query q = .ok res' →
      ∀ id, id ∈ res.elems ↔ id ∈ res'.elems := by
  constructor
  · by_cases hq : q.length = b * r
    · rw [C18_returns_iff b r t h ops q hc hq, C18_returns_iff b r t h ops' q hc' hq, hlive]
    · constructor
      · rintro ⟨res, hr⟩; exact absurd (query_mem (inv_run h b r t ops) hr).1 hq
      · rintro ⟨res, hr⟩; exact absurd (query_mem (inv_run h b r t ops') hr).1 hq
  · intro res res' hr hr' id
    rw [C18_exact b r t h ops q hc res hr, C18_exact b r t h ops' q hc' res' hr', hlive]

/-- A clean history in the sense of C18 with insertion, bulk insertion, removal, re-insertion. -/
def exClean : List (Op Nat Nat) :=
  [.insert 1 [1, 2], .parBulkInsert [2, 3] [[3, 4], [1, 9]] [1], .remove 1, .insert 1 [5, 6],
   .bulkRemove [3] [], .insert 7 [0]]

/-- A test for `Clean`, used in examples. -/
theorem clean_of_prefixes {n : Nat} {ops : List (Op T Id)}
    (h : ∀ i, i < ops.length → ∀ op, ops[i]? = some op → cleanCall n (live n (ops.take i)) op) :
    Clean n ops := by
  intro pre op post e
  have h1 := h pre.length (by rw [e]; simp) op (by rw [e]; simp)
  rwa [e, List.take_left'] at h1
  rfl

theorem exClean_clean : Clean 2 exClean := by
  apply clean_of_prefixes
  intro i hi op hop
  have hi' : i < 6 := hi
  interval_cases i <;> simp [exClean] at hop <;> subst hop <;> simp [cleanCall, exClean] <;> decide

/-- The hypotheses of C18 are met by a history that removes and re-inserts. -/
example : Clean 2 exClean ∧ live 2 exClean 1 = some [5, 6] ∧ live 2 exClean 2 = some [3, 4] ∧
    live 2 exClean 3 = none := ⟨exClean_clean, by decide, by decide, by decide⟩

/-! ## C19 -/

/-- Similarity of a non-empty signature to itself. -/
theorem self_similarity (s : List T) (h0 : 0 < s.length) (hn : s.length < 2 ^ 64) :
    minhashSimilarity s s = .ok (.fin 1) := by
  unfold minhashSimilarity
  rw [if_pos rfl, simMatches_eq_agree s s rfl, agree_self, ofNat_b64 hn]
  have hp : (0 : ℚ) < rndQ b64 s.length := by
    have := rndQ_pos b64_ok (q := s.length) (k := 0) (by simp [b64]) (by rw [zpow_zero]; exact_mod_cast h0)
    have h1 : (2 : ℚ) ^ (0 : ℤ) = 1 := zpow_zero _
    linarith
  simp only [Fl.div, if_neg hp.ne', div_self hp.ne']
  rw [rnd_of_bounds b64_ok (by norm_num) (k := 64) (by simp [b64]) (by simp [b64]) (by norm_num), rndQ_one b64_ok]

/-- C19: whenever the query with a stored signature returns, it returns the id. -/
theorem C19_self (b r : Nat) (t : Fl) (h : List T → UInt64) (ops : List (Op T Id)) (id : Id) (s : List T)
    (hb : 0 < b) (h0 : 0 < b * r) (hn : b * r < 2 ^ 64) (ht : Fl.ge (.fin 1) t = true)
    (hs : (After C b r t h ops).getSignature id = some s) (res : HSet Id)
    (hr : (After C b r t h ops).query s = .ok res ∨ (After C b r t h ops).queryById id = .ok res ∨
      (After C b r t h ops).queryByIdOwned id = .ok res ∨ (After C b r t h ops).queryIndexQuery id = .ok res) :
    id ∈ res.elems := by
  have I := inv_run (C := C) h b r t ops
  have hL : live (b * r) ops id = some s := (C15_get_signature b r t h ops id).symm.trans hs
  have hr' : (After C b r t h ops).query s = .ok res := by
    have hg : (After C b r t h ops).idSignatures.get? id = some s := hs
    rcases hr with hr | hr | hr | hr
    · exact hr
    · unfold MinHashIndex.queryById at hr; rw [hg] at hr; exact hr
    · unfold MinHashIndex.queryByIdOwned at hr; rw [hg] at hr; exact hr
    · unfold MinHashIndex.queryIndexQuery at hr; rw [hg] at hr; exact hr
  have hlen := (query_mem I hr').1
  exact C17_complete b r t h ops s res (.inl hr') id s _ hL ⟨0, hb, fun _ _ _ => rfl⟩
    (self_similarity s (by omega) (by omega)) ht

example : (After (HashSetContainer Nat) 2 1 (.fin (1 / 2)) exHash exOps).getSignature 1 = some [5, 6] ∧
    ((After (HashSetContainer Nat) 2 1 (.fin (1 / 2)) exHash exOps).queryById 1).map HSet.elems = .ok [1] := by
  decide +kernel

/-- C19: with signatures of the right length all four queries return, so every stored document finds
itself. -/
theorem C19_self_right_lengths (b r : Nat) (t : Fl) (h : List T → UInt64) (ops : List (Op T Id)) (id : Id)
    (s : List T) (hb : 0 < b) (h0 : 0 < b * r) (hn : b * r < 2 ^ 64) (ht : Fl.ge (.fin 1) t = true)
    (hl : RightLengths (b * r) ops) (hs : (After C b r t h ops).getSignature id = some s) :
    ∃ res, (After C b r t h ops).query s = .ok res ∧ (After C b r t h ops).queryById id = .ok res ∧
      (After C b r t h ops).queryByIdOwned id = .ok res ∧ (After C b r t h ops).queryIndexQuery id = .ok res ∧
      id ∈ res.elems := by
  have hL : live (b * r) ops id = some s := (C15_get_signature b r t h ops id).symm.trans hs
  obtain ⟨res, e, e'⟩ := C17_query_returns (C := C) b r t h ops s hl (rightLengths_live hl id s hL)
  have hg : (After C b r t h ops).idSignatures.get? id = some s := hs
  refine ⟨res, e, ?_, ?_, ?_, C19_self b r t h ops id s hb h0 hn ht hs res (.inl e)⟩
  · unfold MinHashIndex.queryById; rw [hg]; exact e
  · unfold MinHashIndex.queryByIdOwned; rw [hg]; exact e'
  · unfold MinHashIndex.queryIndexQuery; rw [hg]; exact e

/-- The hypotheses of C19 are met by the example history. -/
example : 0 < 2 ∧ 0 < 2 * 1 ∧ Fl.ge (.fin 1) (.fin (1 / 2)) = true ∧
    (After (HashSetContainer Nat) 2 1 (.fin (1 / 2)) exHash [.insert 1 [1, 2], .insert 1 [3, 4]]).getSignature 1
      = some [3, 4] := by
  refine ⟨by decide, by decide, ?_, ?_⟩
  · rw [ge_fin]; norm_num
  · rw [C15_get_signature]; decide

/-! ## C20 -/

/-- A call that does not insert `id`. -/
def NoInsert (id : Id) : Op T Id → Prop
  | .insert id' _ => id' ≠ id
  | .parBulkInsert ids _ _ => id ∉ ids
  | .parBulkInsertPairs ps _ => ∀ p ∈ ps, p.1 ≠ id
  | _ => True

theorem live_of_noInsert (n : Nat) (ops post : List (Op T Id)) (id : Id) (h0 : live n ops id = none)
    (hp : ∀ op ∈ post, NoInsert id op) : live n (ops ++ post) id = none := by
  induction post using List.reverseRecOn with
  | nil => simpa using h0
  | append_singleton post op ih =>
    rw [← List.append_assoc, live_snoc]
    have ih := ih fun o ho => hp o (by simp [ho])
    have hop := hp op (by simp)
    unfold applyL
    cases op with
    | insert id' s => simp only [touch]; rw [if_neg (fun hc => hop hc.1)]; exact ih
    | parBulkInsert ids sigs sched =>
      simp only [touch]
      have : lastPair (ids.zip sigs) id = none := by
        rw [lastPair_none]
        rintro p hpz rfl
        exact hop (List.of_mem_zip (a := p.1) (b := p.2) hpz).1
      rw [this]
      split_ifs <;> exact ih
    | parBulkInsertPairs ps sched =>
      simp only [touch]
      have : lastPair ps id = none := lastPair_none.mpr hop
      rw [this]
      split_ifs <;> exact ih
    | remove id' => simp only [touch]; split_ifs <;> first | rfl | exact ih
    | bulkRemove ids sched => simp only [touch]; split_ifs <;> first | rfl | exact ih
    | clear => rfl
    | shrinkToFit o => exact ih
    | shrinkTo m c o sched => exact ih

/-- A call that removes `id`. -/
def Removes (id : Id) : Op T Id → Prop
  | .remove id' => id' = id
  | .bulkRemove ids _ => id ∈ ids
  | .clear => True
  | _ => False

theorem live_of_removes (n : Nat) (ops : List (Op T Id)) (op : Op T Id) (id : Id) (h : Removes id op) :
    live n (ops ++ [op]) id = none := by
  rw [live_snoc]
  unfold applyL
  cases op with
  | remove id' => simp only [Removes] at h; simp [touch, h]
  | bulkRemove ids sched => simp only [Removes] at h; simp [touch, h]
  | clear => rfl
  | insert => exact h.elim
  | parBulkInsert => exact h.elim
  | parBulkInsertPairs => exact h.elim
  | shrinkToFit o => exact h.elim
  | shrinkTo => exact h.elim

/-- C20: after a removal and any calls that do not insert the id again, the id has no signature and no query
returns it. -/
theorem C20_removed_stay_out (b r : Nat) (t : Fl) (h : List T → UInt64) (pre : List (Op T Id)) (op : Op T Id)
    (post : List (Op T Id)) (id : Id) (hrem : Removes id op) (hpost : ∀ o ∈ post, NoInsert id o) :
    let idx := After C b r t h (pre ++ [op] ++ post)
    idx.getSignature id = none ∧
    (∀ q res, idx.query q = .ok res → id ∉ res.elems) ∧
    (∀ q res, idx.queryOwned q = .ok res → id ∉ res.elems) ∧
    (∀ id0 res, idx.queryById id0 = .ok res → id ∉ res.elems) ∧
    (∀ id0 res, idx.queryByIdOwned id0 = .ok res → id ∉ res.elems) ∧
    (∀ o q r', idx.queryOne o q = .ok (some r') → r'.1 ≠ id) ∧
    (∀ o1 o2 q l, idx.queryOwnedReturnSimilarity o1 o2 q = .ok l → id ∉ l.map Prod.fst) ∧
    (∀ o1 o2 q k l, idx.queryTopK o1 o2 q k = .ok l → id ∉ l.map Prod.fst) := by
  intro idx
  have hlive : live (b * r) (pre ++ [op] ++ post) id = none :=
    live_of_noInsert _ _ _ _ (live_of_removes _ _ _ _ hrem) hpost
  have I := inv_run (C := C) h b r t (pre ++ [op] ++ post)
  have hsig : idx.idSignatures.get? id = none := (I.sigs id).trans hlive
  have hq : ∀ q res, idx.query q = .ok res → id ∉ res.elems := by
    intro q res hr hid
    obtain ⟨s, v, h1, _⟩ := C16_query b r t h _ q res hr id hid
    rw [hlive] at h1; cases h1
  refine ⟨hsig, hq, hq, ?_, ?_, ?_, ?_, ?_⟩
  · intro id0 res hr hid
    obtain ⟨q, _, s, v, h1, _⟩ := C16_query_by_id b r t h _ id0 res (.inl hr) id hid
    rw [hlive] at h1; cases h1
  · intro id0 res hr hid
    obtain ⟨q, _, s, v, h1, _⟩ := C16_query_by_id b r t h _ id0 res (.inr (.inl hr)) id hid
    rw [hlive] at h1; cases h1
  · intro o q r' hr he
    unfold MinHashIndex.queryOne at hr
    split_ifs at hr
    obtain ⟨S, _, h2⟩ := bind_ok hr
    obtain ⟨l, h3, h4⟩ := bind_ok h2
    have hm := oneCandidates_mem h3
    have hn : ∀ x ∈ l, x.2 ≠ .nan := by
      intro x hx
      obtain ⟨_, s, _, _, hg⟩ := (hm x).mp hx
      exact (Fl.ge_ne_nan (Fl.gt_ge hg)).1
    obtain ⟨res, e1, _, e3⟩ := maxByKeyE_spec Prod.snd l hn
    rw [h4] at e1
    injection e1 with e1
    obtain ⟨_, s, hs, _⟩ := (hm r').mp (e3 r' e1.symm).1
    rw [he, hsig] at hs; cases hs
  · intro o1 o2 q l hr hid
    obtain ⟨S, _, _, _, hm, _⟩ := retSim_ok hr
    obtain ⟨x, hx, rfl⟩ := List.mem_map.mp hid
    obtain ⟨_, s, hs, _⟩ := (hm x).mp hx
    rw [hsig] at hs; cases hs
  · intro o1 o2 q k l hr hid
    obtain ⟨S, all, _, _, hm, _, rfl⟩ := topK_ok hr
    obtain ⟨x, hx, rfl⟩ := List.mem_map.mp hid
    obtain ⟨s, hs, _⟩ := hm x (List.mem_of_mem_take hx)
    rw [hsig] at hs; cases hs

/-- The hypotheses of C20 are met: the removed id still sits in a bucket (it was overwritten before). -/
example : Removes 1 (.remove 1 : Op Nat Nat) ∧ (∀ o ∈ ([.insert 2 [1, 2]] : List (Op Nat Nat)), NoInsert 1 o) ∧
    ((After (HashSetContainer Nat) 2 1 (.fin 0) exHash
      ([.insert 1 [1, 2], .insert 1 [3, 4]] ++ [.remove 1] ++ [.insert 2 [1, 2]])).query [1, 2]).map HSet.elems
      = .ok [2] := by
  refine ⟨rfl, ?_, by decide +kernel⟩
  intro o ho
  simp at ho
  subst ho
  simp [NoInsert]

/-- C20: `clear` gives the state of a fresh index, whatever happened before. -/
theorem C20_clear_is_fresh (b r : Nat) (t : Fl) (h : List T → UInt64) (ops post : List (Op T Id)) :
    After C b r t h (ops ++ [.clear] ++ post) = After C b r t h post := by
  have I := inv_run (C := C) h b r t ops
  have e : After C b r t h (ops ++ [.clear]) = MinHashIndex.newIndex b r t h := by
    unfold After
    rw [run_snoc]
    show ((MinHashIndex.newIndex b r t h).run ops).clear = _
    set idx := (MinHashIndex.newIndex b r t h : MinHashIndex T Id C).run ops with hidx
    have hb : idx.bands.map Band.clear = (List.range b).map fun i => Band.new (i * r) ((i + 1) * r) h := by
      have := congrArg (List.map fun p : Nat × Nat × (List T → UInt64) =>
        (Band.new p.1 p.2.1 p.2.2 : Band T C)) I.shapes
      rw [List.map_map, List.map_map] at this
      exact this
    unfold MinHashIndex.clear MinHashIndex.newIndex
    rw [hb, I.ht, I.hr, I.hb, I.hn]
  unfold After at e ⊢
  unfold MinHashIndex.run at e ⊢
  rw [List.foldl_append, e]

/-- C20 instance: a bulk-removed id with an unknown id first in the list, later calls present. -/
example : Removes 2 (.bulkRemove [9, 2] [] : Op Nat Nat) ∧
    ∀ o ∈ ([.insert 1 [1, 2], .shrinkToFit Order.rev] : List (Op Nat Nat)), NoInsert 2 o := by
  refine ⟨by simp [Removes], ?_⟩
  intro o ho
  simp at ho
  rcases ho with rfl | rfl <;> simp [NoInsert]

end Verif.Props
