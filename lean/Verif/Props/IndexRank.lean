import Verif.Props.Index
import Verif.Props.Similarity

/-! # Properties C21 - C25: ranked queries -/
set_option linter.unusedSectionVars false
namespace Verif.Props
open Verif.Spec

variable {T Id : Type} [DecidableEq T] [DecidableEq Id]
variable {C : Type} [IdContainer C Id] [LawfulIdContainer C Id]

/-! ## C21 -/

/-- C21: whenever `query` returns, so does `query_one`, for every iteration order; `None` means that no
returned id is strictly above the threshold; `Some` is a returned id with its exact similarity, strictly above
the threshold and maximal among everything `query` returns. -/
theorem C21_best_match (b r : Nat) (t : Fl) (h : List T → UInt64) (ops : List (Op T Id)) (q : List T)
    (res : HSet Id) (hr : (After C b r t h ops).query q = .ok res) (o : Order) :
    ∃ one, (After C b r t h ops).queryOne o q = .ok one ∧
      (one = none ↔ ∀ id ∈ res.elems, ∀ s v, live (b * r) ops id = some s → minhashSimilarity s q = .ok v →
        Fl.gt v t = false) ∧
      ∀ id v, one = some (id, v) → id ∈ res.elems ∧ Fl.gt v t = true ∧
        (∃ s, live (b * r) ops id = some s ∧ minhashSimilarity s q = .ok v) ∧
        ∀ id' ∈ res.elems, ∀ s' v', live (b * r) ops id' = some s' → minhashSimilarity s' q = .ok v' →
          Fl.ge v v' = true := by
  have I := inv_run (C := C) h b r t ops
  obtain ⟨hq, hmem⟩ := query_mem I hr
  obtain ⟨S, hS, _, hSm⟩ := candidates_ok I q hq
  have hlen := (query_ok_iff I hq).mp ⟨res, hr⟩
  obtain ⟨l, hl⟩ := oneCandidates_ok (idx := After C b r t h ops) (q := q) (ids := o.perm S.elems) (by
    intro id hid s hs
    rw [I.sigs] at hs
    rw [hq]
    exact hlen id s ((hSm id).mp ((o.mem_perm _ _).mp hid)) hs)
  have hm : ∀ p : Id × Fl, p ∈ l ↔ p.1 ∈ res.elems ∧ ∃ s, live (b * r) ops p.1 = some s ∧
      minhashSimilarity s q = .ok p.2 ∧ Fl.gt p.2 t = true := by
    intro p
    rw [oneCandidates_mem hl p, o.mem_perm, hSm, hmem]
    simp only [I.sigs, I.ht]
    constructor
    · rintro ⟨h1, s, h2, h3, h4⟩
      exact ⟨⟨h1, s, p.2, h2, h3, Fl.gt_ge h4⟩, s, h2, h3, h4⟩
    · rintro ⟨⟨h1, _⟩, s, h2, h3, h4⟩
      exact ⟨h1, s, h2, h3, h4⟩
  have hn : ∀ x ∈ l, x.2 ≠ .nan := by
    intro x hx
    obtain ⟨_, s, _, _, hg⟩ := (hm x).mp hx
    exact (Fl.ge_ne_nan (Fl.gt_ge hg)).1
  obtain ⟨one, e1, e2, e3⟩ := maxByKeyE_spec Prod.snd l hn
  refine ⟨one, ?_, ?_, ?_⟩
  · unfold MinHashIndex.queryOne
    rw [if_pos (I.hn.trans hq.symm), hS]
    show (MinHashIndex.oneCandidates _ q (o.perm S.elems) >>= _) = _
    rw [hl]; exact e1
  · rw [e2]
    constructor
    · rintro rfl id hid s v hs hv
      by_contra hg
      have := (hm (id, v)).mpr ⟨hid, s, hs, hv, by simpa using hg⟩
      cases this
    · intro hall
      rw [List.eq_nil_iff_forall_not_mem]
      intro p hp
      obtain ⟨h1, s, h2, h3, h4⟩ := (hm p).mp hp
      rw [hall p.1 h1 s p.2 h2 h3] at h4; cases h4
  · intro id v hone
    obtain ⟨h1, h2⟩ := e3 (id, v) hone
    obtain ⟨h3, s, h4, h5, h6⟩ := (hm (id, v)).mp h1
    refine ⟨h3, h6, ⟨s, h4, h5⟩, ?_⟩
    intro id' hid' s' v' hs' hv'
    obtain ⟨_, s'', v'', h7, h8, h9⟩ := (hmem id').mp hid'
    rw [hs'] at h7; cases h7
    rw [hv'] at h8; cases h8
    rcases Fl.gt_or_of_ge h9 with hg | hg
    · exact h2 (id', v') ((hm _).mpr ⟨hid', s', hs', hv', hg⟩)
    · exact Fl.ge_trans (Fl.gt_ge h6) hg

/-- The hypothesis of C21 is met, with two returned ids of different similarity. -/
example : ((After (HashSetContainer Nat) 2 1 (.fin (1 / 4)) exHash [.insert 1 [1, 7], .insert 2 [1, 2]]).query
      [1, 2]).map HSet.elems = .ok [1, 2] ∧
    (After (HashSetContainer Nat) 2 1 (.fin (1 / 4)) exHash [.insert 1 [1, 7], .insert 2 [1, 2]]).queryOne Order.rev
      [1, 2] = .ok (some (2, .fin 1)) := by decide +kernel

/-! ## C22 -/

/-- The similarity of the two signatures of the counterexample is exactly one half. -/
theorem sim_half : minhashSimilarity ([1, 2] : List Nat) [1, 3] = .ok (.fin (1 / 2)) := by
  rw [minhashSimilarity_eq (by rfl) (by simp) (by simp)]
  have e : ((agree ([1, 2] : List Nat) [1, 3] : ℕ) : ℚ) / (([1, 2] : List Nat).length : ℚ) = 1 / 2 := by
    have : agree ([1, 2] : List Nat) [1, 3] = 1 := by decide
    rw [this]; norm_num
  rw [e]
  have hr : Repr b64 (1 / 2) := ⟨1, -1, by norm_num, by simp [b64], by simp [b64]⟩
  rw [rndQ_of_repr (by simp [b64]) hr]

/-- C22 is false of the code: at exactly the threshold `query` finds the document and `query_one` answers
`None`. -/
theorem C22_query_one_agrees_false :
    ∃ (b r : Nat) (t : Fl) (h : List Nat → UInt64) (ops : List (Op Nat Nat)) (q : List Nat) (res : HSet Nat),
      RightLengths (b * r) ops ∧ q.length = b * r ∧
      (After (HashSetContainer Nat) b r t h ops).query q = .ok res ∧ 1 ∈ res.elems ∧
      ∀ o, (After (HashSetContainer Nat) b r t h ops).queryOne o q = .ok none := by
  have hl : RightLengths (2 * 1) ([.insert 1 [1, 2]] : List (Op Nat Nat)) := by
    intro op hop s hs
    simp at hop; subst hop
    simp [sigsOf] at hs; subst hs; rfl
  obtain ⟨res, hres, _⟩ := C17_query_returns (C := HashSetContainer Nat) 2 1 (.fin (1 / 2)) exHash
    [.insert 1 [1, 2]] [1, 3] hl rfl
  have hlive : ∀ id, live (2 * 1) ([.insert 1 [1, 2]] : List (Op Nat Nat)) id =
      if 1 = id then some [1, 2] else none := by
    intro id
    by_cases h1 : 1 = id
    · subst h1; rfl
    · simp [live, touch, h1]
  refine ⟨2, 1, .fin (1 / 2), exHash, [.insert 1 [1, 2]], [1, 3], res, hl, rfl, hres, ?_, ?_⟩
  · refine C17_complete 2 1 (.fin (1 / 2)) exHash _ [1, 3] res (.inl hres) 1 [1, 2] _ (by rw [hlive]; rfl) ?_
      sim_half (by rw [ge_fin])
    refine ⟨0, by decide, fun j h1 h2 => ?_⟩
    have : j = 0 := by omega
    subst this; rfl
  · intro o
    obtain ⟨one, h1, h2, _⟩ := C21_best_match (C := HashSetContainer Nat) 2 1 (.fin (1 / 2)) exHash
      [.insert 1 [1, 2]] [1, 3] res hres o
    rw [h1, h2.mpr]
    intro id _ s v hs hv
    rw [hlive] at hs
    split_ifs at hs
    cases hs
    rw [sim_half] at hv
    cases hv
    simp [Fl.gt, Fl.cmp]

/-- C22, the part that holds: if some returned id is not exactly at the threshold, `query_one` answers
`Some`. Missing from the claim: the boundary similarity = threshold. -/
theorem C22_above_threshold_partial (b r : Nat) (t : Fl) (h : List T → UInt64) (ops : List (Op T Id))
    (q : List T) (res : HSet Id) (hr : (After C b r t h ops).query q = .ok res) (o : Order)
    (id : Id) (hid : id ∈ res.elems) (s : List T) (v : Fl) (hs : live (b * r) ops id = some s)
    (hv : minhashSimilarity s q = .ok v) (hne : Fl.cmp v t ≠ some .eq) :
    ∃ p, (After C b r t h ops).queryOne o q = .ok (some p) := by
  obtain ⟨one, h1, h2, _⟩ := C21_best_match b r t h ops q res hr o
  cases one with
  | some p => exact ⟨p, h1⟩
  | none =>
    have hg := h2.mp rfl id hid s v hs hv
    obtain ⟨s', v', h3, h4, h5⟩ := C16_query b r t h ops q res hr id hid
    rw [hs] at h3; cases h3
    rw [hv] at h4; cases h4
    unfold Fl.gt at hg
    unfold Fl.ge at h5
    simp_all

/-- The hypotheses are met: one returned id at the threshold, one above it. -/
example : ((After (HashSetContainer Nat) 2 1 (.fin (1 / 2)) exHash [.insert 1 [1, 7], .insert 2 [1, 2]]).query
      [1, 2]).map HSet.elems = .ok [1, 2] ∧
    live 2 ([.insert 1 [1, 7], .insert 2 [1, 2]] : List (Op Nat Nat)) 2 = some [1, 2] ∧
    Fl.cmp (.fin 1) (.fin (1 / 2)) ≠ some .eq := by decide +kernel

/-! ## C23 -/

/-- C23: the ids of `query_owned_return_similarity` are those of `query_owned`, once each, with their exact
similarities, in non-increasing order, for all iteration orders and sorts. -/
theorem C23_sorted_query (b r : Nat) (t : Fl) (h : List T → UInt64) (ops : List (Op T Id)) (q : List T)
    (hq : q.length = b * r) (o1 o2 : Order) (l : List (Id × Fl))
    (hl : (After C b r t h ops).queryOwnedReturnSimilarity o1 o2 q = .ok l) :
    ∃ res, (After C b r t h ops).queryOwned q = .ok res ∧ (l.map Prod.fst).Perm res.elems ∧
      (∀ p ∈ l, ∃ s, live (b * r) ops p.1 = some s ∧ minhashSimilarity s q = .ok p.2) ∧
      l.Pairwise fun a b => Fl.ge a.2 b.2 = true := by
  have I := inv_run (C := C) h b r t ops
  obtain ⟨S, hS, hall, hnd, hm, hs⟩ := retSim_ok hl
  obtain ⟨S', _, hS2, hSm⟩ := candidates_ok I q hq
  rw [hS] at hS2; cases hS2
  obtain ⟨res, hres⟩ := (query_ok_iff I hq).mpr (by
    intro id s hc hL
    obtain ⟨s', v, h1, h2⟩ := hall id ((hSm id).mpr hc)
    rw [I.sigs, hL] at h1; cases h1
    have := minhashSimilarity_ok_iff.mp ⟨v, h2⟩
    omega)
  refine ⟨res, hres, ?_, ?_, hs⟩
  · rw [List.perm_ext_iff_of_nodup hnd res.nodup]
    intro id
    rw [(query_mem I hres).2 id, List.mem_map]
    constructor
    · rintro ⟨p, hp, rfl⟩
      obtain ⟨h1, s, h2, h3, h4⟩ := (hm p).mp hp
      rw [I.sigs] at h2; rw [I.ht] at h4
      exact ⟨(hSm _).mp h1, s, p.2, h2, h3, h4⟩
    · rintro ⟨h1, s, v, h2, h3, h4⟩
      refine ⟨(id, v), (hm _).mpr ⟨(hSm _).mpr h1, s, ?_, h3, ?_⟩, rfl⟩
      · rw [I.sigs]; exact h2
      · rw [I.ht]; exact h4
  · intro p hp
    obtain ⟨_, s, h2, h3, _⟩ := (hm p).mp hp
    rw [I.sigs] at h2
    exact ⟨s, h2, h3⟩

/-! ## C24 -/

/-- C24 is false of the code: after overwriting an id and removing it, both similarity queries panic. -/
theorem C24_never_panics_false :
    ∃ (b r : Nat) (t : Fl) (h : List Nat → UInt64) (ops : List (Op Nat Nat)) (q : List Nat),
      RightLengths (b * r) ops ∧ q.length = b * r ∧
      (After (HashSetContainer Nat) b r t h ops).queryTopK Order.id Order.id q 1 = .error .index ∧
      (After (HashSetContainer Nat) b r t h ops).queryOwnedReturnSimilarity Order.id Order.id q
        = .error .index := by
  refine ⟨2, 1, .fin (1 / 2), exHash, [.insert 1 [1, 2], .insert 1 [3, 4], .remove 1], [1, 2], ?_, rfl, ?_, ?_⟩
  · intro op hop s hs
    simp at hop
    rcases hop with rfl | rfl | rfl <;> simp [sigsOf] at hs <;> subst hs <;> rfl
  · rfl
  · rfl

/-- C24 fails after every history: if a present id is overwritten with a signature that has another key in some
band, and then removed, both similarity queries panic for every query that shares that band with the overwritten
signature (for instance that signature), for every container, iteration order and `k`. -/
theorem C24_overwrite_remove_panics (b r : Nat) (t : Fl) (h : List T → UInt64) (ops : List (Op T Id)) (id : Id)
    (s s' q : List T) (hs : live (b * r) ops id = some s) (hs' : s'.length = b * r) (hq : q.length = b * r)
    (i : Nat) (hi : i < b) (hne : h (bandOf r s i) ≠ h (bandOf r s' i)) (hsq : h (bandOf r q i) = h (bandOf r s i))
    (o1 o2 : Order) :
    (∃ e, (After C b r t h (ops ++ [.insert id s', .remove id])).queryOwnedReturnSimilarity o1 o2 q = .error e) ∧
    ∀ k, ∃ e, (After C b r t h (ops ++ [.insert id s', .remove id])).queryTopK o1 o2 q k = .error e := by
  have I := inv_run (C := C) h b r t ops
  have I1 := inv_run (C := C) h b r t (ops ++ [.insert id s'])
  have hl1 : live (b * r) (ops ++ [.insert id s']) id = some s' := by
    rw [live_snoc]; simp [applyL, touch, hs']
  have e2 : ops ++ [.insert id s', .remove id] = (ops ++ [.insert id s']) ++ [.remove id] := by simp
  have I2 := inv_run (C := C) h b r t (ops ++ [.insert id s', .remove id])
  have hl2 : live (b * r) (ops ++ [.insert id s', .remove id]) id = none := by
    rw [e2, live_snoc]; simp [applyL, touch]
  have hcand : ∃ band ∈ (After C b r t h (ops ++ [.insert id s', .remove id])).bands, id ∈ band.bucket (band.key q) := by
    obtain ⟨band, hb, hsh⟩ := Inv.shape_band I2.shapes hi
    refine ⟨band, hb, ?_⟩
    have hb2 : band ∈ ((After C b r t h (ops ++ [.insert id s'])).remove id).1.bands := by
      rw [e2, run_snoc] at hb
      exact hb
    rw [remove_some I1 id s' hl1] at hb2
    obtain ⟨bd, hbd, hrem⟩ := forall₂_mem_right (forEachMut_forall₂ _ _ (remove_bands I1 id s' hl1)) band hb2
    have hsh1 : bd.shape = (i * r, (i + 1) * r, h) := (Band.remove_shape hrem).symm.trans hsh
    rw [key_of_shape hsh, hsq, Band.bucket_remove hrem, if_neg (by rw [key_of_shape hsh1]; exact hne)]
    have hbd1 : bd ∈ ((After C b r t h ops).insert id s').1.bands := by
      have := hbd
      unfold After at this
      rw [run_snoc] at this
      exact this
    rw [insert_eq I id s' hs'] at hbd1
    obtain ⟨bd0, hbd0, hins⟩ := forall₂_mem_right (forEachMut_forall₂ _ _ (insert_bands I id s' hs'.ge)) bd hbd1
    have hsh0 : bd0.shape = (i * r, (i + 1) * r, h) := (Band.insert_shape hins).symm.trans hsh1
    rw [Band.mem_bucket_insert hins]
    right
    have := I.bucketed bd0 hbd0 id s hs
    rwa [key_of_shape hsh0] at this
  obtain ⟨S, _, hS, hSm⟩ := candidates_ok I2 q hq
  have hid := (hSm id).mpr hcand
  constructor
  · cases hr : (After C b r t h (ops ++ [.insert id s', .remove id])).queryOwnedReturnSimilarity o1 o2 q with
    | error e => exact ⟨e, rfl⟩
    | ok l =>
      obtain ⟨S', hS', hall, _⟩ := retSim_ok hr
      rw [hS] at hS'; cases hS'
      obtain ⟨s1, _, h1, _⟩ := hall id hid
      rw [I2.sigs, hl2] at h1; cases h1
  · intro k
    cases hr : (After C b r t h (ops ++ [.insert id s', .remove id])).queryTopK o1 o2 q k with
    | error e => exact ⟨e, rfl⟩
    | ok l =>
      obtain ⟨S', all, hS', hp, hall, _⟩ := topK_ok hr
      rw [hS] at hS'; cases hS'
      obtain ⟨p, hpm, hpe⟩ := List.mem_map.mp (hp.mem_iff.mpr hid)
      obtain ⟨s1, h1, _⟩ := hall p hpm
      rw [hpe, I2.sigs, hl2] at h1; cases h1

/-- The hypotheses are met after a history with other ids. -/
example : live 2 ([.insert 2 [1, 9], .insert 1 [1, 2]] : List (Op Nat Nat)) 1 = some [1, 2] ∧
    exHash (bandOf 1 [1, 2] 0) ≠ exHash (bandOf 1 [3, 2] 0) ∧
    exHash (bandOf 1 [1, 7] 0) = exHash (bandOf 1 [1, 2] 0) := by decide

/-- Distances of equally long non-empty signatures are numbers. -/
theorem distance_fin (q s : List T) (hl : s.length = q.length) (h0 : 0 < q.length) (hn : q.length < 2 ^ 52) :
    ∃ x, minhashDistance q s = .ok (.fin x) := by
  obtain ⟨x, _, h1, _⟩ := C09_distance_order q s s q.length hn h0 rfl hl hl
  exact ⟨x, h1⟩

/-- If every bucket entry belongs to a present id, the similarity queries return. -/
theorem rank_returns {b r : Nat} {t : Fl} {h : List T → UInt64} {ops : List (Op T Id)} {q : List T}
    (hl : RightLengths (b * r) ops) (hq : q.length = b * r) (h0 : 0 < b * r) (hn : b * r < 2 ^ 52)
    (hpres : ∀ id, (∃ band ∈ (After C b r t h ops).bands, id ∈ band.bucket (band.key q)) →
      live (b * r) ops id ≠ none) (o1 o2 : Order) :
    (∃ l, (After C b r t h ops).queryOwnedReturnSimilarity o1 o2 q = .ok l) ∧
    ∀ k, ∃ l, (After C b r t h ops).queryTopK o1 o2 q k = .ok l := by
  have I := inv_run (C := C) h b r t ops
  obtain ⟨S, _, hS, hSm⟩ := candidates_ok I q hq
  have key : ∀ id ∈ S.elems, ∃ s, (After C b r t h ops).idSignatures.get? id = some s ∧ s.length = q.length := by
    intro id hid
    obtain ⟨s, hs⟩ := Option.ne_none_iff_exists'.mp (hpres id ((hSm id).mp hid))
    refine ⟨s, (I.sigs id).trans hs, ?_⟩
    rw [hq]; exact rightLengths_live hl id s hs
  refine ⟨retSim_returns hS key, fun k => topK_returns hS ?_⟩
  intro id hid
  obtain ⟨s, h1, h2⟩ := key id hid
  obtain ⟨x, hx⟩ := distance_fin q s h2 (by omega) (by omega)
  exact ⟨s, _, h1, hx, by simp⟩

/-- C24, the part that holds: after histories without overwriting, the similarity queries return. -/
theorem C24_clean_partial (b r : Nat) (t : Fl) (h : List T → UInt64) (ops : List (Op T Id)) (q : List T)
    (hc : Clean (b * r) ops) (hl : RightLengths (b * r) ops) (hq : q.length = b * r) (h0 : 0 < b * r)
    (hn : b * r < 2 ^ 52) (o1 o2 : Order) :
    (∃ l, (After C b r t h ops).queryOwnedReturnSimilarity o1 o2 q = .ok l) ∧
    ∀ k, ∃ l, (After C b r t h ops).queryTopK o1 o2 q k = .ok l := by
  refine rank_returns hl hq h0 hn ?_ o1 o2
  intro id hcand
  obtain ⟨s, h1, _⟩ := (candidate_exact (inv_run h b r t ops) (exact_run h b r t ops hc) q id).mp hcand
  rw [h1]; simp

/-- The hypotheses are met by a history with removal and re-insertion. -/
example : Clean 2 ([.insert 1 [1, 2], .remove 1, .insert 1 [3, 4]] : List (Op Nat Nat)) ∧
    RightLengths 2 ([.insert 1 [1, 2], .remove 1, .insert 1 [3, 4]] : List (Op Nat Nat)) := by
  constructor
  · apply clean_of_prefixes
    intro i hi op hop
    have hi' : i < 3 := hi
    interval_cases i <;> simp at hop <;> subst hop <;> simp [cleanCall] <;> decide
  · intro op hop s hs
    simp at hop
    rcases hop with rfl | rfl | rfl <;> simp [sigsOf] at hs <;> subst hs <;> rfl

/-- A call that removes nothing individually. -/
def NoRemove : Op T Id → Prop
  | .remove _ => False
  | .bulkRemove _ _ => False
  | _ => True

theorem touch_not_deleted {n : Nat} {op : Op T Id} (hn : NoRemove op) (hc : op ≠ .clear) {id : Id} {L}
    (h : L id ≠ none) : applyL n L op id ≠ none := by
  unfold applyL
  cases op with
  | insert id' s => simp only [touch]; split_ifs <;> simp [h]
  | parBulkInsert ids sigs sched =>
    simp only [touch]
    split_ifs
    · cases lastPair (ids.zip sigs) id <;> simp [h]
    · exact h
  | parBulkInsertPairs ps sched =>
    simp only [touch]
    split_ifs
    · cases lastPair ps id <;> simp [h]
    · exact h
  | remove id' => exact hn.elim
  | bulkRemove ids sched => exact hn.elim
  | clear => exact absurd rfl hc
  | shrinkToFit o => exact h
  | shrinkTo m c o sched => exact h

/-- Without removals every bucket entry belongs to a present id. -/
theorem buckets_present (b r : Nat) (t : Fl) (h : List T → UInt64) (ops : List (Op T Id))
    (hl : RightLengths (b * r) ops) (hnr : ∀ op ∈ ops, NoRemove op) :
    ∀ band ∈ (After C b r t h ops).bands, ∀ k id, id ∈ band.bucket k → live (b * r) ops id ≠ none := by
  induction ops using List.reverseRecOn with
  | nil =>
    intro band hb k id hid
    have := ((exact_new (T := T) (Id := Id) (C := C) h b r t band hb).mem k id).mp hid
    obtain ⟨s, hs, _⟩ := this
    cases hs
  | append_singleton ops op ih =>
    have I := inv_run (C := C) h b r t ops
    have ih := ih (fun o ho => hl o (by simp [ho])) (fun o ho => hnr o (by simp [ho]))
    have hop := hnr op (by simp)
    have hlop := hl op (by simp)
    rw [live_snoc]
    unfold After
    rw [run_snoc]
    cases op with
    | remove id' => exact hop.elim
    | bulkRemove ids sched => exact hop.elim
    | clear =>
      intro band hb k id hid
      simp only [MinHashIndex.step, MinHashIndex.clear, List.mem_map] at hb
      obtain ⟨bd, _, rfl⟩ := hb
      simp [Band.bucket, Band.clear] at hid
    | shrinkToFit o =>
      intro band hb k id hid
      obtain ⟨bd, hbd, _, e2⟩ := forall₂_mem_right (shrinkToFit_rehashed o (After C b r t h ops)).bands band hb
      rw [Rehashed.bucket e2] at hid
      exact ih bd hbd k id hid
    | shrinkTo m c o sched =>
      intro band hb k id hid
      obtain ⟨bd, hbd, _, e2⟩ :=
        forall₂_mem_right (shrinkTo_rehashed o (After C b r t h ops) m c sched).bands band hb
      rw [Rehashed.bucket e2] at hid
      exact ih bd hbd k id hid
    | insert id' s =>
      have hs : s.length = b * r := hlop s (by simp [sigsOf])
      intro band hb k id hid
      have hb' : band ∈ ((After C b r t h ops).insert id' s).1.bands := hb
      rw [insert_eq I id' s hs] at hb'
      obtain ⟨bd, hbd, e⟩ := forall₂_mem_right (forEachMut_forall₂ _ _ (insert_bands I id' s hs.ge)) band hb'
      rw [Band.mem_bucket_insert e] at hid
      rcases hid with ⟨_, rfl⟩ | hid
      · simp [applyL, touch, hs]
      · exact touch_not_deleted hop (by simp) (ih bd hbd k id hid)
    | parBulkInsert ids sigs sched =>
      intro band hb k id hid
      have hb' : band ∈ ((After C b r t h ops).parBulkInsert ids sigs sched).1.bands := hb
      have hacc : accepts (b * r) (.parBulkInsert ids sigs sched : Op T Id) = true := by
        simp only [accepts, Bool.and_eq_true, List.all_eq_true, decide_eq_true_eq]
        constructor
        · cases hd : sigs.head? with
          | none => rfl
          | some s => simpa using hlop s (by simpa [sigsOf] using List.mem_of_head? hd)
        · intro p hp
          exact (hlop p.1 (by simpa [sigsOf] using (List.of_mem_zip (a := p.1) (b := p.2) hp).1)).ge
      rcases bulk_eq I ids sigs sched with ⟨ha, hok, e⟩ | ⟨ha, _⟩
      · rw [e] at hb'
        obtain ⟨bd, hbd, e⟩ := forall₂_mem_right (parForEach_ok _ hok) band hb'
        rw [(Band.foldlM_insert (fun p : List T × Id => (p.2, p.1)) _ e).2.2] at hid
        rcases hid with ⟨p, hp, rfl, _⟩ | hid
        · simp only [applyL, touch, ha, if_true]
          have : lastPair (ids.zip sigs) p.2 ≠ none := by
            rw [Ne, lastPair_none]
            intro hall
            exact hall (p.2, p.1) (mem_zip_comm.mp hp) rfl
          obtain ⟨s, hs⟩ := Option.ne_none_iff_exists'.mp this
          rw [hs]; simp
        · exact touch_not_deleted hop (by simp) (ih bd hbd k id hid)
      · rw [hacc] at ha; cases ha
    | parBulkInsertPairs ps sched =>
      intro band hb k id hid
      have hb' : band ∈ ((After C b r t h ops).parBulkInsertPairs ps sched).1.bands := hb
      have hacc : accepts (b * r) (.parBulkInsertPairs ps sched : Op T Id) = true := by
        simp only [accepts, List.all_eq_true, decide_eq_true_eq]
        intro p hp
        exact (hlop p.2 (by simpa [sigsOf] using ⟨p.1, hp⟩)).ge
      rcases pairs_eq I ps sched with ⟨ha, hok, e⟩ | ⟨ha, _⟩
      · rw [e] at hb'
        obtain ⟨bd, hbd, e⟩ := forall₂_mem_right (parForEach_ok _ hok) band hb'
        rw [(Band.foldlM_insert (fun p : Id × List T => p) _ e).2.2] at hid
        rcases hid with ⟨p, hp, rfl, _⟩ | hid
        · simp only [applyL, touch, ha, if_true]
          have : lastPair ps p.1 ≠ none := by
            rw [Ne, lastPair_none]
            intro hall
            exact hall p hp rfl
          obtain ⟨s, hs⟩ := Option.ne_none_iff_exists'.mp this
          rw [hs]; simp
        · exact touch_not_deleted hop (by simp) (ih bd hbd k id hid)
      · rw [hacc] at ha; cases ha

/-- C24, another part that holds: after histories without removals (overwriting allowed, `clear` allowed) the
similarity queries return. Missing from the claim: histories that overwrite and later remove. -/
theorem C24_no_removal_partial (b r : Nat) (t : Fl) (h : List T → UInt64) (ops : List (Op T Id)) (q : List T)
    (hnr : ∀ op ∈ ops, NoRemove op) (hl : RightLengths (b * r) ops) (hq : q.length = b * r) (h0 : 0 < b * r)
    (hn : b * r < 2 ^ 52) (o1 o2 : Order) :
    (∃ l, (After C b r t h ops).queryOwnedReturnSimilarity o1 o2 q = .ok l) ∧
    ∀ k, ∃ l, (After C b r t h ops).queryTopK o1 o2 q k = .ok l := by
  refine rank_returns hl hq h0 hn ?_ o1 o2
  rintro id ⟨band, hb, hid⟩
  exact buckets_present b r t h ops hl hnr band hb _ id hid

/-- The hypotheses of the two partial theorems are met by histories with removal and with overwriting
respectively. -/
example : (∀ op ∈ ([.insert 1 [1, 2], .insert 1 [3, 4]] : List (Op Nat Nat)), NoRemove op) ∧
    RightLengths 2 ([.insert 1 [1, 2], .insert 1 [3, 4]] : List (Op Nat Nat)) ∧
    Clean 2 ([.insert 1 [1, 2], .remove 1, .insert 1 [3, 4]] : List (Op Nat Nat)) := by
  refine ⟨?_, ?_, ?_⟩
  · intro op hop; simp at hop; rcases hop with rfl | rfl <;> trivial
  · intro op hop s hs
    simp at hop
    rcases hop with rfl | rfl <;> simp [sigsOf] at hs <;> subst hs <;> rfl
  · apply clean_of_prefixes
    intro i hi op hop
    have hi' : i < 3 := hi
    interval_cases i <;> simp at hop <;> subst hop <;> simp [cleanCall] <;> decide

/-! ## C25 -/

/-- C25: there is a set of candidates, containing every present id that agrees with the query on a whole
band, such that `query_top_k` returns `min(k, #candidates)` distinct candidates with their exact distances in
non-decreasing order, none of which agrees with the query in fewer positions than a candidate left out. The
candidates do not depend on `k` nor on iteration order or sort. -/
theorem C25_top_k (b r : Nat) (t : Fl) (h : List T → UInt64) (ops : List (Op T Id)) (q : List T)
    (hq : q.length = b * r) (h0 : 0 < b * r) (hn : b * r < 2 ^ 52) :
    ∃ cand : List Id, cand.Nodup ∧
      (∀ id s, live (b * r) ops id = some s → (∃ i < b, sameBand r s q i) → id ∈ cand) ∧
      (Clean (b * r) ops → ∀ id, id ∈ cand ↔
        ∃ s, live (b * r) ops id = some s ∧ ∃ i < b, h (bandOf r s i) = h (bandOf r q i)) ∧
      ∀ o1 o2 k l, (After C b r t h ops).queryTopK o1 o2 q k = .ok l →
        l.length = min k cand.length ∧ (l.map Prod.fst).Nodup ∧
        (∀ p ∈ l, p.1 ∈ cand ∧ ∃ s, live (b * r) ops p.1 = some s ∧ minhashDistance q s = .ok p.2) ∧
        l.Pairwise (fun x y => Fl.ge y.2 x.2 = true) ∧
        ∀ p ∈ l, ∀ id' ∈ cand, id' ∉ l.map Prod.fst → ∀ s s', live (b * r) ops p.1 = some s →
          live (b * r) ops id' = some s' → agree q s' ≤ agree q s := by
  have I := inv_run (C := C) h b r t ops
  obtain ⟨S, _, hS, hSm⟩ := candidates_ok I q hq
  refine ⟨S.elems, S.nodup, ?_, ?_, ?_⟩
  · rintro id s hs ⟨i, hi, hb⟩
    exact (hSm id).mpr (candidate_of_band I hs hi (by rw [sameBand_bandOf hb]))
  · intro hc id
    rw [hSm]
    exact candidate_exact I (exact_run h b r t ops hc) q id
  · intro o1 o2 k l hl
    obtain ⟨S', all, hS', hp, hall, hsort, rfl⟩ := topK_ok hl
    rw [hS] at hS'; cases hS'
    have hnd : (all.map Prod.fst).Nodup := hp.nodup_iff.mpr S.nodup
    have hlen : all.length = S.elems.length := by simpa using hp.length_eq
    have hinfo : ∀ p ∈ all, ∃ s, live (b * r) ops p.1 = some s ∧ minhashDistance q s = .ok p.2 := by
      intro p hpa
      obtain ⟨s, h1, h2⟩ := hall p hpa
      exact ⟨s, (I.sigs _).symm.trans h1, h2⟩
    refine ⟨by rw [List.length_take, hlen], ?_, ?_, hsort.sublist (List.take_sublist _ _), ?_⟩
    · exact ((List.take_sublist k all).map Prod.fst).nodup hnd
    · intro p hpm
      have hpa := List.mem_of_mem_take hpm
      exact ⟨hp.mem_iff.mp (List.mem_map_of_mem hpa), hinfo p hpa⟩
    · intro p hpm id' hid' hout s s' hs hs'
      obtain ⟨p', hp', rfl⟩ := List.mem_map.mp (hp.mem_iff.mpr hid')
      have hp'd : p' ∈ all.drop k := by
        rw [← List.take_append_drop k all, List.mem_append] at hp'
        rcases hp' with hp' | hp'
        · exact absurd (List.mem_map_of_mem hp') hout
        · exact hp'
      have hge : Fl.ge p'.2 p.2 = true := by
        have := hsort
        rw [← List.take_append_drop k all, List.pairwise_append] at this
        exact this.2.2 p hpm p' hp'd
      obtain ⟨s1, e1, e2⟩ := hinfo p (List.mem_of_mem_take hpm)
      obtain ⟨s2, e3, e4⟩ := hinfo p' (List.mem_of_mem_drop hp'd)
      rw [hs] at e1; cases e1
      rw [hs'] at e3; cases e3
      have hlen : ∀ c d, minhashDistance q c = .ok d → c.length = q.length := by
        intro c d hcd
        unfold minhashDistance minhashSimilarity at hcd
        split_ifs at hcd with hh
        · exact hh.symm
        · cases hcd
      obtain ⟨x, y, hx, hy, hxy, _⟩ := C09_distance_order q s s' (b * r) hn h0 hq
        ((hlen s _ e2).trans hq) ((hlen s' _ e4).trans hq)
      rw [e2] at hx; injection hx with hx
      rw [e4] at hy; injection hy with hy
      rw [hx, hy, ge_fin] at hge
      by_contra hlt
      push Not at hlt
      have := hxy.mp hlt
      linarith

/-- The hypotheses of C23 are met: with two similar documents the query returns. -/
example : ∃ l, (After (HashSetContainer Nat) 2 1 (.fin (1 / 4)) exHash
    [.insert 1 [1, 7], .insert 2 [1, 2]]).queryOwnedReturnSimilarity Order.rev Order.id [1, 2] = .ok l := by
  refine (C24_no_removal_partial 2 1 _ exHash _ [1, 2] ?_ ?_ rfl (by decide) (by decide) _ _).1
  · intro op hop; simp at hop; rcases hop with rfl | rfl <;> trivial
  · intro op hop s hs
    simp at hop
    rcases hop with rfl | rfl <;> simp [sigsOf] at hs <;> subst hs <;> rfl

/-- The hypotheses of C25 are met: the query on the example index returns. -/
example : ∃ l, (After (HashSetContainer Nat) 2 1 (.fin (1 / 2)) exHash
    [.insert 1 [1, 2], .insert 2 [1, 5]]).queryTopK Order.rev Order.id [1, 2] 1 = .ok l := by
  refine (C24_no_removal_partial 2 1 _ exHash _ [1, 2] ?_ ?_ rfl (by decide) (by decide) _ _).2 1
  · intro op hop; simp at hop; rcases hop with rfl | rfl <;> trivial
  · intro op hop s hs
    simp at hop
    rcases hop with rfl | rfl <;> simp [sigsOf] at hs <;> subst hs <;> rfl

end Verif.Props
