import Verif.Props.IndexRank
import Verif.Props.IndexStore
import Verif.Props.PythonContent

/-! # Property C115: scored answers and table sizes do not remember the history -/
set_option linter.unusedSectionVars false
namespace Verif.Props
open Verif.Spec

variable {T Id : Type} [DecidableEq T] [DecidableEq Id]
variable {C C' : Type} [IdContainer C Id] [LawfulIdContainer C Id] [IdContainer C' Id] [LawfulIdContainer C' Id]

/-- Two lists in the same order with the same elements are equal. -/
theorem fl_sorted_unique {l l' : List Fl} (hp : l.Perm l') (h : l.Pairwise fun a b => Fl.ge a b = true)
    (h' : l'.Pairwise fun a b => Fl.ge a b = true) : l = l' := by
  refine hp.eq_of_pairwise (fun a b _ _ h1 h2 => ?_) h h'
  obtain ⟨ha, hb⟩ := Fl.ge_ne_nan h1
  cases a <;> cases b <;> simp [Fl.ge, Fl.cmp] at *
  rcases h1 with h1 | h1
  · rcases h2 with h2 | h2
    · rw [compare_gt_iff_gt] at h1 h2; exact absurd h1 (lt_asymm h2)
    · exact h2.symm
  · exact h1

theorem fl_sorted_unique' {l l' : List Fl} (hp : l.Perm l') (h : l.Pairwise fun a b => Fl.ge b a = true)
    (h' : l'.Pairwise fun a b => Fl.ge b a = true) : l = l' := by
  have := fl_sorted_unique (l := l.reverse) (l' := l'.reverse)
    ((List.reverse_perm l).trans (hp.trans (List.reverse_perm l').symm))
    (List.pairwise_reverse.mpr h) (List.pairwise_reverse.mpr h')
  exact List.reverse_injective this

/-- C115: the query with similarities returns the same pairs, and the same sequence of similarities. -/
theorem C115_similarity (b r : Nat) (t : Fl) (h : List T → UInt64) (ops ops' : List (Op T Id)) (q : List T)
    (hc : Clean (b * r) ops) (hc' : Clean (b * r) ops') (hlive : live (b * r) ops = live (b * r) ops')
    (hl : RightLengths (b * r) ops) (hl' : RightLengths (b * r) ops') (hq : q.length = b * r) (h0 : 0 < b * r)
    (hn : b * r < 2 ^ 52) (o1 o2 o1' o2' : Order) :
    ∃ l l', (After C b r t h ops).queryOwnedReturnSimilarity o1 o2 q = .ok l ∧
      (After C' b r t h ops').queryOwnedReturnSimilarity o1' o2' q = .ok l' ∧
      l.Perm l' ∧ l.map Prod.snd = l'.map Prod.snd := by
  obtain ⟨l, e⟩ := (C24_clean_partial (C := C) b r t h ops q hc hl hq h0 hn o1 o2).1
  obtain ⟨l', e'⟩ := (C24_clean_partial (C := C') b r t h ops' q hc' hl' hq h0 hn o1' o2').1
  have I := inv_run (C := C) h b r t ops
  have I' := inv_run (C := C') h b r t ops'
  have hp : l.Perm l' := by
    obtain ⟨S, h1, h2, h3, h4, h5⟩ := retSim_ok e
    obtain ⟨S', g1, g2, g3, g4, g5⟩ := retSim_ok e'
    obtain ⟨_, _, hS, hSm⟩ := candidates_ok I q hq
    obtain ⟨_, _, hS', hSm'⟩ := candidates_ok I' q hq
    rw [h1] at hS; cases hS
    rw [g1] at hS'; cases hS'
    rw [List.perm_ext_iff_of_nodup h3.of_map g3.of_map]
    intro p
    rw [h4, g4, hSm, hSm', candidate_exact I (exact_run h b r t ops hc) q,
      candidate_exact I' (exact_run h b r t ops' hc') q, hlive, I.sigs, I'.sigs, hlive, I.ht, I'.ht]
  refine ⟨l, l', e, e', hp, fl_sorted_unique (hp.map _) ?_ ?_⟩
  · exact List.pairwise_map.mpr (retSim_ok e).choose_spec.2.2.2.2
  · exact List.pairwise_map.mpr (retSim_ok e').choose_spec.2.2.2.2

/-- C115: the k nearest documents have the same sequence of distances; a returned document that is strictly nearer than
the last one is returned by both; with fewer than k results both return the same pairs. Only the choice among
documents tied at the last distance may differ. -/
theorem C115_top_k (b r : Nat) (t : Fl) (h : List T → UInt64) (ops ops' : List (Op T Id)) (q : List T)
    (hc : Clean (b * r) ops) (hc' : Clean (b * r) ops') (hlive : live (b * r) ops = live (b * r) ops')
    (hl : RightLengths (b * r) ops) (hl' : RightLengths (b * r) ops') (hq : q.length = b * r) (h0 : 0 < b * r)
    (hn : b * r < 2 ^ 52) (o1 o2 o1' o2' : Order) (k : Nat) :
    ∃ l l', (After C b r t h ops).queryTopK o1 o2 q k = .ok l ∧
      (After C' b r t h ops').queryTopK o1' o2' q k = .ok l' ∧ l.map Prod.snd = l'.map Prod.snd ∧
      (l.length < k → l.Perm l') ∧ ∀ p ∈ l, ∀ x ∈ l, Fl.gt x.2 p.2 = true → p ∈ l' := by
  obtain ⟨l, e⟩ := (C24_clean_partial (C := C) b r t h ops q hc hl hq h0 hn o1 o2).2 k
  obtain ⟨l', e'⟩ := (C24_clean_partial (C := C') b r t h ops' q hc' hl' hq h0 hn o1' o2').2 k
  have I := inv_run (C := C) h b r t ops
  have I' := inv_run (C := C') h b r t ops'
  obtain ⟨S, all, h1, h2, h3, h4, h5⟩ := topK_ok e
  obtain ⟨S', all', g1, g2, g3, g4, g5⟩ := topK_ok e'
  obtain ⟨_, _, hS, hSm⟩ := candidates_ok I q hq
  obtain ⟨_, _, hS', hSm'⟩ := candidates_ok I' q hq
  rw [h1] at hS; cases hS
  rw [g1] at hS'; cases hS'
  have hm : ∀ id, id ∈ S.elems ↔ id ∈ S'.elems := by
    intro id
    rw [hSm, hSm', candidate_exact I (exact_run h b r t ops hc) q,
      candidate_exact I' (exact_run h b r t ops' hc') q, hlive]
  have n1 : (all.map Prod.fst).Nodup := h2.nodup_iff.mpr S.nodup
  have n2 : (all'.map Prod.fst).Nodup := g2.nodup_iff.mpr S'.nodup
  have hp : all.Perm all' := by
    rw [List.perm_ext_iff_of_nodup n1.of_map n2.of_map]
    intro p
    constructor
    · intro hpa
      obtain ⟨s, a1, a2⟩ := h3 p hpa
      obtain ⟨p', b1, b2⟩ := List.mem_map.mp (g2.mem_iff.mpr ((hm p.1).mp (h2.mem_iff.mp (List.mem_map_of_mem hpa))))
      obtain ⟨s', c1, c2⟩ := g3 p' b1
      rw [I.sigs, hlive] at a1
      rw [I'.sigs, b2, a1] at c1; cases c1
      have c3 := Except.ok.inj (a2.symm.trans c2)
      have : p' = p := Prod.ext b2 c3.symm
      exact this ▸ b1
    · intro hpa
      obtain ⟨s, a1, a2⟩ := g3 p hpa
      obtain ⟨p', b1, b2⟩ := List.mem_map.mp (h2.mem_iff.mpr ((hm p.1).mpr (g2.mem_iff.mp (List.mem_map_of_mem hpa))))
      obtain ⟨s', c1, c2⟩ := h3 p' b1
      rw [I'.sigs, ← hlive] at a1
      rw [I.sigs, b2, a1] at c1; cases c1
      have c3 := Except.ok.inj (a2.symm.trans c2)
      have : p' = p := Prod.ext b2 c3.symm
      exact this ▸ b1
  have hd : all.map Prod.snd = all'.map Prod.snd :=
    fl_sorted_unique' (hp.map _) (List.pairwise_map.mpr h4) (List.pairwise_map.mpr g4)
  refine ⟨l, l', e, e', ?_, ?_, ?_⟩
  · rw [h5, g5, List.map_take, List.map_take, hd]
  · intro hk
    rw [h5] at hk
    have hk1 : all.length ≤ k := by rw [List.length_take] at hk; omega
    rw [h5, g5, List.take_of_length_le hk1, List.take_of_length_le (hp.length_eq ▸ hk1)]
    exact hp
  · intro p hpl x hx hgt
    rw [h5] at hpl hx
    have hpa := hp.mem_iff.mp (List.mem_of_mem_take hpl)
    rw [← List.take_append_drop k all', List.mem_append] at hpa
    rcases hpa with hpa | hpa
    · rw [g5]; exact hpa
    · exfalso
      -- the distance of `x` occurs among the first `k` distances of `all'`
      have hx' : x.2 ∈ (all'.take k).map Prod.snd := by
        rw [List.map_take, ← hd, ← List.map_take]; exact List.mem_map_of_mem hx
      obtain ⟨y, hy, hyx⟩ := List.mem_map.mp hx'
      have g4' := g4
      rw [← List.take_append_drop k all', List.pairwise_append] at g4'
      have h6 := g4'.2.2 y hy p hpa
      rw [hyx] at h6
      generalize x.2 = u at *
      generalize p.2 = v at *
      cases u <;> cases v <;> simp [Fl.gt, Fl.ge, Fl.cmp] at hgt h6
      rename_i a b
      rw [compare_gt_iff_gt] at hgt
      rcases h6 with h6 | h6
      · rw [compare_gt_iff_gt] at h6; exact lt_asymm hgt h6
      · rw [h6] at hgt; exact lt_irrefl _ hgt

/-- C115: `query_one` finds something in both cases or in neither, and with the same similarity. -/
theorem C115_query_one (b r : Nat) (t : Fl) (h : List T → UInt64) (ops ops' : List (Op T Id)) (q : List T)
    (hc : Clean (b * r) ops) (hc' : Clean (b * r) ops') (hlive : live (b * r) ops = live (b * r) ops')
    (hl : RightLengths (b * r) ops) (hl' : RightLengths (b * r) ops') (hq : q.length = b * r) (o o' : Order) :
    ∃ x x', (After C b r t h ops).queryOne o q = .ok x ∧ (After C' b r t h ops').queryOne o' q = .ok x' ∧
      x.map Prod.snd = x'.map Prod.snd := by
  obtain ⟨res, e, _⟩ := C17_query_returns (C := C) b r t h ops q hl hq
  obtain ⟨res', e', _⟩ := C17_query_returns (C := C') b r t h ops' q hl' hq
  have hm := (C18_history_independent b r t h ops ops' q hc hc' hlive).2 res res' e e'
  obtain ⟨x, f, f1, f2⟩ := C21_best_match b r t h ops q res e o
  obtain ⟨x', f', f1', f2'⟩ := C21_best_match b r t h ops' q res' e' o'
  refine ⟨x, x', f, f', ?_⟩
  have hnone : x = none ↔ x' = none := by
    rw [f1, f1', hlive]
    exact ⟨fun H id hid => H id ((hm id).mpr hid), fun H id hid => H id ((hm id).mp hid)⟩
  cases x with
  | none => rw [hnone.mp rfl]
  | some p =>
    cases x' with
    | none => exact absurd (hnone.mpr rfl) (by simp)
    | some p' =>
      obtain ⟨a1, a2, ⟨s, a3, a4⟩, a5⟩ := f2 p.1 p.2 rfl
      obtain ⟨b1, b2, ⟨s', b3, b4⟩, b5⟩ := f2' p'.1 p'.2 rfl
      have u1 := a5 p'.1 ((hm _).mpr b1) s' p'.2 (by rw [hlive]; exact b3) b4
      have u2 := b5 p.1 ((hm _).mp a1) s p.2 (by rw [← hlive]; exact a3) a4
      have := fl_sorted_unique (l := [p.2, p'.2]) (l' := [p'.2, p.2]) (List.Perm.swap _ _ _) (by simpa using u1)
        (by simpa using u2)
      simp only [Option.map_some]
      rw [(List.cons.inj this).1]

/-- The keys of the table of a band, after a clean history. -/
theorem clean_table_keys (C : Type) [IdContainer C Id] [LawfulIdContainer C Id] (b r : Nat) (t : Fl) (h : List T → UInt64) (ops : List (Op T Id))
    (hc : Clean (b * r) ops) (i : Nat) (hi : i < b) :
    ∃ K : List UInt64, K.Nodup ∧ ∀ k, k ∈ K ↔ ∃ id s, live (b * r) ops id = some s ∧ h (bandOf r s i) = k := by
  have I := inv_run (C := C) h b r t ops
  have E := exact_run (C := C) h b r t ops hc
  obtain ⟨band, g1, g2, g3⟩ := bands_get I hi
  refine ⟨band.hashTable.keys, HMap.keys_nodup _, fun k => ?_⟩
  have EB := E band g2
  rw [HMap.mem_keys_iff]
  constructor
  · rintro ⟨c, hk⟩
    obtain ⟨x, hx⟩ := List.exists_mem_of_ne_nil _ (EB.nonempty k c hk)
    obtain ⟨s, h1, h2⟩ := (EB.mem k x).mp (by unfold Band.bucket; rw [hk]; exact hx)
    rw [key_of_shape g3] at h2
    exact ⟨x, s, h1, h2⟩
  · rintro ⟨x, s, h1, h2⟩
    have := (EB.mem k x).mpr ⟨s, h1, by rw [key_of_shape g3]; exact h2⟩
    unfold Band.bucket at this
    cases hk : band.hashTable.get? k with
    | none => rw [hk] at this; simp at this
    | some c => exact ⟨c, rfl⟩

/-- C115: `band_sizes` reports the same numbers. -/
theorem C115_band_sizes (b r : Nat) (t : Fl) (h : List T → UInt64) (ops ops' : List (Op T Id)) (hb : 0 < b)
    (hc : Clean (b * r) ops) (hc' : Clean (b * r) ops') (hlive : live (b * r) ops = live (b * r) ops') :
    ∃ st, (After C b r t h ops).bandSizes = .ok st ∧ (After C' b r t h ops').bandSizes = .ok st := by
  obtain ⟨st, e, h1, ⟨h2, h3, h4⟩, h5⟩ := C34_band_sizes (C := C) b r t h ops hb hc
  obtain ⟨st', e', g1, ⟨g2, g3, g4⟩, g5⟩ := C34_band_sizes (C := C') b r t h ops' hb hc'
  have hs : st.sizes = st'.sizes := by
    apply List.ext_getElem?
    intro i
    by_cases hi : i < b
    · obtain ⟨K, k1, k2⟩ := clean_table_keys C b r t h ops hc i hi
      rw [h5 i hi K k1 k2, g5 i hi K k1 (by rw [← hlive]; exact k2)]
    · rw [List.getElem?_eq_none (by omega), List.getElem?_eq_none (by omega)]
  have hmax : st.maxSize = st'.maxSize :=
    Nat.le_antisymm (g4 _ (hs ▸ h2)).2 (h4 _ (hs ▸ g2)).2
  have hmin : st.minSize = st'.minSize :=
    Nat.le_antisymm (h4 _ (hs ▸ g3)).1 (g4 _ (hs ▸ h3)).1
  refine ⟨st, e, ?_⟩
  rw [e']
  cases st; cases st'
  simp only at hs hmax hmin
  subst hs hmax hmin
  rfl

/-- Two clean histories with the same content: one inserts, removes, bulk-removes and inserts again. -/
def exDirect : List (Op Nat Nat) := [.insert 1 [5, 6], .insert 2 [3, 4]]

theorem exDirect_clean : Clean 2 exDirect := by
  apply clean_of_prefixes
  intro i hi op hop
  have hi' : i < 2 := hi
  interval_cases i <;> simp [exDirect] at hop <;> subst hop <;> simp [cleanCall, exDirect] <;> decide

/-- A longer way to the same content. -/
def exDetour : List (Op Nat Nat) :=
  [.insert 1 [1, 2], .parBulkInsert [2, 3] [[3, 4], [1, 9]] [1], .remove 1, .bulkRemove [3] [], .insert 1 [5, 6]]

theorem exDetour_clean : Clean 2 exDetour := by
  apply clean_of_prefixes
  intro i hi op hop
  have hi' : i < 5 := hi
  interval_cases i <;> simp [exDetour] at hop <;> subst hop <;> simp [cleanCall, exDetour] <;> decide

/-- The hypotheses of C115 are met, with different containers. -/
example : Clean (2 * 1) exDirect ∧ Clean (2 * 1) exDetour ∧ live (2 * 1) exDirect = live (2 * 1) exDetour ∧
    RightLengths (2 * 1) exDirect ∧ RightLengths (2 * 1) exDetour ∧
    (After (HashSetContainer Nat) 2 1 (.fin 0) exHash exDirect).queryOne Order.id [5, 6] =
      .ok (some (1, .fin 1)) ∧
    (After (VecContainer Nat) 2 1 (.fin 0) exHash exDetour).queryOne Order.id [5, 6] =
      .ok (some (1, .fin 1)) ∧
    (After (VecContainer Nat) 2 1 (.fin 0) exHash exDetour).bandSizes = .ok ⟨2, 2, [2, 2]⟩ := by
  refine ⟨exDirect_clean, exDetour_clean, ?_, ?_, ?_, by decide +kernel, by decide +kernel, by decide +kernel⟩
  · funext id
    by_cases h1 : id = 1
    · subst h1; rfl
    by_cases h2 : id = 2
    · subst h2; rfl
    by_cases h3 : id = 3
    · subst h3; rfl
    have h1' : ¬ 1 = id := fun e => h1 e.symm
    have h2' : ¬ 2 = id := fun e => h2 e.symm
    have h3' : ¬ 3 = id := fun e => h3 e.symm
    simp [live, touch, exDirect, exDetour, lastPair, h3, h1', h2', h3']
  · simp [RightLengths, exDirect, sigsOf]
  · simp [RightLengths, exDetour, sigsOf]

/-- C115 in Python: after histories without overwriting that leave the same documents, a query with
`return_similarity` returns the same pairs, with the same sequence of similarities. -/
theorem C115_python (env : PyMinEnv) (ahash : (h : HashSize) → List h.T → UInt64) (a : PyMinArgs)
    (obj : PyMinObject) (h : PyMinObject.init env ahash a = .ok obj) (b r : Nat) (hp : BandParams env a b r)
    (h0 : 0 < b * r) (hn : b * r < 2 ^ 52) (pops pops' : List PyMinOp) (hc : PyClean pops) (hc' : PyClean pops')
    (hlive : pyLive pops = pyLive pops') (doc : PyText) (ha : AnalyzerReturns env a (doc :: pops.flatMap pyDocs))
    (ha' : AnalyzerReturns env a (pops'.flatMap pyDocs)) (o1 o2 o1' o2' : Order) :
    ∃ l l', (obj.index.run env pops).query env o1 o2 doc true = .ok (.pairs l) ∧
      (obj.index.run env pops').query env o1' o2' doc true = .ok (.pairs l') ∧
      l.Perm l' ∧ l.map Prod.snd = l'.map Prod.snd := by
  have ha1 : AnalyzerReturns env a (pops.flatMap pyDocs) := ha.mono fun d hd => List.mem_cons_of_mem _ hd
  obtain ⟨h1, h2, h3⟩ := content_rep h hp pops ha1
  obtain ⟨g1, g2, g3⟩ := content_rep h hp pops' ha'
  obtain ⟨q, hq⟩ := sig_total h ha doc (by simp)
  have hqr : (obj.index.run env pops).sig env doc = .ok q := by rw [h2.sig env]; exact hq
  have hqr' : (obj.index.run env pops').sig env doc = .ok q := by rw [g2.sig env]; exact hq
  have hql : q.length = b * r := PyMinIndex.sig_length h1.hasher hqr
  have hsame : live (b * r) (pops.flatMap (PyMinIndex.core (sigD env obj.index))) =
      live (b * r) (pops'.flatMap (PyMinIndex.core (sigD env obj.index))) := by
    funext id
    rw [PyMinIndex.live_core (sigD env obj.index) id pops fun d hd => (h3 d hd).2, hlive,
      PyMinIndex.live_core (sigD env obj.index) id pops' fun d hd => (g3 d hd).2]
  obtain ⟨l, l', e, e', hperm, hsnd⟩ := C115_similarity (C := obj.container.C) (C' := obj.container.C) b r
    a.jaccardThreshold (ahash obj.hashSize) _ _ q (PyMinIndex.clean_core _ pops (fun d hd => (h3 d hd).2) hc)
    (PyMinIndex.clean_core _ pops' (fun d hd => (g3 d hd).2) hc') hsame h1.lengths g1.lengths hql h0 hn o1 o2 o1' o2'
  refine ⟨l, l', ?_, ?_, hperm, hsnd⟩
  · rw [PyMinIndex.query_pairs h1.hasher hqr, h1.inner, e]; rfl
  · rw [PyMinIndex.query_pairs g1.hasher hqr', g1.inner, e']; rfl

/-- Another history that leaves the documents of `exPyClean`. -/
def exPyDirect : List PyMinOp :=
  [.insertDocument 2 "a b".toList, .insertDocument 3 "A b".toList, .insertDocument 1 "z".toList]

theorem exPyDirect_clean : PyClean exPyDirect := by
  intro pre op post e
  unfold exPyDirect at e
  rcases pre with _ | ⟨p1, _ | ⟨p2, _ | ⟨p3, _ | ⟨p4, pre⟩⟩⟩⟩ <;>
    simp only [List.nil_append, List.cons_append, List.cons.injEq] at e
  · obtain ⟨rfl, -⟩ := e; rfl
  · obtain ⟨rfl, rfl, -⟩ := e; show pyLive _ 3 = none; decide
  · obtain ⟨rfl, rfl, rfl, -⟩ := e; show pyLive _ 1 = none; decide
  · obtain ⟨-, -, -, h⟩ := e; cases h
  · obtain ⟨-, -, -, h⟩ := e; cases h

/-- The hypotheses of `C115_python` are met. -/
example (env : PyMinEnv) (ahash : (h : HashSize) → List h.T → UInt64) :
    ∃ obj, PyMinObject.init env ahash exArgs = .ok obj ∧ BandParams env exArgs 4 2 ∧
    PyClean exPyClean ∧ PyClean exPyDirect ∧ pyLive exPyClean = pyLive exPyDirect ∧
    AnalyzerReturns env exArgs ("a".toList :: exPyClean.flatMap pyDocs) ∧
    AnalyzerReturns env exArgs (exPyDirect.flatMap pyDocs) := by
  obtain ⟨obj, h⟩ := exArgs_ok env ahash
  refine ⟨obj, h, .inl ⟨4, 2, rfl, rfl, rfl, rfl⟩, exPyClean_clean, exPyDirect_clean, ?_, trivial, trivial⟩
  funext id
  by_cases h1 : 1 = id
  · subst h1; decide
  by_cases h2 : 2 = id
  · subst h2; decide
  by_cases h3 : 3 = id
  · subst h3; decide
  simp [pyLive, exPyClean, exPyDirect, pyTouch, lastDoc, List.findSome?, h1, h2, h3]

end Verif.Props
