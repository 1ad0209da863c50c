import Verif.Props.PythonEntries

/-! # C87 and C81 for the Python MinHash index with the containers `vec` and `smallvec` -/
namespace Verif.Props
open Verif.Spec

theorem pyCount_insert (K : PyText → Prop) [DecidablePred K] (ops : List PyMinOp) (op : PyMinOp) (id : Int64)
    (h : ∀ id', op ≠ .remove id') :
    pyCount K (ops ++ [op]) id = pyCount K ops id + (pyInsertions op).countP (fun p => p.1 = id ∧ K p.2) := by
  unfold pyCount
  rw [List.reverse_append, List.reverse_singleton, List.singleton_append]
  cases op with
  | remove id' => exact absurd rfl (h id')
  | insertDocument id' d =>
    rw [pyCountRev]
    · congr 2; funext p; congr 1
    · exact h
  | parBulkInsertDocs ids docs s1 s2 =>
    rw [pyCountRev]
    · congr 2; funext p; congr 1
    · exact h

open Classical in
theorem pyCount_remove (K : PyText → Prop) (ops : List PyMinOp) (id id' : Int64) :
    pyCount K (ops ++ [.remove id']) id = pyCount K ops id -
      (if id' = id ∧ ∃ d, pyLive ops id = some d ∧ K d then 1 else 0) := by
  unfold pyCount
  rw [List.reverse_append, List.reverse_singleton, List.singleton_append, pyCountRev, List.reverse_reverse]
  split_ifs <;> rfl

theorem entries_inserts {T : Type} [DecidableEq T] (key : Nat → List T → UInt64) (n : Nat) (S : PyText → List T)
    (ps : List (Int64 × PyText)) (ops : List (Op T Int64)) (i : Nat) (k : UInt64) (id : Int64) :
    entries false key n (ops ++ ps.map fun p => .insert p.1 (S p.2)) i k id =
      entries false key n ops i k id + ps.countP (fun p => p.1 = id ∧ key i (S p.2) = k) := by
  induction ps using List.reverseRecOn with
  | nil => simp
  | append_singleton ps p ih =>
    rw [List.map_append, ← List.append_assoc, List.map_singleton, entries_snoc, ih, List.countP_append]
    simp only [entryStep, insertions, removals, pairsAt, List.countP_nil, List.countP_singleton, Nat.sub_zero,
      Bool.false_eq_true, if_false]
    by_cases hc : p.1 = id ∧ key i (S p.2) = k
    · simp [hc, Nat.add_assoc]
    · simp [hc]

theorem entries_core {T : Type} [DecidableEq T] (key : Nat → List T → UInt64) (n : Nat) (S : PyText → List T)
    (pops : List PyMinOp) (hl : ∀ d ∈ pops.flatMap pyDocs, (S d).length = n) (i : Nat) (k : UInt64) (id : Int64) :
    entries false key n (pops.flatMap (PyMinIndex.core S)) i k id = pyCount (fun d => key i (S d) = k) pops id := by
  classical
  induction pops using List.reverseRecOn with
  | nil => rfl
  | append_singleton pops op ih =>
    have hl' : ∀ d ∈ pops.flatMap pyDocs, (S d).length = n := fun d hd =>
      hl d (by rw [List.flatMap_append, List.mem_append]; exact .inl hd)
    have ih := ih hl'
    rw [List.flatMap_append]
    simp only [List.flatMap_cons, List.flatMap_nil, List.append_nil]
    cases op with
    | insertDocument id' d' =>
      rw [pyCount_insert _ _ _ _ (by simp), ← ih]
      exact entries_inserts key n S [(id', d')] (pops.flatMap (PyMinIndex.core S)) i k id
    | parBulkInsertDocs ids docs s1 s2 =>
      rw [pyCount_insert _ _ _ _ (by simp), ← ih]
      exact entries_inserts key n S (ids.zip docs) (pops.flatMap (PyMinIndex.core S)) i k id
    | remove id' =>
      rw [pyCount_remove, ← ih, PyMinIndex.core, entries_snoc]
      simp only [entryStep, insertions, removals, pairsAt, List.countP_nil, if_true]
      congr 1
      rw [PyMinIndex.live_core S id' pops hl']
      by_cases hi : id' = id
      · subst hi
        cases hd : pyLive pops id' with
        | none => simp
        | some d => by_cases hk : key i (S d) = k <;> simp [hk]
      · cases hd : pyLive pops id' with
        | none => simp [hi]
        | some d => simp [hi]

theorem pyCount_congr {K K' : PyText → Prop} {ops : List PyMinOp} (hK : ∀ d ∈ ops.flatMap pyDocs, K d ↔ K' d)
    (id : Int64) : pyCount K ops id = pyCount K' ops id := by
  classical
  induction ops using List.reverseRecOn with
  | nil => rfl
  | append_singleton ops op ih =>
    have ih := ih fun d hd => hK d (by rw [List.flatMap_append, List.mem_append]; exact .inl hd)
    have h1 : ∀ p ∈ pyInsertions op, (K p.2 ↔ K' p.2) := by
      intro p hp
      refine hK p.2 ?_
      rw [List.flatMap_append, List.mem_append]
      right
      simp only [List.flatMap_cons, List.flatMap_nil, List.append_nil]
      cases op with
      | insertDocument id' d' => simp_all [pyInsertions, pyDocs]
      | parBulkInsertDocs ids docs s1 s2 => exact (List.of_mem_zip (a := p.1) (b := p.2) hp).2
      | remove id' => cases hp
    have h2 : ∀ d, pyLive ops id = some d → (K d ↔ K' d) := fun d hd =>
      hK d (by rw [List.flatMap_append, List.mem_append]; exact .inl (pyLive_mem hd))
    have h3 : (pyInsertions op).countP (fun p => p.1 = id ∧ K p.2) = (pyInsertions op).countP (fun p => p.1 = id ∧ K' p.2) :=
      List.countP_congr fun p hp => by simp [h1 p hp]
    cases op with
    | insertDocument id' d' => rw [pyCount_insert _ _ _ _ (by simp), pyCount_insert _ _ _ _ (by simp), ih, h3]
    | parBulkInsertDocs ids docs s1 s2 => rw [pyCount_insert _ _ _ _ (by simp), pyCount_insert _ _ _ _ (by simp), ih, h3]
    | remove id' =>
      rw [pyCount_remove, pyCount_remove, ih]
      congr 1
      have : (∃ d, pyLive ops id = some d ∧ K d) ↔ ∃ d, pyLive ops id = some d ∧ K' d :=
        exists_congr fun d => and_congr_right fun hd => h2 d hd
      simp only [this]

theorem count_sameKey {env : PyMinEnv} {ahash : (h : HashSize) → List h.T → UInt64} {a : PyMinArgs}
    {obj : PyMinObject} (h : PyMinObject.init env ahash a = .ok obj) {b r : Nat} (hp : BandParams env a b r)
    (pops : List PyMinOp) (h3 : ∀ d ∈ pops.flatMap pyDocs,
      obj.index.sig env d = .ok (sigD env obj.index d) ∧ (sigD env obj.index d).length = b * r)
    (q : List obj.hashSize.T) (i : Nat) (id : Int64) :
    entries false (bandKey (ahash obj.hashSize) r) (b * r)
      (pops.flatMap (PyMinIndex.core (sigD env obj.index))) i (ahash obj.hashSize (bandOf r q i)) id =
      pyCount (SameKey env a (ahash obj.hashSize) b r i q) pops id := by
  rw [entries_core _ _ _ pops fun d hd => (h3 d hd).2]
  refine pyCount_congr (fun d hd => ?_) id
  have hs := (sigOf_iff h hp d _).mp (h3 d hd).1
  constructor
  · intro e; exact ⟨_, hs, e⟩
  · rintro ⟨s, hs', e⟩
    have := (h3 d hd).1.symm.trans ((sigOf_iff h hp d s).mpr hs')
    rw [Except.ok.inj this]; exact e

/-- C87 for the Python index with the containers `vec` and `smallvec`: an id is returned iff its current document is
similar enough, and for some band it was given documents with the key of the query more often than removed while it had
such a document. -/
theorem C87_python_vectors (env : PyMinEnv) (ahash : (h : HashSize) → List h.T → UInt64) (a : PyMinArgs)
    (obj : PyMinObject) (h : PyMinObject.init env ahash a = .ok obj)
    (hvec : a.idContainer = "vec" ∨ a.idContainer = "smallvec") (b r : Nat)
    (hp : BandParams env a b r) (pops : List PyMinOp) (doc : PyText)
    (ha : AnalyzerReturns env a (doc :: pops.flatMap pyDocs)) (o1 o2 : Order) :
    ∃ (l : List Int64) (q : List obj.hashSize.T), SigOf env a (b * r) doc q ∧
      (obj.index.run env pops).query env o1 o2 doc false = .ok (.ids l) ∧
      ∀ id, id ∈ l ↔ (∃ i < b, 0 < pyCount (SameKey env a (ahash obj.hashSize) b r i q) pops id) ∧
        ∃ d s v, pyLive pops id = some d ∧ SigOf env a (b * r) d s ∧ minhashSimilarity s q = .ok v ∧
          Fl.ge v a.jaccardThreshold = true := by
  have hcont : obj.container = .vec ∨ obj.container = .smallvec := by
    obtain ⟨_, _, _, k2, _⟩ := init_native h
    rcases hvec with hv | hv
    · rw [hv] at k2
      exact .inl (Option.some.inj k2).symm
    · rw [hv] at k2
      exact .inr (Option.some.inj k2).symm
  have ha1 : AnalyzerReturns env a (pops.flatMap pyDocs) := ha.mono fun d hd => List.mem_cons_of_mem _ hd
  obtain ⟨h1, h2, h3⟩ := content_rep h hp pops ha1
  obtain ⟨q, hq⟩ := sig_total h ha doc (by simp)
  have hqr : (obj.index.run env pops).sig env doc = .ok q := by rw [h2.sig env]; exact hq
  have hql : q.length = b * r := PyMinIndex.sig_length h1.hasher hqr
  have hlive := fun id => PyMinIndex.live_core (sigD env obj.index) id pops fun d hd => (h3 d hd).2
  have key : ∀ id s, live (b * r) (pops.flatMap (PyMinIndex.core (sigD env obj.index))) id = some s ↔
      ∃ d, pyLive pops id = some d ∧ SigOf env a (b * r) d s := by
    intro id s
    rw [hlive, Option.map_eq_some_iff]
    constructor
    · rintro ⟨d, hd, rfl⟩
      exact ⟨d, hd, (sigOf_iff h hp d _).mp (h3 d (pyLive_mem hd)).1⟩
    · rintro ⟨d, hd, hs⟩
      refine ⟨d, hd, ?_⟩
      have := (h3 d (pyLive_mem hd)).1.symm.trans ((sigOf_iff h hp d s).mpr hs)
      exact Except.ok.inj this
  have hcount := fun i id => count_sameKey h hp pops h3 q i id
  have hq' := (sigOf_iff h hp doc q).mp hq
  have hids := PyMinIndex.query_ids h1.hasher hqr o1 o2
  rw [h1.inner] at hids
  have hlen := h1.lengths
  clear h1 h2 h3 hqr hlive h ha1
  obtain ⟨hs, ck, ix⟩ := obj
  simp only at hcont
  rcases hcont with rfl | rfl
  · obtain ⟨res, _, e2, hm⟩ := C87_query (C := VecContainer Int64) b r a.jaccardThreshold (ahash hs)
      (pops.flatMap (PyMinIndex.core (sigD env ix))) hlen q hql
    refine ⟨o1.perm res.elems, q, hq', ?_, fun id => ?_⟩
    · refine hids.trans ?_
      show (fromRust ((After (VecContainer Int64) b r a.jaccardThreshold (ahash hs) _).queryOwned q)).map _ = _
      rw [e2]; rfl
    · rw [Order.mem_perm, hm]
      refine and_congr (exists_congr fun i => and_congr_right fun _ => by rw [hcount i id]) ?_
      constructor
      · rintro ⟨s, v, e1, e2⟩
        obtain ⟨d, hd, hs⟩ := (key id s).mp e1
        exact ⟨d, s, v, hd, hs, e2⟩
      · rintro ⟨d, s, v, hd, hs, e2⟩
        exact ⟨s, v, (key id s).mpr ⟨d, hd, hs⟩, e2⟩
  · obtain ⟨res, _, e2, hm⟩ := C87_query (C := SmallVecContainer Int64 2) b r a.jaccardThreshold (ahash hs)
      (pops.flatMap (PyMinIndex.core (sigD env ix))) hlen q hql
    refine ⟨o1.perm res.elems, q, hq', ?_, fun id => ?_⟩
    · refine hids.trans ?_
      show (fromRust ((After (SmallVecContainer Int64 2) b r a.jaccardThreshold (ahash hs) _).queryOwned q)).map _ = _
      rw [e2]; rfl
    · rw [Order.mem_perm, hm]
      refine and_congr (exists_congr fun i => and_congr_right fun _ => by rw [hcount i id]) ?_
      constructor
      · rintro ⟨s, v, e1, e2⟩
        obtain ⟨d, hd, hs⟩ := (key id s).mp e1
        exact ⟨d, s, v, hd, hs, e2⟩
      · rintro ⟨d, s, v, hd, hs, e2⟩
        exact ⟨s, v, (key id s).mpr ⟨d, hd, hs⟩, e2⟩

/-- C81, the exact condition for the containers `vec` and `smallvec`: `query(doc, return_similarity=True)` raises iff some
id without a document is still listed under a key of the query. -/
theorem C81_raises_iff_vectors (env : PyMinEnv) (ahash : (h : HashSize) → List h.T → UInt64) (a : PyMinArgs)
    (obj : PyMinObject) (h : PyMinObject.init env ahash a = .ok obj)
    (hvec : a.idContainer = "vec" ∨ a.idContainer = "smallvec") (b r : Nat)
    (hp : BandParams env a b r) (h0 : 0 < b * r) (hn : b * r < 2 ^ 52) (pops : List PyMinOp) (doc : PyText)
    (ha : AnalyzerReturns env a (doc :: pops.flatMap pyDocs)) (o1 o2 : Order) :
    ∃ q : List obj.hashSize.T, SigOf env a (b * r) doc q ∧
      ((∃ e, (obj.index.run env pops).query env o1 o2 doc true = .error e) ↔
        ∃ id, pyLive pops id = none ∧ ∃ i < b, 0 < pyCount (SameKey env a (ahash obj.hashSize) b r i q) pops id) := by
  have hcont : obj.container = .vec ∨ obj.container = .smallvec := by
    obtain ⟨_, _, _, k2, _⟩ := init_native h
    rcases hvec with hv | hv
    · rw [hv] at k2
      exact .inl (Option.some.inj k2).symm
    · rw [hv] at k2
      exact .inr (Option.some.inj k2).symm
  have ha1 : AnalyzerReturns env a (pops.flatMap pyDocs) := ha.mono fun d hd => List.mem_cons_of_mem _ hd
  obtain ⟨h1, h2, h3⟩ := content_rep h hp pops ha1
  obtain ⟨q, hq⟩ := sig_total h ha doc (by simp)
  have hqr : (obj.index.run env pops).sig env doc = .ok q := by rw [h2.sig env]; exact hq
  have hql : q.length = b * r := PyMinIndex.sig_length h1.hasher hqr
  have hlive := fun id => PyMinIndex.live_core (sigD env obj.index) id pops fun d hd => (h3 d hd).2
  have hcount := fun i id => count_sameKey h hp pops h3 q i id
  have hq' := (sigOf_iff h hp doc q).mp hq
  have hpairs := PyMinIndex.query_pairs h1.hasher hqr o1 o2
  rw [h1.inner] at hpairs
  have hlen := h1.lengths
  clear h1 h2 h3 hqr h ha1
  refine ⟨q, hq', ?_⟩
  obtain ⟨hs, ck, ix⟩ := obj
  simp only at hcont
  rcases hcont with rfl | rfl
  · have hk := (C24_panics_iff (C := VecContainer Int64) b r a.jaccardThreshold (ahash hs)
      (pops.flatMap (PyMinIndex.core (sigD env ix))) hlen q hql h0 hn o1 o2 0).1
    have e1 : (∃ e, (ix.run env pops).query env o1 o2 doc true = .error e) ↔
        ∃ e, (After (VecContainer Int64) b r a.jaccardThreshold (ahash hs)
          (pops.flatMap (PyMinIndex.core (sigD env ix)))).queryOwnedReturnSimilarity o1 o2 q = .error e := by
      have hpairs' : (ix.run env pops).query env o1 o2 doc true =
        (fromRust ((After (VecContainer Int64) b r a.jaccardThreshold (ahash hs)
          (pops.flatMap (PyMinIndex.core (sigD env ix)))).queryOwnedReturnSimilarity o1 o2 q)).map .pairs := hpairs
      rw [hpairs']
      cases (After (VecContainer Int64) b r a.jaccardThreshold (ahash hs)
          (pops.flatMap (PyMinIndex.core (sigD env ix)))).queryOwnedReturnSimilarity o1 o2 q with
      | error e => exact iff_of_true ⟨_, rfl⟩ ⟨_, rfl⟩
      | ok l => exact iff_of_false (by rintro ⟨_, e⟩; cases e) (by rintro ⟨_, e⟩; cases e)
    refine e1.trans (hk.trans (exists_congr fun id => and_congr ?_ (exists_congr fun i => and_congr_right fun _ => ?_)))
    · rw [hlive, Option.map_eq_none_iff]
    · rw [hcount i id]
  · have hk := (C24_panics_iff (C := SmallVecContainer Int64 2) b r a.jaccardThreshold (ahash hs)
      (pops.flatMap (PyMinIndex.core (sigD env ix))) hlen q hql h0 hn o1 o2 0).1
    have e1 : (∃ e, (ix.run env pops).query env o1 o2 doc true = .error e) ↔
        ∃ e, (After (SmallVecContainer Int64 2) b r a.jaccardThreshold (ahash hs)
          (pops.flatMap (PyMinIndex.core (sigD env ix)))).queryOwnedReturnSimilarity o1 o2 q = .error e := by
      have hpairs' : (ix.run env pops).query env o1 o2 doc true =
        (fromRust ((After (SmallVecContainer Int64 2) b r a.jaccardThreshold (ahash hs)
          (pops.flatMap (PyMinIndex.core (sigD env ix)))).queryOwnedReturnSimilarity o1 o2 q)).map .pairs := hpairs
      rw [hpairs']
      cases (After (SmallVecContainer Int64 2) b r a.jaccardThreshold (ahash hs)
          (pops.flatMap (PyMinIndex.core (sigD env ix)))).queryOwnedReturnSimilarity o1 o2 q with
      | error e => exact iff_of_true ⟨_, rfl⟩ ⟨_, rfl⟩
      | ok l => exact iff_of_false (by rintro ⟨_, e⟩; cases e) (by rintro ⟨_, e⟩; cases e)
    refine e1.trans (hk.trans (exists_congr fun id => and_congr ?_ (exists_congr fun i => and_congr_right fun _ => ?_)))
    · rw [hlive, Option.map_eq_none_iff]
    · rw [hcount i id]

/-- The condition is met: after an overwritten document was removed, the id is listed once under a key of its first
document. -/
example : pyLive [.insertDocument 1 "a b".toList, .insertDocument 1 "c".toList, .remove 1] 1 = none ∧
    pyCount (fun d => d = "a b".toList) [.insertDocument 1 "a b".toList, .insertDocument 1 "c".toList, .remove 1] 1 = 1 := by
  refine ⟨by decide, ?_⟩
  have hl : pyLive [.insertDocument 1 "a b".toList, .insertDocument 1 "c".toList] 1 = some "c".toList := by decide
  have h := pyCount_remove (fun d => d = "a b".toList) [.insertDocument 1 "a b".toList, .insertDocument 1 "c".toList] 1 1
  rw [hl] at h
  have h2 := pyCount_insert (fun d => d = "a b".toList) [.insertDocument 1 "a b".toList]
    (.insertDocument 1 "c".toList) 1 (by simp)
  have h3 := pyCount_insert (fun d => d = "a b".toList) [] (.insertDocument 1 "a b".toList) 1 (by simp)
  refine h.trans ?_
  rw [if_neg (by rintro ⟨_, d, hd, rfl⟩; revert hd; decide)]
  refine (congrArg (· - 0) (h2.trans (congrArg (· + _) h3))).trans ?_
  rfl

end Verif.Props
