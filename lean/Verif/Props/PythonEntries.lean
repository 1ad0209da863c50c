import Verif.Props.PythonContent
import Verif.Props.IndexEntries

/-! # C87 and C81 for the Python MinHash index with the default container -/
namespace Verif.Props
open Verif.Spec

theorem pyListed_snoc (K : PyText → Prop) (ops : List PyMinOp) (op : PyMinOp) (id : Int64) :
    PyListed K (ops ++ [op]) id ↔ (∃ d, (id, d) ∈ pyInsertions op ∧ K d) ∨
      (PyListed K ops id ∧ (op = .remove id → ∀ d, pyLive ops id = some d → ¬ K d)) := by
  constructor
  · rintro ⟨pre, op0, post, e, hin, hout⟩
    rcases List.eq_nil_or_concat post with rfl | ⟨post', last, rfl⟩
    · have : op0 = op := by
        have := congrArg List.getLast? e
        simpa using this.symm
      subst this
      exact .inl hin
    · have e' : ops ++ [op] = (pre ++ op0 :: post') ++ [last] := by rw [e]; simp
      obtain ⟨e1, e2⟩ := List.append_inj' e' rfl
      cases e2
      refine .inr ⟨⟨pre, op0, post', e1, hin, fun p1 p2 d ep => hout p1 (p2 ++ [op]) d (by rw [ep]; simp)⟩, ?_⟩
      rintro rfl d hd
      rw [e1] at hd
      exact hout post' [] d (by simp) hd
  · rintro (hin | ⟨⟨pre, op0, post, e, hin, hout⟩, hr⟩)
    · exact ⟨ops, op, [], rfl, hin, fun p1 p2 d ep => by simp at ep⟩
    · refine ⟨pre, op0, post ++ [op], by rw [e]; simp, hin, fun p1 p2 d ep hd => ?_⟩
      rcases List.eq_nil_or_concat p2 with rfl | ⟨p2', last, rfl⟩
      · obtain ⟨e1, e2⟩ := List.append_inj' ep rfl
        cases e2
        subst e1
        rw [← e] at hd
        exact hr rfl d hd
      · have ep' : post ++ [op] = (p1 ++ .remove id :: p2') ++ [last] := by rw [ep]; simp
        obtain ⟨e1, e2⟩ := List.append_inj' ep' rfl
        exact hout p1 p2' d e1 hd

theorem pyListed_congr {K K' : PyText → Prop} {ops : List PyMinOp} (hK : ∀ d ∈ ops.flatMap pyDocs, K d ↔ K' d)
    (id : Int64) : PyListed K ops id ↔ PyListed K' ops id := by
  induction ops using List.reverseRecOn with
  | nil =>
    constructor <;>
    · rintro ⟨pre, op, post, e, _⟩
      simp at e
  | append_singleton ops op ih =>
    rw [pyListed_snoc, pyListed_snoc, ih fun d hd => hK d (by rw [List.flatMap_append, List.mem_append]; exact .inl hd)]
    have h1 : ∀ d, (id, d) ∈ pyInsertions op → (K d ↔ K' d) := by
      intro d hd
      refine hK d ?_
      rw [List.flatMap_append, List.mem_append]
      right
      simp only [List.flatMap_cons, List.flatMap_nil, List.append_nil]
      cases op with
      | insertDocument id' d' => simp_all [pyInsertions, pyDocs]
      | parBulkInsertDocs ids docs s1 s2 => exact (List.of_mem_zip hd).2
      | remove id' => cases hd
    have h2 : ∀ d, pyLive ops id = some d → (K d ↔ K' d) := fun d hd =>
      hK d (by rw [List.flatMap_append, List.mem_append]; exact .inl (pyLive_mem hd))
    constructor
    · rintro (⟨d, hd, hk⟩ | ⟨hl, hr⟩)
      · exact .inl ⟨d, hd, (h1 d hd).mp hk⟩
      · exact .inr ⟨hl, fun e d hd hk => hr e d hd ((h2 d hd).mpr hk)⟩
    · rintro (⟨d, hd, hk⟩ | ⟨hl, hr⟩)
      · exact .inl ⟨d, hd, (h1 d hd).mpr hk⟩
      · exact .inr ⟨hl, fun e d hd hk => hr e d hd ((h2 d hd).mp hk)⟩

theorem listed_inserts {T : Type} (key : Nat → List T → UInt64) (n : Nat) (S : PyText → List T)
    (ps : List (Int64 × PyText)) (ops : List (Op T Int64)) (i : Nat) (k : UInt64) (id : Int64) :
    Listed key n (ops ++ ps.map fun p => .insert p.1 (S p.2)) i k id ↔
      (∃ d, (id, d) ∈ ps ∧ key i (S d) = k) ∨ Listed key n ops i k id := by
  induction ps using List.reverseRecOn with
  | nil => simp
  | append_singleton ps p ih =>
    rw [List.map_append, ← List.append_assoc, List.map_singleton, listed_snoc, ih]
    simp only [insertions, removals, List.mem_singleton, List.mem_append, List.not_mem_nil, false_implies,
      implies_true, and_true, ne_eq, reduceCtorEq, not_false_eq_true]
    constructor
    · rintro (⟨s, e, hk⟩ | ⟨d, hd, hk⟩ | hl)
      · obtain ⟨rfl, rfl⟩ := Prod.mk.inj e
        exact .inl ⟨p.2, .inr rfl, hk⟩
      · exact .inl ⟨d, .inl hd, hk⟩
      · exact .inr hl
    · rintro (⟨d, hd | rfl, hk⟩ | hl)
      · exact .inr (.inl ⟨d, hd, hk⟩)
      · exact .inl ⟨_, rfl, hk⟩
      · exact .inr (.inr hl)

theorem listed_core {T : Type} (key : Nat → List T → UInt64) (n : Nat) (S : PyText → List T) (pops : List PyMinOp)
    (hl : ∀ d ∈ pops.flatMap pyDocs, (S d).length = n) (i : Nat) (k : UInt64) (id : Int64) :
    Listed key n (pops.flatMap (PyMinIndex.core S)) i k id ↔ PyListed (fun d => key i (S d) = k) pops id := by
  induction pops using List.reverseRecOn with
  | nil =>
    constructor <;>
    · rintro ⟨pre, op, post, e, _⟩
      simp at e
  | append_singleton pops op ih =>
    have hl' : ∀ d ∈ pops.flatMap pyDocs, (S d).length = n := fun d hd =>
      hl d (by rw [List.flatMap_append, List.mem_append]; exact .inl hd)
    have ih := ih hl'
    rw [pyListed_snoc, List.flatMap_append, ← ih]
    simp only [List.flatMap_cons, List.flatMap_nil, List.append_nil]
    cases op with
    | insertDocument id' d' =>
      have := listed_inserts key n S [(id', d')] (pops.flatMap (PyMinIndex.core S)) i k id
      simpa [PyMinIndex.core, pyInsertions] using this
    | parBulkInsertDocs ids docs s1 s2 =>
      have := listed_inserts key n S (ids.zip docs) (pops.flatMap (PyMinIndex.core S)) i k id
      simpa [PyMinIndex.core, pyInsertions] using this
    | remove id' =>
      rw [PyMinIndex.core, listed_snoc, ih]
      simp only [insertions, List.not_mem_nil, false_and, exists_const, false_or, pyInsertions, ne_eq, reduceCtorEq,
        not_false_eq_true, true_and, PyMinOp.remove.injEq, removals]
      rw [PyMinIndex.live_core S id' pops hl']
      refine and_congr_right fun _ => ?_
      constructor
      · rintro h rfl d hd
        refine h (S d) ?_
        rw [hd]
        simp
      · intro h s hs
        cases hd : pyLive pops id' with
        | none => rw [hd] at hs; simp at hs
        | some d =>
          rw [hd] at hs
          simp only [Option.map_some, List.mem_singleton, Prod.mk.injEq] at hs
          obtain ⟨rfl, rfl⟩ := hs
          exact h rfl d hd

/-- The document `d` has the same key as `q` in band `i`. -/
def SameKey (env : PyMinEnv) (a : PyMinArgs) {T : Type} [PyHasher T] (ah : List T → UInt64) (b r i : Nat) (q : List T)
    (d : PyText) : Prop := ∃ s, SigOf env a (b * r) d s ∧ ah (bandOf r s i) = ah (bandOf r q i)

theorem listed_sameKey {env : PyMinEnv} {ahash : (h : HashSize) → List h.T → UInt64} {a : PyMinArgs}
    {obj : PyMinObject} (h : PyMinObject.init env ahash a = .ok obj) {b r : Nat} (hp : BandParams env a b r)
    (pops : List PyMinOp) (h3 : ∀ d ∈ pops.flatMap pyDocs,
      obj.index.sig env d = .ok (sigD env obj.index d) ∧ (sigD env obj.index d).length = b * r)
    (q : List obj.hashSize.T) (i : Nat) (id : Int64) :
    Listed (fun i s => ahash obj.hashSize (bandOf r s i)) (b * r)
      (pops.flatMap (PyMinIndex.core (sigD env obj.index))) i (ahash obj.hashSize (bandOf r q i)) id ↔
      PyListed (SameKey env a (ahash obj.hashSize) b r i q) pops id := by
  rw [listed_core _ _ _ pops fun d hd => (h3 d hd).2]
  refine pyListed_congr (fun d hd => ?_) id
  have hs := (sigOf_iff h hp d _).mp (h3 d hd).1
  constructor
  · intro e; exact ⟨_, hs, e⟩
  · rintro ⟨s, hs', e⟩
    have := (h3 d hd).1.symm.trans ((sigOf_iff h hp d s).mpr hs')
    rw [Except.ok.inj this]; exact e

/-- C87 for the Python index with the default container `set`: after every history, an id is returned iff its
current document is similar enough, and for some band it was given a document with the key of the query and not
removed since while it had such a document. -/
theorem C87_python (env : PyMinEnv) (ahash : (h : HashSize) → List h.T → UInt64) (a : PyMinArgs)
    (obj : PyMinObject) (h : PyMinObject.init env ahash a = .ok obj) (hset : a.idContainer = "set") (b r : Nat)
    (hp : BandParams env a b r) (pops : List PyMinOp) (doc : PyText)
    (ha : AnalyzerReturns env a (doc :: pops.flatMap pyDocs)) (o1 o2 : Order) :
    ∃ (l : List Int64) (q : List obj.hashSize.T), SigOf env a (b * r) doc q ∧
      (obj.index.run env pops).query env o1 o2 doc false = .ok (.ids l) ∧
      ∀ id, id ∈ l ↔ (∃ i < b, PyListed (SameKey env a (ahash obj.hashSize) b r i q) pops id) ∧
        ∃ d s v, pyLive pops id = some d ∧ SigOf env a (b * r) d s ∧ minhashSimilarity s q = .ok v ∧
          Fl.ge v a.jaccardThreshold = true := by
  have hcont : obj.container = .set := by
    obtain ⟨_, _, _, k2, _⟩ := init_native h
    rw [hset] at k2
    exact (Option.some.inj k2).symm
  have ha1 : AnalyzerReturns env a (pops.flatMap pyDocs) := ha.mono fun d hd => List.mem_cons_of_mem _ hd
  obtain ⟨h1, h2, h3⟩ := content_rep h hp pops ha1
  obtain ⟨q, hq⟩ := sig_total h ha doc (by simp)
  have hqr : (obj.index.run env pops).sig env doc = .ok q := by rw [h2.sig env]; exact hq
  have hql : q.length = b * r := PyMinIndex.sig_length h1.hasher hqr
  have hlive := fun id => PyMinIndex.live_core (sigD env obj.index) id pops fun d hd => (h3 d hd).2
  have key : ∀ id s, live (b * r) (pops.flatMap (PyMinIndex.core (sigD env obj.index))) id = some s ↔
      ∃ d, pyLive pops id = some d ∧ SigOf env a (b * r) d s := by
    intro id s
    rw [hlive, Option.map_eq_some_iff]
    constructor
    · rintro ⟨d, hd, rfl⟩
      exact ⟨d, hd, (sigOf_iff h hp d _).mp (h3 d (pyLive_mem hd)).1⟩
    · rintro ⟨d, hd, hs⟩
      refine ⟨d, hd, ?_⟩
      have := (h3 d (pyLive_mem hd)).1.symm.trans ((sigOf_iff h hp d s).mpr hs)
      exact Except.ok.inj this
  have hlisted := fun i id => listed_sameKey h hp pops h3 q i id
  have hq' := (sigOf_iff h hp doc q).mp hq
  have hids := PyMinIndex.query_ids h1.hasher hqr o1 o2
  rw [h1.inner] at hids
  have hlen := h1.lengths
  clear h1 h2 h3 hqr hlive h ha1
  obtain ⟨hs, ck, ix⟩ := obj
  simp only at hcont
  subst hcont
  obtain ⟨res, _, e2, hm⟩ := C87_query_set b r a.jaccardThreshold (ahash hs)
    (pops.flatMap (PyMinIndex.core (sigD env ix))) hlen q hql
  refine ⟨o1.perm res.elems, q, hq', ?_, fun id => ?_⟩
  · refine hids.trans ?_
    show (fromRust ((After (HashSetContainer Int64) b r a.jaccardThreshold (ahash hs) _).queryOwned q)).map _ = _
    rw [e2]; rfl
  · rw [Order.mem_perm, hm]
    refine and_congr (exists_congr fun i => and_congr_right fun _ => hlisted i id) ?_
    constructor
    · rintro ⟨s, v, e1, e2⟩
      obtain ⟨d, hd, hs⟩ := (key id s).mp e1
      exact ⟨d, s, v, hd, hs, e2⟩
    · rintro ⟨d, s, v, hd, hs, e2⟩
      exact ⟨s, v, (key id s).mpr ⟨d, hd, hs⟩, e2⟩

/-- C81, the exact condition for the default container `set`: `query(doc, return_similarity=True)` raises iff some id
without a document is still listed under a key of the query. -/
theorem C81_raises_iff (env : PyMinEnv) (ahash : (h : HashSize) → List h.T → UInt64) (a : PyMinArgs)
    (obj : PyMinObject) (h : PyMinObject.init env ahash a = .ok obj) (hset : a.idContainer = "set") (b r : Nat)
    (hp : BandParams env a b r) (h0 : 0 < b * r) (hn : b * r < 2 ^ 52) (pops : List PyMinOp) (doc : PyText)
    (ha : AnalyzerReturns env a (doc :: pops.flatMap pyDocs)) (o1 o2 : Order) :
    ∃ q : List obj.hashSize.T, SigOf env a (b * r) doc q ∧
      ((∃ e, (obj.index.run env pops).query env o1 o2 doc true = .error e) ↔
        ∃ id, pyLive pops id = none ∧ ∃ i < b, PyListed (SameKey env a (ahash obj.hashSize) b r i q) pops id) := by
  have hcont : obj.container = .set := by
    obtain ⟨_, _, _, k2, _⟩ := init_native h
    rw [hset] at k2
    exact (Option.some.inj k2).symm
  have ha1 : AnalyzerReturns env a (pops.flatMap pyDocs) := ha.mono fun d hd => List.mem_cons_of_mem _ hd
  obtain ⟨h1, h2, h3⟩ := content_rep h hp pops ha1
  obtain ⟨q, hq⟩ := sig_total h ha doc (by simp)
  have hqr : (obj.index.run env pops).sig env doc = .ok q := by rw [h2.sig env]; exact hq
  have hql : q.length = b * r := PyMinIndex.sig_length h1.hasher hqr
  have hlive := fun id => PyMinIndex.live_core (sigD env obj.index) id pops fun d hd => (h3 d hd).2
  have hlisted := fun i id => listed_sameKey h hp pops h3 q i id
  have hq' := (sigOf_iff h hp doc q).mp hq
  have hpairs := PyMinIndex.query_pairs h1.hasher hqr o1 o2
  rw [h1.inner] at hpairs
  have hlen := h1.lengths
  clear h1 h2 h3 hqr h ha1
  refine ⟨q, hq', ?_⟩
  obtain ⟨hs, ck, ix⟩ := obj
  simp only at hcont
  subst hcont
  have hk := (C24_panics_iff (C := HashSetContainer Int64) b r a.jaccardThreshold (ahash hs)
    (pops.flatMap (PyMinIndex.core (sigD env ix))) hlen q hql h0 hn o1 o2 0).1
  have e1 : (∃ e, (ix.run env pops).query env o1 o2 doc true = .error e) ↔
      ∃ e, (After (HashSetContainer Int64) b r a.jaccardThreshold (ahash hs)
        (pops.flatMap (PyMinIndex.core (sigD env ix)))).queryOwnedReturnSimilarity o1 o2 q = .error e := by
    have hpairs' : (ix.run env pops).query env o1 o2 doc true =
      (fromRust ((After (HashSetContainer Int64) b r a.jaccardThreshold (ahash hs)
        (pops.flatMap (PyMinIndex.core (sigD env ix)))).queryOwnedReturnSimilarity o1 o2 q)).map .pairs := hpairs
    rw [hpairs']
    cases (After (HashSetContainer Int64) b r a.jaccardThreshold (ahash hs)
        (pops.flatMap (PyMinIndex.core (sigD env ix)))).queryOwnedReturnSimilarity o1 o2 q with
    | error e => exact iff_of_true ⟨_, rfl⟩ ⟨_, rfl⟩
    | ok l => exact iff_of_false (by rintro ⟨_, e⟩; cases e) (by rintro ⟨_, e⟩; cases e)
  refine e1.trans (hk.trans (exists_congr fun id => and_congr ?_ (exists_congr fun i => and_congr_right fun _ => ?_)))
  · rw [hlive, Option.map_eq_none_iff]
  · exact (entries_listed (bandKey (ahash hs) r) (b * r) _ i _ id).trans (hlisted i id)

/-- The arguments of the examples with the default container. -/
def exArgsSet : PyMinArgs := { exArgs with idContainer := "set" }

/-- The conditions of C87 and C81 for the default container: after an overwritten document was removed, the id is
listed under a key of its first document. -/
example : (∃ obj, PyMinObject.init exPyMinEnv exAhash exArgsSet = .ok obj) ∧ exArgsSet.idContainer = "set" ∧
    BandParams exPyMinEnv exArgsSet 4 2 ∧
    AnalyzerReturns exPyMinEnv exArgsSet ["a b".toList, "a b".toList, "c".toList] ∧
    pyLive [.insertDocument 1 "a b".toList, .insertDocument 1 "c".toList, .remove 1] 1 = none ∧
    PyListed (SameKey (T := HashSize.T .h16) exPyMinEnv exArgsSet (exAhash .h16) 4 2 0
        ([1267, 1582, 1897, 2212, 2527, 2842, 3157, 3472] : List UInt16))
      [.insertDocument 1 "a b".toList, .insertDocument 1 "c".toList, .remove 1] 1 := by
  refine ⟨?_, rfl, .inl ⟨4, 2, rfl, rfl, rfl, rfl⟩, trivial, by decide, [], _, _, rfl,
    ⟨"a b".toList, by simp [pyInsertions], _, exSig_ab, rfl⟩, ?_⟩
  · exact (C68_accepts_partial exPyMinEnv exAhash exArgsSet (by decide)).mpr ⟨by decide,
      ⟨1 / 2, by decide +kernel, by decide +kernel, rfl⟩, by decide, exArgs_fit, .inl ⟨by decide, by decide⟩⟩
  intro p1 p2 d e hd
  have : d = "c".toList := by
    rcases p1 with _ | ⟨x, _ | ⟨y, p1⟩⟩ <;> simp at e
    obtain ⟨rfl, -⟩ := e
    have h2 : pyLive [.insertDocument 1 "a b".toList, .insertDocument 1 "c".toList] 1 = some "c".toList := by decide
    exact (Option.some.inj (h2.symm.trans hd)).symm
  subst this
  rintro ⟨s, ⟨ts, t1, t2⟩, hk⟩
  obtain ⟨ts', t1', t2'⟩ := exSig_c
  have e1 : ts = ts' := Except.ok.inj (t1.symm.trans t1')
  subst e1
  have e2 := Except.ok.inj (t2.symm.trans t2')
  subst e2
  exact exSig_keys hk.symm

end Verif.Props
