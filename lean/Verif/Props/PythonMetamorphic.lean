import Verif.Props.PythonContent
import Verif.Props.Metamorphic

/-!
# Properties C111, C112 and C113 for `MinHashStringIndex`

Symmetry, raised thresholds and independence of documents, in terms of the documents and the answers that a Python
program sees.
-/
namespace Verif.Props
open Verif.Spec

/-- C111 for `MinHashStringIndex`, for histories that insert no present id: a query with the document of `y` returns
`x` exactly if a query with the document of `x` returns `y`, even if the two documents are in different indexes with
the same arguments. -/
theorem C111_python_partial (env : PyMinEnv) (ahash : (h : HashSize) → List h.T → UInt64) (a : PyMinArgs)
    (obj : PyMinObject) (h : PyMinObject.init env ahash a = .ok obj) (pops pops' : List PyMinOp)
    (hc : PyClean pops) (hc' : PyClean pops') (ha : AnalyzerReturns env a (pops.flatMap pyDocs ++ pops'.flatMap pyDocs))
    (x y : Int64) (dx dy : PyText) (hx : pyLive pops x = some dx) (hy : pyLive pops' y = some dy)
    (o1 o2 o1' o2' : Order) :
    ∃ l l', (obj.index.run env pops).query env o1 o2 dy false = .ok (.ids l) ∧
      (obj.index.run env pops').query env o1' o2' dx false = .ok (.ids l') ∧ (x ∈ l ↔ y ∈ l') := by
  obtain ⟨b, r, hp, _⟩ := init_rep h
  have mx := pyLive_mem hx
  have my := pyLive_mem hy
  obtain ⟨l, q, hq, e, _, _, _, h1⟩ := C80_query env ahash a obj h b r hp pops dy (ha.mono fun d hd => by
    rcases List.mem_cons.mp hd with rfl | hd
    · exact List.mem_append_right _ my
    · exact List.mem_append_left _ hd) o1 o2
  obtain ⟨l', q', hq', e', _, _, _, h2⟩ := C80_query env ahash a obj h b r hp pops' dx (ha.mono fun d hd => by
    rcases List.mem_cons.mp hd with rfl | hd
    · exact List.mem_append_left _ mx
    · exact List.mem_append_right _ hd) o1' o2'
  refine ⟨l, l', e, e', ?_⟩
  rw [h1 hc x, h2 hc' y, hx, hy]
  have uniq : ∀ d s s', SigOf env a (T := obj.hashSize.T) (b * r) d s → SigOf env a (b * r) d s' → s = s' := by
    intro d s s' h3 h4
    exact Except.ok.inj (((sigOf_iff h hp d s).mpr h3).symm.trans ((sigOf_iff h hp d s').mpr h4))
  constructor
  · rintro ⟨d, s, v, hd, hs, ⟨i, hi, hk⟩, hv, hg⟩
    cases hd
    have := uniq _ _ _ hs hq'
    subst this
    exact ⟨dy, q, v, rfl, hq, ⟨i, hi, hk.symm⟩, by rw [minhashSimilarity_comm]; exact hv, hg⟩
  · rintro ⟨d, s, v, hd, hs, ⟨i, hi, hk⟩, hv, hg⟩
    cases hd
    have := uniq _ _ _ hs hq
    subst this
    exact ⟨dx, q', v, rfl, hq', ⟨i, hi, hk.symm⟩, by rw [minhashSimilarity_comm]; exact hv, hg⟩

/-- The hypotheses of `C111_python_partial` are met: the documents "A b" and "z" after one history, and "b" after
another one. -/
example (env : PyMinEnv) : AnalyzerReturns env exArgs (exPyClean.flatMap pyDocs ++ [PyMinOp.insertDocument 9 "b".toList].flatMap pyDocs) ∧
    PyClean exPyClean ∧ pyLive exPyClean 3 = some "A b".toList ∧
    pyLive [.insertDocument 9 "b".toList] 9 = some "b".toList :=
  ⟨trivial, exPyClean_clean, by decide, by decide⟩

/-- The history of one id in the index behind the wrapper. -/
theorem eventsOf_core {T : Type} (S : PyText → List T) (id : Int64) (pops : List PyMinOp) :
    eventsOf id (pops.flatMap (PyMinIndex.core S)) = (pyEvents id pops).map fun
      | none => Event.delete
      | some d => Event.put [S d] := by
  induction pops with
  | nil => rfl
  | cons op pops ih =>
    have e1 : eventsOf id ((op :: pops).flatMap (PyMinIndex.core S)) =
        eventsOf id (PyMinIndex.core S op) ++ eventsOf id (pops.flatMap (PyMinIndex.core S)) := by
      unfold eventsOf
      rw [List.flatMap_cons, List.filterMap_append]
    have e2 : pyEvents id (op :: pops) = pyEvents id [op] ++ pyEvents id pops := by
      unfold pyEvents
      rw [List.flatMap_cons, List.flatMap_singleton]
    rw [e1, e2, List.map_append, ih]
    congr 1
    have ins : ∀ (d : Int64) (s : List T), eventOf id (Op.insert d s) = if d = id then some (Event.put [s]) else none := by
      intro d s
      unfold eventOf
      by_cases hd : d = id <;> simp [insertions, hd]
    cases op with
    | insertDocument id' d =>
      by_cases h : id' = id <;> simp [eventsOf, PyMinIndex.core, pyEvents, pyInsertions, ins, h]
    | remove id' =>
      by_cases h : id' = id <;> simp [eventsOf, PyMinIndex.core, pyEvents, eventOf, h]
    | parBulkInsertDocs ids docs s1 s2 =>
      simp only [eventsOf, PyMinIndex.core, pyEvents, pyInsertions, List.flatMap_singleton]
      induction ids.zip docs with
      | nil => rfl
      | cons p ps ih =>
        rw [List.map_cons, List.filterMap_cons, List.filterMap_cons, ins]
        by_cases h : p.1 = id
        · simp only [h, if_true]
          rw [List.map_cons, ih]
        · simp only [h, if_false]
          exact ih

theorem properBulk_core {T : Type} (S : PyText → List T) (n : Nat) (pops : List PyMinOp) :
    ProperBulk n (pops.flatMap (PyMinIndex.core S)) := by
  intro pre ids sched post e
  have hm : (Op.bulkRemove ids sched : Op T Int64) ∈ pops.flatMap (PyMinIndex.core S) := by rw [e]; simp
  rw [List.mem_flatMap] at hm
  obtain ⟨op, _, h⟩ := hm
  cases op <;> simp [PyMinIndex.core] at h

theorem independent_kind (k : ContKind) {T : Type} [DecidableEq T] (b r : Nat) (t : Fl) (h : List T → UInt64)
    (ops ops' : List (Op T Int64)) (hl : RightLengths (b * r) ops) (hl' : RightLengths (b * r) ops')
    (hb : ProperBulk (b * r) ops) (hb' : ProperBulk (b * r) ops') (id : Int64) (he : eventsOf id ops = eventsOf id ops')
    (q : List T) (hq : q.length = b * r) :
    ∃ res res', (After k.C b r t h ops).query q = .ok res ∧ (After k.C b r t h ops').query q = .ok res' ∧
      (id ∈ res.elems ↔ id ∈ res'.elems) := by
  cases k
  · exact C113_independent_partial (C := HashSetContainer Int64) b r t h ops ops' hl hl' hb hb' id he q hq
  · exact C113_independent_partial (C := VecContainer Int64) b r t h ops ops' hl hl' hb hb' id he q hq
  · exact C113_independent_partial (C := SmallVecContainer Int64 2) b r t h ops ops' hl hl' hb hb' id he q hq

/-- C113 for `MinHashStringIndex`: after every pair of histories, whether `id` is returned by a query depends only on
what the calls did to `id`. -/
theorem C113_python (env : PyMinEnv) (ahash : (h : HashSize) → List h.T → UInt64) (a : PyMinArgs)
    (obj : PyMinObject) (h : PyMinObject.init env ahash a = .ok obj) (pops pops' : List PyMinOp) (id : Int64)
    (hid : pyEvents id pops = pyEvents id pops') (doc : PyText)
    (ha : AnalyzerReturns env a (doc :: pops.flatMap pyDocs)) (ha' : AnalyzerReturns env a (doc :: pops'.flatMap pyDocs))
    (o1 o2 o1' o2' : Order) :
    ∃ l l', (obj.index.run env pops).query env o1 o2 doc false = .ok (.ids l) ∧
      (obj.index.run env pops').query env o1' o2' doc false = .ok (.ids l') ∧ (id ∈ l ↔ id ∈ l') := by
  obtain ⟨b, r, hp, _⟩ := init_rep h
  obtain ⟨h1, h2, h3⟩ := content_rep h hp pops (ha.mono fun d hd => List.mem_cons_of_mem _ hd)
  obtain ⟨g1, g2, g3⟩ := content_rep h hp pops' (ha'.mono fun d hd => List.mem_cons_of_mem _ hd)
  obtain ⟨q, hq⟩ := sig_total h ha doc (by simp)
  have hqr : (obj.index.run env pops).sig env doc = .ok q := by rw [h2.sig env]; exact hq
  have hqr' : (obj.index.run env pops').sig env doc = .ok q := by rw [g2.sig env]; exact hq
  have hql : q.length = b * r := PyMinIndex.sig_length h1.hasher hqr
  obtain ⟨res, res', e, e', hm⟩ := independent_kind obj.container b r a.jaccardThreshold (ahash obj.hashSize) _ _
    h1.lengths g1.lengths (properBulk_core _ _ pops) (properBulk_core _ _ pops') id
    (by rw [eventsOf_core, eventsOf_core, hid]) q hql
  refine ⟨o1.perm res.elems, o1'.perm res'.elems, ?_, ?_, ?_⟩
  · rw [PyMinIndex.query_ids h1.hasher hqr, h1.inner, query_owned_eq, e]; rfl
  · rw [PyMinIndex.query_ids g1.hasher hqr', g1.inner, query_owned_eq, e']; rfl
  · rw [Order.mem_perm, Order.mem_perm, hm]

/-- The hypotheses of `C113_python` are met by two histories that overwrite and remove the same id. -/
example (env : PyMinEnv) : pyEvents 1 exPyOps =
      pyEvents 1 [.parBulkInsertDocs [9, 1, 1] ["q".toList, "x y".toList, "z".toList] [] [], .remove 9] ∧
    pyEvents 1 exPyOps = [some "x y".toList, some "z".toList] ∧
    AnalyzerReturns env exArgs ("b".toList :: exPyOps.flatMap pyDocs) :=
  ⟨by decide, by decide, trivial⟩

/-- C113 for `MinHashStringIndex`, for histories that insert no present id: whether `id` is returned depends only on
the document of `id`. -/
theorem C113_python_clean (env : PyMinEnv) (ahash : (h : HashSize) → List h.T → UInt64) (a : PyMinArgs)
    (obj : PyMinObject) (h : PyMinObject.init env ahash a = .ok obj) (pops pops' : List PyMinOp)
    (hc : PyClean pops) (hc' : PyClean pops') (id : Int64) (hid : pyLive pops id = pyLive pops' id) (doc : PyText)
    (ha : AnalyzerReturns env a (doc :: pops.flatMap pyDocs)) (ha' : AnalyzerReturns env a (doc :: pops'.flatMap pyDocs))
    (o1 o2 o1' o2' : Order) :
    ∃ l l', (obj.index.run env pops).query env o1 o2 doc false = .ok (.ids l) ∧
      (obj.index.run env pops').query env o1' o2' doc false = .ok (.ids l') ∧ (id ∈ l ↔ id ∈ l') := by
  obtain ⟨b, r, hp, _⟩ := init_rep h
  obtain ⟨l, q, hq, e, _, _, _, h1⟩ := C80_query env ahash a obj h b r hp pops doc ha o1 o2
  obtain ⟨l', q', hq', e', _, _, _, h2⟩ := C80_query env ahash a obj h b r hp pops' doc ha' o1' o2'
  refine ⟨l, l', e, e', ?_⟩
  have : q = q' :=
    Except.ok.inj (((sigOf_iff h hp doc q).mpr hq).symm.trans ((sigOf_iff h hp doc q').mpr hq'))
  subst this
  rw [h1 hc id, h2 hc' id, hid]

/-- The hypotheses of `C113_python_clean` are met by two histories with different other documents. -/
example (env : PyMinEnv) : pyLive exPyClean 3 = pyLive [.insertDocument 9 "q".toList, .insertDocument 3 "A b".toList] 3 ∧
    pyLive exPyClean 9 ≠ pyLive [.insertDocument 9 "q".toList, .insertDocument 3 "A b".toList] 9 ∧
    AnalyzerReturns env exArgs ("b".toList :: exPyClean.flatMap pyDocs) ∧ PyClean exPyClean :=
  ⟨by decide, by decide, trivial, exPyClean_clean⟩

/-- Two objects that differ in the threshold only: the same translated history. -/
theorem init_threshold {env : PyMinEnv} {ahash : (h : HashSize) → List h.T → UInt64} {a a' : PyMinArgs}
    {obj obj' : PyMinObject} (h : PyMinObject.init env ahash a = .ok obj) (h' : PyMinObject.init env ahash a' = .ok obj')
    {t' : Fl} (haa : a' = { a with jaccardThreshold := t' }) {b r : Nat} (hp : BandParams env a b r)
    (hp' : BandParams env a' b r) :
    ∃ hs co, obj = ⟨hs, co, ⟨a.analyzer, PyMinHash.build env (ahash hs) a.jaccardThreshold b r
        a.analyzer.nativeName a.lowercase a.range⟩⟩ ∧
      obj' = ⟨hs, co, ⟨a.analyzer, PyMinHash.build env (ahash hs) t' b r
        a.analyzer.nativeName a.lowercase a.range⟩⟩ := by
  obtain ⟨b1, r1, e1, e2, e3, e4⟩ := init_native h
  obtain ⟨rfl, rfl⟩ := C68_params_unique env a b r b1 r1 hp e3
  obtain ⟨b2, r2, g1, g2, g3, g4⟩ := init_native h'
  obtain ⟨rfl, rfl⟩ := C68_params_unique env a' b r b2 r2 hp' g3
  clear h h'
  obtain ⟨hs, co, ix⟩ := obj
  obtain ⟨hs', co', ix'⟩ := obj'
  subst haa
  simp only at e1 e2 e4 g1 g2 g4
  rw [e1] at g1
  rw [e2] at g2
  cases g1
  cases g2
  exact ⟨hs, co, by rw [e4], by rw [g4]; rfl⟩

/-- C112 for `MinHashStringIndex`: two objects whose arguments differ in the threshold only and that have the same bands
and rows (always so if `num_bands` and `band_size` are given) go through the same history. The answer with similarities
of the object with the higher threshold is the answer of the other one without the pairs below the higher threshold. -/
theorem C112_python (env : PyMinEnv) (ahash : (h : HashSize) → List h.T → UInt64) (a a' : PyMinArgs)
    (obj obj' : PyMinObject) (h : PyMinObject.init env ahash a = .ok obj) (h' : PyMinObject.init env ahash a' = .ok obj')
    (t' : Fl) (haa : a' = { a with jaccardThreshold := t' }) (ht : Fl.ge t' a.jaccardThreshold = true) (b r : Nat)
    (hp : BandParams env a b r) (hp' : BandParams env a' b r) (pops : List PyMinOp) (doc : PyText)
    (ha : AnalyzerReturns env a (doc :: pops.flatMap pyDocs)) (o1 o2 o1' o2' : Order) (l : List (Int64 × Fl))
    (hl : (obj.index.run env pops).query env o1 o2 doc true = .ok (.pairs l)) :
    ∃ l', (obj'.index.run env pops).query env o1' o2' doc true = .ok (.pairs l') ∧
      l'.Perm (l.filter fun p => Fl.ge p.2 t') := by
  have ha' : AnalyzerReturns env a' (doc :: pops.flatMap pyDocs) := by subst haa; exact ha
  obtain ⟨q, hq⟩ := sig_total h ha doc (by simp)
  have hr := content_rep h hp pops (ha.mono fun d hd => List.mem_cons_of_mem _ hd)
  have hr' := content_rep h' hp' pops (ha'.mono fun d hd => List.mem_cons_of_mem _ hd)
  obtain ⟨hs, co, eo, eo'⟩ := init_threshold h h' haa hp hp'
  clear h h'
  subst eo
  subst eo'
  subst haa
  obtain ⟨h1, h2, h3⟩ := hr
  obtain ⟨g1, g2, g3⟩ := hr'
  simp only at h1 h2 h3 g1 g2 g3 hq hl ⊢
  have hqr := hq
  rw [← h2.sig env] at hqr
  have hqr' : ((⟨a.analyzer, PyMinHash.build env (ahash hs) t' b r a.analyzer.nativeName a.lowercase a.range⟩ :
      PyMinIndex hs.T co.C).run env pops).sig env doc = .ok q := by
    rw [g2.sig env]; exact hq
  rw [PyMinIndex.query_pairs h1.hasher hqr, h1.inner] at hl
  rw [PyMinIndex.query_pairs g1.hasher hqr', g1.inner]
  have hD : sigD env (⟨a.analyzer, PyMinHash.build env (ahash hs) t' b r a.analyzer.nativeName a.lowercase a.range⟩ :
      PyMinIndex hs.T co.C) = sigD env (⟨a.analyzer, PyMinHash.build env (ahash hs) a.jaccardThreshold b r
        a.analyzer.nativeName a.lowercase a.range⟩ : PyMinIndex hs.T co.C) := rfl
  rw [hD]
  generalize pops.flatMap (PyMinIndex.core (sigD env (⟨a.analyzer, PyMinHash.build env (ahash hs) a.jaccardThreshold b r
        a.analyzer.nativeName a.lowercase a.range⟩ : PyMinIndex hs.T co.C))) = ops at hl ⊢
  cases hr : (After co.C b r a.jaccardThreshold (ahash hs) ops).queryOwnedReturnSimilarity o1 o2 q with
  | error e => rw [hr] at hl; cases hl
  | ok l0 =>
    rw [hr] at hl
    have e0 : l0 = l := by cases hl; rfl
    subst e0
    obtain ⟨l', e', hl'⟩ := C112_similarity b r a.jaccardThreshold t' ht (ahash hs) ops q o1 o2 o1' o2' l0 hr
    exact ⟨l', by rw [e']; rfl, hl'⟩

/-- The hypotheses of `C112_python` are met: with bands and rows given, thresholds 1/2 and 3/4. -/
example (env : PyMinEnv) (ahash : (h : HashSize) → List h.T → UInt64) :
    (∃ obj, PyMinObject.init env ahash exArgs = .ok obj) ∧
    (∃ obj, PyMinObject.init env ahash { exArgs with jaccardThreshold := .fin (3 / 4) } = .ok obj) ∧
    Fl.ge (.fin (3 / 4)) exArgs.jaccardThreshold = true ∧ BandParams env exArgs 4 2 ∧
    BandParams env { exArgs with jaccardThreshold := .fin (3 / 4) } 4 2 ∧
    AnalyzerReturns env exArgs ("b".toList :: exPyClean.flatMap pyDocs) :=
  ⟨exArgs_ok env ahash, (C68_accepts_partial env ahash { exArgs with jaccardThreshold := .fin (3 / 4) } (by decide)).mpr
    ⟨by decide, ⟨3 / 4, by decide +kernel, by decide +kernel, rfl⟩, by decide, exArgs_fit, .inl ⟨by decide, by decide⟩⟩,
    by decide +kernel, .inl ⟨4, 2, rfl, rfl, rfl, rfl⟩, .inl ⟨4, 2, rfl, rfl, rfl, rfl⟩, trivial⟩

end Verif.Props
