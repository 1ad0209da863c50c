import Verif.Lemmas.PyContent
import Verif.Props.Python
import Verif.Props.MinHasher
import Verif.Lemmas.PyFeatures

/-! # Properties C80 - C84: the content of the Python MinHash index -/
namespace Verif.Props
open Verif.Spec

/-- The state of a constructed object, with the lowercase flag. -/
theorem init_native {env : PyMinEnv} {ahash : (h : HashSize) → List h.T → UInt64} {a : PyMinArgs} {obj : PyMinObject}
    (h : PyMinObject.init env ahash a = .ok obj) :
    ∃ b r, HashSize.ofInt a.hashSize = some obj.hashSize ∧ ContKind.ofString a.idContainer = some obj.container ∧
      BandParams env a b r ∧
      obj.index = ⟨a.analyzer, PyMinHash.build env (ahash obj.hashSize) a.jaccardThreshold b r
        a.analyzer.nativeName a.lowercase a.range⟩ := by
  rcases init_cases env ahash a with ⟨_, e⟩ | ⟨_, _, e⟩ | ⟨_, _, _, e⟩ | ⟨_, _, _, hh, k, b, r, h1, h2, h3, e⟩
  · rw [e] at h; cases h
  · rw [e] at h; cases h
  · rw [e] at h; cases h
  · rw [e] at h; cases h
    exact ⟨b, r, h1, h2, h3, rfl⟩

/-- The tokens that the object made from `a` hashes for a document (`C85_hashed`). py-gaoya/gaoya/minhash.py 94-128,
py-gaoya/src/min_hash.rs 72-105. -/
def minTokens (env : PyMinEnv) (a : PyMinArgs) (doc : PyText) : Except PyExc (List PyTok) :=
  match a.analyzer with
  | .callable f => (f doc).map pyTokens
  | .named n => fromRust (tokenize env.toPyEnv
      (TokenizerSpec.new (n.getD "word") (a.ngramRange.map fun p => (p.1.toNat, p.2.toNat)))
      (if a.lowercase = some true then env.lower doc else doc))

theorem pyFeatures_eq (env : PyMinEnv) (a : PyMinArgs) (doc : PyText) : pyFeatures env a doc = minTokens env a doc :=
  features_eq env.toPyEnv a.analyzer a.lowercase _ doc

/-- The signature that the wrapper computes is the signature of the features. -/
theorem sig_features {env : PyMinEnv} {ahash : (h : HashSize) → List h.T → UInt64} {a : PyMinArgs} {obj : PyMinObject}
    (h : PyMinObject.init env ahash a = .ok obj) (d : PyText) :
    obj.index.sig env d = (do
      let toks ← pyFeatures env a d
      fromRust (PyHasher.create obj.index.native.minHash toks)) := by
  obtain ⟨b, r, _, _, _, e⟩ := init_native h
  rw [e]
  rw [pyFeatures_eq]
  unfold PyMinIndex.sig minTokens
  cases ha : a.analyzer with
  | callable f =>
    simp only
    cases f d <;> rfl
  | named n =>
    have hl : (a.lowercase.getD false = true) ↔ a.lowercase = some true := by
      cases a.lowercase with
      | none => simp
      | some x => simp
    simp only [PyMinHash.hashDoc, PyMinHash.build, PyMinHash.tokenizeAndMinhash, Analyzer.nativeName,
      PyMinArgs.range, hl]
    split_ifs
    · cases tokenize env.toPyEnv (TokenizerSpec.new (n.getD "word") (a.ngramRange.map fun p => (p.1.toNat, p.2.toNat)))
        (env.lower d) <;> rfl
    · cases tokenize env.toPyEnv (TokenizerSpec.new (n.getD "word") (a.ngramRange.map fun p => (p.1.toNat, p.2.toNat)))
        d <;> rfl

/-- `s` is the signature of length `n` of the features of `doc`. -/
def SigOf (env : PyMinEnv) (a : PyMinArgs) {T : Type} [PyHasher T] (n : Nat) (doc : PyText) (s : List T) : Prop :=
  ∃ toks, pyFeatures env a doc = .ok toks ∧ PyHasher.create (PyHasher.new env.rng n env.hash) toks = .ok s

theorem sigOf_iff {env : PyMinEnv} {ahash : (h : HashSize) → List h.T → UInt64} {a : PyMinArgs} {obj : PyMinObject}
    (h : PyMinObject.init env ahash a = .ok obj) {b r : Nat} (hp : BandParams env a b r) (d : PyText)
    (s : List obj.hashSize.T) : obj.index.sig env d = .ok s ↔ SigOf env a (b * r) d s := by
  obtain ⟨b', r', _, _, hp', e⟩ := init_native h
  obtain ⟨rfl, rfl⟩ := C68_params_unique env a b r b' r' hp hp'
  have hm : obj.index.native.minHash = PyHasher.new env.rng (b * r) env.hash := by rw [e]; rfl
  rw [sig_features h, hm]
  unfold SigOf
  cases pyFeatures env a d with
  | error x => simp [bind, Except.bind]
  | ok toks =>
    simp only [bind, Except.bind, Except.ok.injEq, exists_eq_left']
    cases PyHasher.create (PyHasher.new env.rng (b * r) env.hash : PyHasher.Hasher obj.hashSize.T) toks <;> simp [fromRust]

/-- The signature computed for `d`, and the empty list if there is none. -/
def sigD {T C : Type} [PyHasher T] (env : PyMinEnv) (st : PyMinIndex T C) (d : PyText) : List T :=
  match st.sig env d with
  | .ok s => s
  | .error _ => []

/-- The state after a history: a Rust index with a translated history. -/
theorem content_rep {env : PyMinEnv} {ahash : (h : HashSize) → List h.T → UInt64} {a : PyMinArgs} {obj : PyMinObject}
    (h : PyMinObject.init env ahash a = .ok obj) {b r : Nat} (hp : BandParams env a b r) (pops : List PyMinOp)
    (ha : AnalyzerReturns env a (pops.flatMap pyDocs)) :
    PyMinIndex.Rep env b r a.jaccardThreshold (ahash obj.hashSize)
      (pops.flatMap (PyMinIndex.core (sigD env obj.index))) (obj.index.run env pops) ∧
    PyMinIndex.SameCfg (obj.index.run env pops) obj.index ∧
    (∀ d ∈ pops.flatMap pyDocs, obj.index.sig env d = .ok (sigD env obj.index d) ∧
      (sigD env obj.index d).length = b * r) := by
  obtain ⟨b', r', hp', hrep, _⟩ := init_rep h
  obtain ⟨rfl, rfl⟩ := C68_params_unique env a b r b' r' hp hp'
  have hS : ∀ d ∈ pops.flatMap pyDocs, obj.index.sig env d = .ok (sigD env obj.index d) := by
    intro d hd
    obtain ⟨s, hs⟩ := sig_total h ha d hd
    unfold sigD
    rw [hs]
  obtain ⟨h1, h2⟩ := PyMinIndex.run_core (sigD env obj.index) pops hrep hS
  exact ⟨by simpa using h1, h2, fun d hd => ⟨hS d hd, PyMinIndex.sig_length hrep.hasher (hS d hd)⟩⟩

/-- The document of a present id was passed by a call. -/
theorem pyLive_mem {pops : List PyMinOp} {id : Int64} {d : PyText} (h : pyLive pops id = some d) :
    d ∈ pops.flatMap pyDocs := by
  unfold pyLive at h
  cases hf : pops.reverse.findSome? (pyTouch id) with
  | none => rw [hf] at h; cases h
  | some x =>
    rw [hf] at h
    have hx : x = some d := h
    subst hx
    obtain ⟨op, hop, ht⟩ := List.exists_of_findSome?_eq_some hf
    rw [List.mem_flatMap]
    refine ⟨op, List.mem_reverse.mp hop, ?_⟩
    cases op with
    | insertDocument id' d' =>
      simp only [pyTouch] at ht
      split_ifs at ht
      cases ht
      simp [pyDocs]
    | remove id' =>
      simp only [pyTouch] at ht
      split_ifs at ht
      cases ht
    | parBulkInsertDocs ids docs s1 s2 =>
      simp only [pyTouch, lastDoc, Option.map_map, Option.map_eq_some_iff] at ht
      obtain ⟨p, hp, hpd⟩ := ht
      have hpm := List.mem_reverse.mp (List.mem_of_find?_eq_some hp)
      have : p.2 = d := by simpa using hpd
      subst this
      exact (List.of_mem_zip (a := p.1) (b := p.2) hpm).2

theorem AnalyzerReturns.mono {env : PyMinEnv} {a : PyMinArgs} {docs docs' : List PyText}
    (h : AnalyzerReturns env a docs) (hsub : ∀ d ∈ docs', d ∈ docs) : AnalyzerReturns env a docs' := by
  unfold AnalyzerReturns at h ⊢
  cases ha : a.analyzer with
  | named n => rw [ha] at h; exact h
  | callable f => rw [ha] at h; exact fun d hd => h d (hsub d hd)

/-! ## C80 -/

/-- C80: every call of the history returns normally. -/
theorem C80_calls_return (env : PyMinEnv) (ahash : (h : HashSize) → List h.T → UInt64) (a : PyMinArgs)
    (obj : PyMinObject) (h : PyMinObject.init env ahash a = .ok obj) (pops : List PyMinOp) (op : PyMinOp)
    (ha : AnalyzerReturns env a ((pops ++ [op]).flatMap pyDocs)) : ((obj.index.run env pops).step env op).2 = .ok () := by
  obtain ⟨b, r, hp, _⟩ := init_rep h
  have ha1 : AnalyzerReturns env a (pops.flatMap pyDocs) := ha.mono fun d hd => by
    rw [List.flatMap_append, List.mem_append]; exact .inl hd
  obtain ⟨h1, h2, _⟩ := content_rep h hp pops ha1
  obtain ⟨_, _, h5⟩ := content_rep h hp (pops ++ [op]) ha
  exact (PyMinIndex.step_core (sigD env obj.index) h1 op fun d hd => by
    rw [h2.sig env]; exact (h5 d (by simp [hd])).1).2.2

/-- C80: `size()` is the number of ids that have a document. -/
theorem C80_size (env : PyMinEnv) (ahash : (h : HashSize) → List h.T → UInt64) (a : PyMinArgs)
    (obj : PyMinObject) (h : PyMinObject.init env ahash a = .ok obj) (pops : List PyMinOp)
    (ha : AnalyzerReturns env a (pops.flatMap pyDocs)) (ids : List Int64) (hnd : ids.Nodup)
    (hmem : ∀ id, id ∈ ids ↔ pyLive pops id ≠ none) : (obj.index.run env pops).size = ids.length := by
  obtain ⟨b, r, hp, _⟩ := init_rep h
  obtain ⟨h1, h2, h3⟩ := content_rep h hp pops ha
  show (obj.index.run env pops).native.inner.size = _
  rw [h1.inner]
  refine C15_size b r a.jaccardThreshold (ahash obj.hashSize) _ ids hnd fun id => ?_
  rw [hmem, PyMinIndex.live_core (sigD env obj.index) id pops fun d hd => (h3 d hd).2]
  simp

/-- C80: `query(doc)` returns each id at most once; every returned id has a document whose signature is similar to
the signature of the query; an id whose document shares a band with the query and is similar enough is returned. -/
theorem C80_query (env : PyMinEnv) (ahash : (h : HashSize) → List h.T → UInt64) (a : PyMinArgs)
    (obj : PyMinObject) (h : PyMinObject.init env ahash a = .ok obj) (b r : Nat) (hp : BandParams env a b r)
    (pops : List PyMinOp) (doc : PyText) (ha : AnalyzerReturns env a (doc :: pops.flatMap pyDocs)) (o1 o2 : Order) :
    ∃ (l : List Int64) (q : List obj.hashSize.T), SigOf env a (b * r) doc q ∧
      (obj.index.run env pops).query env o1 o2 doc false = .ok (.ids l) ∧ l.Nodup ∧
      (∀ id ∈ l, ∃ d s v, pyLive pops id = some d ∧ SigOf env a (b * r) d s ∧ minhashSimilarity s q = .ok v ∧
        Fl.ge v a.jaccardThreshold = true) ∧
      (∀ id d s v, pyLive pops id = some d → SigOf env a (b * r) d s → (∃ i < b, sameBand r s q i) →
        minhashSimilarity s q = .ok v → Fl.ge v a.jaccardThreshold = true → id ∈ l) ∧
      (PyClean pops → ∀ id, id ∈ l ↔ ∃ d s v, pyLive pops id = some d ∧ SigOf env a (b * r) d s ∧
        (∃ i < b, ahash obj.hashSize (bandOf r s i) = ahash obj.hashSize (bandOf r q i)) ∧
        minhashSimilarity s q = .ok v ∧ Fl.ge v a.jaccardThreshold = true) := by
  have ha1 : AnalyzerReturns env a (pops.flatMap pyDocs) := ha.mono fun d hd => List.mem_cons_of_mem _ hd
  obtain ⟨h1, h2, h3⟩ := content_rep h hp pops ha1
  obtain ⟨q, hq⟩ := sig_total h ha doc (by simp)
  have hqr : (obj.index.run env pops).sig env doc = .ok q := by rw [h2.sig env]; exact hq
  have hql : q.length = b * r := PyMinIndex.sig_length h1.hasher hqr
  have hlive := fun id => PyMinIndex.live_core (sigD env obj.index) id pops fun d hd => (h3 d hd).2
  obtain ⟨res, hres, _⟩ := C17_query_returns (C := obj.container.C) b r a.jaccardThreshold (ahash obj.hashSize) _ q
    h1.lengths hql
  have hreso : (obj.index.run env pops).native.inner.queryOwned q = .ok res := by
    rw [h1.inner, query_owned_eq]; exact hres
  -- the content in terms of documents
  have key : ∀ id s, live (b * r) (pops.flatMap (PyMinIndex.core (sigD env obj.index))) id = some s ↔
      ∃ d, pyLive pops id = some d ∧ SigOf env a (b * r) d s := by
    intro id s
    rw [hlive, Option.map_eq_some_iff]
    constructor
    · rintro ⟨d, hd, rfl⟩
      exact ⟨d, hd, (sigOf_iff h hp d _).mp (h3 d (pyLive_mem hd)).1⟩
    · rintro ⟨d, hd, hs⟩
      refine ⟨d, hd, ?_⟩
      have := (h3 d (pyLive_mem hd)).1.symm.trans ((sigOf_iff h hp d s).mpr hs)
      exact Except.ok.inj this
  refine ⟨o1.perm res.elems, q, (sigOf_iff h hp doc q).mp hq, ?_, ?_, ?_, ?_, ?_⟩
  · rw [PyMinIndex.query_ids h1.hasher hqr, hreso]
    rfl
  · exact (o1.isPerm _).nodup_iff.mpr res.nodup
  · intro id hid
    rw [Order.mem_perm] at hid
    obtain ⟨s, v, e1, e2, e3⟩ := C16_query b r a.jaccardThreshold (ahash obj.hashSize) _ q res hres id hid
    obtain ⟨d, hd, hs⟩ := (key id s).mp e1
    exact ⟨d, s, v, hd, hs, e2, e3⟩
  · intro id d s v hd hs hband hv hge
    rw [Order.mem_perm]
    exact C17_complete b r a.jaccardThreshold (ahash obj.hashSize) _ q res (.inl hres) id s v
      ((key id s).mpr ⟨d, hd, hs⟩) hband hv hge
  · intro hc id
    rw [Order.mem_perm, C18_exact b r a.jaccardThreshold (ahash obj.hashSize) _ q
      (PyMinIndex.clean_core _ pops (fun d hd => (h3 d hd).2) hc) res hres id]
    constructor
    · rintro ⟨s, v, e1, e2, e3, e4⟩
      obtain ⟨d, hd, hs⟩ := (key id s).mp e1
      exact ⟨d, s, v, hd, hs, e2, e3, e4⟩
    · rintro ⟨d, s, v, hd, hs, e2, e3, e4⟩
      exact ⟨s, v, (key id s).mpr ⟨d, hd, hs⟩, e2, e3, e4⟩

/-- A history of the examples: batch with an uppercase text, an overwriting insertion and a removal. -/
def exPyOps : List PyMinOp :=
  [.insertDocument 1 "x y".toList, .parBulkInsertDocs [2, 3] ["a b".toList, "A b".toList] [1] [], .insertDocument 1 "z".toList,
    .remove 2]

/-- A history without overwriting. -/
def exPyClean : List PyMinOp :=
  [.insertDocument 1 "x y".toList, .parBulkInsertDocs [2, 3] ["a b".toList, "A b".toList] [1] [], .remove 1,
    .insertDocument 1 "z".toList]

theorem exPyClean_clean : PyClean exPyClean := by
  intro pre op post e
  unfold exPyClean at e
  rcases pre with _ | ⟨p1, _ | ⟨p2, _ | ⟨p3, _ | ⟨p4, _ | ⟨p5, pre⟩⟩⟩⟩⟩ <;>
    simp only [List.nil_append, List.cons_append, List.cons.injEq] at e
  · obtain ⟨rfl, -⟩ := e; rfl
  · obtain ⟨rfl, rfl, -⟩ := e; exact ⟨by decide, by decide⟩
  · obtain ⟨rfl, rfl, rfl, -⟩ := e; trivial
  · obtain ⟨rfl, rfl, rfl, rfl, -⟩ := e; show pyLive _ 1 = none; decide
  · obtain ⟨-, -, -, -, h⟩ := e; cases h
  · obtain ⟨-, -, -, -, h⟩ := e; cases h

/-- The hypotheses of the theorems of C80 are met by these histories: the first leaves documents for the ids 1 and 3,
the second for 1, 2 and 3. -/
example (env : PyMinEnv) : AnalyzerReturns env exArgs ("a".toList :: exPyOps.flatMap pyDocs) ∧
    BandParams env exArgs 4 2 ∧
    pyLive exPyOps 1 = some "z".toList ∧ pyLive exPyOps 2 = none ∧ pyLive exPyOps 3 = some "A b".toList ∧
    (∀ id, id ∈ ([1, 3] : List Int64) ↔ pyLive exPyOps id ≠ none) ∧ PyClean exPyClean := by
  refine ⟨trivial, .inl ⟨4, 2, rfl, rfl, rfl, rfl⟩, by decide, by decide, by decide, fun id => ?_, exPyClean_clean⟩
  by_cases h1 : 1 = id
  · subst h1; decide
  · by_cases h2 : 2 = id
    · subst h2; decide
    · by_cases h3 : 3 = id
      · subst h3; decide
      · simp [exPyOps, pyLive, pyTouch, lastDoc, h1, h2, h3, Ne.symm h1, Ne.symm h3]

/-- `size()` after the first history, for every external code. -/
example (env : PyMinEnv) (ahash : (h : HashSize) → List h.T → UInt64) (obj : PyMinObject)
    (h : PyMinObject.init env ahash exArgs = .ok obj) : (obj.index.run env exPyOps).size = 2 := by
  refine C80_size env ahash exArgs obj h exPyOps trivial [1, 3] (by decide) fun id => ?_
  by_cases h1 : 1 = id
  · subst h1; decide
  · by_cases h2 : 2 = id
    · subst h2; decide
    · by_cases h3 : 3 = id
      · subst h3; decide
      · simp [exPyOps, pyLive, pyTouch, lastDoc, h1, h2, h3, Ne.symm h1, Ne.symm h3]

/-- Good arguments give usable parameters. -/
theorem init_good {env : PyMinEnv} {ahash : (h : HashSize) → List h.T → UInt64} {a : PyMinArgs} {obj : PyMinObject}
    (h : PyMinObject.init env ahash a = .ok obj) (hg : GoodSizes a) (ht : a.jaccardThreshold ≠ .nan) {b r : Nat}
    (hp : BandParams env a b r) :
    1 ≤ b ∧ 1 ≤ r ∧ b * r < 2 ^ 64 ∧ Fl.ge (.fin 1) a.jaccardThreshold = true := by
  have hfit : a.fit ∧ ChecksPass a := by
    rcases init_cases env ahash a with ⟨_, e⟩ | ⟨_, _, e⟩ | ⟨_, _, _, e⟩ | ⟨hc, hf, _⟩
    · rw [e] at h; cases h
    · rw [e] at h; cases h
    · rw [e] at h; cases h
    · exact ⟨hf, hc⟩
  obtain ⟨hb, hr, hn⟩ := goodSizes_params hfit.1 hg hp
  refine ⟨hb, hr, hn, ?_⟩
  have := hfit.2.2.2.1
  cases hv : a.jaccardThreshold with
  | nan => exact absurd hv ht
  | ninf => rfl
  | pinf => rw [hv] at this; cases this
  | fin q =>
    rw [hv] at this
    simp only [Fl.gt, Fl.ge, Fl.cmp, beq_eq_false_iff_ne, ne_eq, Option.some.injEq, Bool.or_eq_true,
      beq_iff_eq] at this ⊢
    rw [compare_gt_iff_gt, not_lt] at this
    rw [compare_gt_iff_gt, compare_eq_iff_eq]
    rcases this.lt_or_eq with h | h
    · exact .inl h
    · exact .inr h.symm

/-- C80: a query for the document that `id` has now returns `id`. -/
theorem C80_finds_current (env : PyMinEnv) (ahash : (h : HashSize) → List h.T → UInt64) (a : PyMinArgs)
    (obj : PyMinObject) (h : PyMinObject.init env ahash a = .ok obj) (hg : GoodSizes a)
    (ht : a.jaccardThreshold ≠ .nan) (pops : List PyMinOp) (ha : AnalyzerReturns env a (pops.flatMap pyDocs))
    (id : Int64) (doc : PyText) (hl : pyLive pops id = some doc) (o1 o2 : Order) :
    ∃ l, (obj.index.run env pops).query env o1 o2 doc false = .ok (.ids l) ∧ id ∈ l := by
  obtain ⟨b, r, hp, hrep, _⟩ := init_rep h
  obtain ⟨hb, hr, hn, hthr⟩ := init_good h hg ht hp
  obtain ⟨l, q, hq, e, _, _, hc, _⟩ := C80_query env ahash a obj h b r hp pops doc (ha.mono fun d hd => by
    rcases List.mem_cons.mp hd with rfl | hd
    · exact pyLive_mem hl
    · exact hd) o1 o2
  have hql : q.length = b * r := PyMinIndex.sig_length hrep.hasher ((sigOf_iff h hp doc q).mpr hq)
  have h0 : 0 < b * r := Nat.mul_pos hb hr
  exact ⟨l, e, hc id doc q (.fin 1) hl hq ⟨0, hb, fun _ _ _ => rfl⟩ (self_similarity q (by omega) (by omega)) hthr⟩

/-- C80: after histories without overwriting that leave the same documents, all queries have the same answers and
the sizes agree. -/
theorem C80_history_independent (env : PyMinEnv) (ahash : (h : HashSize) → List h.T → UInt64) (a : PyMinArgs)
    (obj : PyMinObject) (h : PyMinObject.init env ahash a = .ok obj) (pops pops' : List PyMinOp)
    (hc : PyClean pops) (hc' : PyClean pops') (hlive : pyLive pops = pyLive pops') (doc : PyText)
    (ha : AnalyzerReturns env a (doc :: pops.flatMap pyDocs)) (ha' : AnalyzerReturns env a (pops'.flatMap pyDocs))
    (o1 o2 o1' o2' : Order) :
    (obj.index.run env pops).size = (obj.index.run env pops').size ∧
    ∃ l l', (obj.index.run env pops).query env o1 o2 doc false = .ok (.ids l) ∧
      (obj.index.run env pops').query env o1' o2' doc false = .ok (.ids l') ∧ l.Perm l' := by
  obtain ⟨b, r, hp, _⟩ := init_rep h
  have ha1 : AnalyzerReturns env a (pops.flatMap pyDocs) := ha.mono fun d hd => List.mem_cons_of_mem _ hd
  have ha2 : AnalyzerReturns env a (doc :: pops'.flatMap pyDocs) := by
    unfold AnalyzerReturns at ha ha' ⊢
    cases haa : a.analyzer with
    | named n => rw [haa] at ha; exact ha
    | callable f =>
      rw [haa] at ha ha'
      intro d hd
      rcases List.mem_cons.mp hd with rfl | hd
      · exact ha _ (by simp)
      · exact ha' d hd
  constructor
  · obtain ⟨h1, _, h3⟩ := content_rep h hp pops ha1
    obtain ⟨h1', _, h3'⟩ := content_rep h hp pops' ha'
    show (obj.index.run env pops).native.inner.size = (obj.index.run env pops').native.inner.size
    rw [h1.inner, h1'.inner]
    have I' := inv_run (C := obj.container.C) (ahash obj.hashSize) b r a.jaccardThreshold
      (pops'.flatMap (PyMinIndex.core (sigD env obj.index)))
    have hk : ∀ id, id ∈ (After obj.container.C b r a.jaccardThreshold (ahash obj.hashSize)
        (pops'.flatMap (PyMinIndex.core (sigD env obj.index)))).idSignatures.keys ↔
        live (b * r) (pops'.flatMap (PyMinIndex.core (sigD env obj.index))) id ≠ none := by
      intro id
      rw [HMap.mem_keys_iff, Option.ne_none_iff_exists']
      simp only [I'.sigs]
    have hsame : ∀ id, live (b * r) (pops'.flatMap (PyMinIndex.core (sigD env obj.index))) id =
        live (b * r) (pops.flatMap (PyMinIndex.core (sigD env obj.index))) id := by
      intro id
      rw [PyMinIndex.live_core (sigD env obj.index) id pops fun d hd => (h3 d hd).2, hlive,
        PyMinIndex.live_core (sigD env obj.index) id pops' fun d hd => (h3' d hd).2]
    rw [C15_size (C := obj.container.C) b r a.jaccardThreshold (ahash obj.hashSize) _ _ (HMap.keys_nodup _) hk,
      C15_size (C := obj.container.C) b r a.jaccardThreshold (ahash obj.hashSize) _ _ (HMap.keys_nodup _)
        (fun id => by rw [← hsame]; exact hk id)]
  · obtain ⟨l, q, hq, e, hnd, _, _, hex⟩ := C80_query env ahash a obj h b r hp pops doc ha o1 o2
    obtain ⟨l', q', hq', e', hnd', _, _, hex'⟩ := C80_query env ahash a obj h b r hp pops' doc ha2 o1' o2'
    have : q = q' := Except.ok.inj (((sigOf_iff h hp doc q).mpr hq).symm.trans ((sigOf_iff h hp doc q').mpr hq'))
    subst this
    refine ⟨l, l', e, e', ?_⟩
    rw [List.perm_ext_iff_of_nodup hnd hnd']
    intro id
    rw [hex hc, hex' hc', hlive]

/-! ## C81 -/

/-- C81: whenever a present id is overwritten with a document that has another key in some band, and then removed,
the similarity query for the overwritten document raises, whatever the container. -/
theorem C81_overwrite_remove_raises (env : PyMinEnv) (ahash : (h : HashSize) → List h.T → UInt64) (a : PyMinArgs)
    (obj : PyMinObject) (h : PyMinObject.init env ahash a = .ok obj) (b r : Nat) (hp : BandParams env a b r)
    (pops : List PyMinOp) (id : Int64) (d d' : PyText)
    (ha : AnalyzerReturns env a (d' :: pops.flatMap pyDocs)) (hl : pyLive pops id = some d)
    (s s' : List obj.hashSize.T) (hs : SigOf env a (b * r) d s) (hs' : SigOf env a (b * r) d' s')
    (i : Nat) (hi : i < b) (hne : ahash obj.hashSize (bandOf r s i) ≠ ahash obj.hashSize (bandOf r s' i))
    (o1 o2 : Order) :
    ∃ e, (obj.index.run env (pops ++ [.insertDocument id d', .remove id])).query env o1 o2 d true =
      .error (.panic e) := by
  have ha1 : AnalyzerReturns env a (pops.flatMap pyDocs) := ha.mono fun d hd => List.mem_cons_of_mem _ hd
  obtain ⟨h1, h2, h3⟩ := content_rep h hp (pops ++ [.insertDocument id d', .remove id]) (ha.mono fun x hx => by
    rw [List.flatMap_append, List.mem_append] at hx
    rcases hx with hx | hx
    · exact List.mem_cons_of_mem _ hx
    · simp [pyDocs] at hx
      subst hx
      simp)
  obtain ⟨_, _, h3p⟩ := content_rep h hp pops ha1
  have e1 := (sigOf_iff h hp d s).mpr hs
  have e2 := (sigOf_iff h hp d' s').mpr hs'
  have d1 : sigD env obj.index d = s := by unfold sigD; rw [e1]
  have d2 : sigD env obj.index d' = s' := by unfold sigD; rw [e2]
  have hq : (obj.index.run env (pops ++ [.insertDocument id d', .remove id])).sig env d = .ok s := by
    rw [h2.sig env]; exact e1
  rw [PyMinIndex.query_pairs h1.hasher hq, h1.inner]
  have hops : (pops ++ [PyMinOp.insertDocument id d', .remove id]).flatMap (PyMinIndex.core (sigD env obj.index)) =
      pops.flatMap (PyMinIndex.core (sigD env obj.index)) ++ [.insert id s', .remove id] := by
    rw [List.flatMap_append]
    simp [PyMinIndex.core, d2]
  rw [hops]
  obtain ⟨e, he⟩ := (C24_overwrite_remove_panics (C := obj.container.C) b r a.jaccardThreshold (ahash obj.hashSize)
    (pops.flatMap (PyMinIndex.core (sigD env obj.index))) id s s' s (by
      rw [PyMinIndex.live_core (sigD env obj.index) id pops fun d hd => (h3p d hd).2, hl, Option.map_some, d1])
    (PyMinIndex.sig_length h1.hasher (by rw [h2.sig env]; exact e2))
    (PyMinIndex.sig_length h1.hasher hq) i hi hne rfl o1 o2).1
  rw [he]
  exact ⟨e, rfl⟩

/-- A call that removes nothing. -/
def PyNoRemove : PyMinOp → Prop
  | .remove _ => False
  | _ => True

/-- C81, the part that holds: after histories without overwriting, or without removals, a query with
`return_similarity` returns the ids of the plain query, each with the similarity of its document to the query, in
non-increasing order. Missing: histories that overwrite and later remove. -/
theorem C81_similarity_partial (env : PyMinEnv) (ahash : (h : HashSize) → List h.T → UInt64) (a : PyMinArgs)
    (obj : PyMinObject) (h : PyMinObject.init env ahash a = .ok obj) (b r : Nat) (hp : BandParams env a b r)
    (h0 : 0 < b * r) (hn : b * r < 2 ^ 52) (pops : List PyMinOp) (doc : PyText)
    (ha : AnalyzerReturns env a (doc :: pops.flatMap pyDocs))
    (hc : PyClean pops ∨ ∀ op ∈ pops, PyNoRemove op) (o1 o2 : Order) :
    ∃ (l : List (Int64 × Fl)) (l' : List Int64) (q : List obj.hashSize.T), SigOf env a (b * r) doc q ∧
      (obj.index.run env pops).query env o1 o2 doc true = .ok (.pairs l) ∧
      (obj.index.run env pops).query env o1 o2 doc false = .ok (.ids l') ∧ (l.map Prod.fst).Perm l' ∧
      (∀ p ∈ l, ∃ d s, pyLive pops p.1 = some d ∧ SigOf env a (b * r) d s ∧ minhashSimilarity s q = .ok p.2) ∧
      l.Pairwise fun x y => Fl.ge x.2 y.2 = true := by
  have ha1 : AnalyzerReturns env a (pops.flatMap pyDocs) := ha.mono fun d hd => List.mem_cons_of_mem _ hd
  obtain ⟨h1, h2, h3⟩ := content_rep h hp pops ha1
  obtain ⟨q, hq⟩ := sig_total h ha doc (by simp)
  have hqr : (obj.index.run env pops).sig env doc = .ok q := by rw [h2.sig env]; exact hq
  have hql : q.length = b * r := PyMinIndex.sig_length h1.hasher hqr
  have hret : ∃ l, (After obj.container.C b r a.jaccardThreshold (ahash obj.hashSize)
      (pops.flatMap (PyMinIndex.core (sigD env obj.index)))).queryOwnedReturnSimilarity o1 o2 q = .ok l := by
    rcases hc with hc | hc
    · exact (C24_clean_partial b r _ _ _ q (PyMinIndex.clean_core _ pops (fun d hd => (h3 d hd).2) hc) h1.lengths hql h0
        hn o1 o2).1
    · refine (C24_no_removal_partial b r _ _ _ q (fun op hop => ?_) h1.lengths hql h0 hn o1 o2).1
      obtain ⟨pop, hpop, hm⟩ := List.mem_flatMap.mp hop
      have := hc pop hpop
      cases pop with
      | insertDocument id d => rw [PyMinIndex.core, List.mem_singleton] at hm; subst hm; trivial
      | remove id => exact this.elim
      | parBulkInsertDocs ids docs s1 s2 =>
        obtain ⟨p, _, rfl⟩ := List.mem_map.mp hm
        trivial
  obtain ⟨l, hl⟩ := hret
  obtain ⟨res, hres, hperm, hall, hsort⟩ := C23_sorted_query b r a.jaccardThreshold (ahash obj.hashSize) _ q hql o1 o2 l hl
  refine ⟨l, o1.perm res.elems, q, (sigOf_iff h hp doc q).mp hq, ?_, ?_, ?_, ?_, hsort⟩
  · rw [PyMinIndex.query_pairs h1.hasher hqr, h1.inner, hl]; rfl
  · rw [PyMinIndex.query_ids h1.hasher hqr, h1.inner, hres]; rfl
  · exact hperm.trans (o1.isPerm _).symm
  · intro p hpl
    obtain ⟨s, e1, e2⟩ := hall p hpl
    rw [PyMinIndex.live_core (sigD env obj.index) p.1 pops fun d hd => (h3 d hd).2, Option.map_eq_some_iff] at e1
    obtain ⟨d, hd, rfl⟩ := e1
    exact ⟨d, _, hd, (sigOf_iff h hp d _).mp (h3 d (pyLive_mem hd)).1, e2⟩

/-- External code for the examples. -/
def exPyMinEnv : PyMinEnv where
  lower := List.map Char.toLower
  strShingles := fun _ _ => .ok []
  sliceShingles := fun _ _ => .ok []
  rng := exRng
  hash := fun
    | .str l => UInt64.ofNat (l.foldl (fun a c => a * 31 + c.toNat) 7)
    | .words _ => 0
  powf := fun x _ => x

/-- Band hashes for the examples. -/
def exAhash : (h : HashSize) → List h.T → UInt64
  | .h8, l => UInt64.ofNat ((l : List UInt8).foldl (fun a c => a * 257 + c.toNat) 1)
  | .h16, l => UInt64.ofNat ((l : List UInt16).foldl (fun a c => a * 65537 + c.toNat) 1)
  | .h32, _ => 0
  | .h64, _ => 0

theorem exSig_ab : SigOf (T := HashSize.T .h16) exPyMinEnv exArgs (4 * 2) "a b".toList
    ([1267, 1582, 1897, 2212, 2527, 2842, 3157, 3472] : List UInt16) :=
  ⟨pyTokens ["a".toList, "b".toList], by decide +kernel, by decide +kernel⟩

theorem exSig_c : SigOf (T := HashSize.T .h16) exPyMinEnv exArgs (4 * 2) "c".toList
    ([1275, 1592, 1909, 2226, 2543, 2860, 3177, 3494] : List UInt16) :=
  ⟨pyTokens ["c".toList], by decide +kernel, by decide +kernel⟩

theorem exSig_keys : exAhash .h16 (bandOf 2 ([1267, 1582, 1897, 2212, 2527, 2842, 3157, 3472] : List UInt16) 0) ≠
    exAhash .h16 (bandOf 2 ([1275, 1592, 1909, 2226, 2543, 2860, 3177, 3494] : List UInt16) 0) := by decide +kernel

/-- C81 is false of the code: insert, overwrite, remove, and the similarity query for the first document raises
`PanicException`, while the plain query returns the empty list. -/
theorem C81_similarity_false : ∃ (env : PyMinEnv) (ahash : (h : HashSize) → List h.T → UInt64) (obj : PyMinObject),
    PyMinObject.init env ahash exArgs = .ok obj ∧ ∀ o1 o2 : Order,
      (∃ e, (obj.index.run env [.insertDocument 1 "a b".toList, .insertDocument 1 "c".toList, .remove 1]).query env
        o1 o2 "a b".toList true = .error (.panic e)) ∧
      (obj.index.run env [.insertDocument 1 "a b".toList, .insertDocument 1 "c".toList, .remove 1]).query env
        o1 o2 "a b".toList false = .ok (.ids []) := by
  obtain ⟨obj, h⟩ := exArgs_ok exPyMinEnv exAhash
  have hp : BandParams exPyMinEnv exArgs 4 2 := .inl ⟨4, 2, rfl, rfl, rfl, rfl⟩
  refine ⟨exPyMinEnv, exAhash, obj, h, fun o1 o2 => ⟨?_, ?_⟩⟩
  · have hh := (C68_lengths exPyMinEnv exAhash exArgs obj h).1
    obtain ⟨hs, ck, ix⟩ := obj
    cases (show HashSize.h16 = hs from Option.some.inj hh)
    exact C81_overwrite_remove_raises exPyMinEnv exAhash exArgs ⟨.h16, ck, ix⟩ h 4 2 hp
      [.insertDocument 1 "a b".toList] 1 "a b".toList "c".toList trivial rfl
      ([1267, 1582, 1897, 2212, 2527, 2842, 3157, 3472] : List UInt16)
      ([1275, 1592, 1909, 2226, 2543, 2860, 3177, 3494] : List UInt16)
      exSig_ab exSig_c 0 (by decide) exSig_keys o1 o2
  · obtain ⟨l, q, _, e, _, hsound, _⟩ := C80_query exPyMinEnv exAhash exArgs obj h 4 2 hp
      [.insertDocument 1 "a b".toList, .insertDocument 1 "c".toList, .remove 1] "a b".toList trivial o1 o2
    have : l = [] := by
      rw [List.eq_nil_iff_forall_not_mem]
      intro id hid
      obtain ⟨d, _, _, hd, _⟩ := hsound id hid
      have hlive : pyLive [.insertDocument 1 "a b".toList, .insertDocument 1 "c".toList, .remove 1] id = none := by
        unfold pyLive
        by_cases h1 : 1 = id
        · simp [pyTouch, h1]
        · simp [pyTouch, h1]
      rw [hlive] at hd
      cases hd
    rw [e, this]

/-! ## C82 -/

/-- C82: `par_bulk_query` is the list of the single queries, with and without similarities, for every schedule; it
raises exactly if one of them does. -/
theorem C82_bulk_query (env : PyMinEnv) (ahash : (h : HashSize) → List h.T → UInt64) (a : PyMinArgs)
    (obj : PyMinObject) (h : PyMinObject.init env ahash a = .ok obj) (pops : List PyMinOp) (docs : List PyText)
    (ha : AnalyzerReturns env a docs) (o1 o2 : Order) (flag : Bool) (s1 s2 : List Nat) :
    (obj.index.run env pops).parBulkQuery env o1 o2 docs flag s1 s2 =
      docs.mapM fun d => (obj.index.run env pops).query env o1 o2 d flag := by
  obtain ⟨b, r, _, hrep, _⟩ := init_rep h
  obtain ⟨ops', h1, h2, _⟩ := PyMinIndex.run_rep pops hrep
  exact PyMinIndex.parBulkQuery_eq h1.hasher docs (fun d hd => by rw [h2.sig env]; exact sig_total h ha d hd) o1 o2 flag
    s1 s2

/-- C82: without similarities the bulk query returns. -/
theorem C82_bulk_query_returns (env : PyMinEnv) (ahash : (h : HashSize) → List h.T → UInt64) (a : PyMinArgs)
    (obj : PyMinObject) (h : PyMinObject.init env ahash a = .ok obj) (pops : List PyMinOp) (docs : List PyText)
    (ha : AnalyzerReturns env a docs) (o1 o2 : Order) (s1 s2 : List Nat) :
    ∃ ls, (obj.index.run env pops).parBulkQuery env o1 o2 docs false s1 s2 = .ok ls ∧
      List.Forall₂ (fun d ans => (obj.index.run env pops).query env o1 o2 d false = .ok ans) docs ls := by
  rw [C82_bulk_query env ahash a obj h pops docs ha]
  obtain ⟨b, r, _, hrep, _⟩ := init_rep h
  obtain ⟨ops', h1, h2, _⟩ := PyMinIndex.run_rep pops hrep
  have hret : ∀ d ∈ docs, ∃ ans, (obj.index.run env pops).query env o1 o2 d false = .ok ans := by
    intro d hd
    obtain ⟨s, hs⟩ := sig_total h ha d hd
    rw [← h2.sig env] at hs
    obtain ⟨res, hres, _⟩ := C17_query_returns (C := obj.container.C) b r a.jaccardThreshold (ahash obj.hashSize) _ s
      h1.lengths (PyMinIndex.sig_length h1.hasher hs)
    rw [PyMinIndex.query_ids h1.hasher hs, h1.inner, query_owned_eq, hres]
    exact ⟨_, rfl⟩
  clear ha
  induction docs with
  | nil => exact ⟨[], rfl, .nil⟩
  | cons d docs ih =>
    obtain ⟨ans, e⟩ := hret d (by simp)
    obtain ⟨ls, e', hf⟩ := ih fun x hx => hret x (by simp [hx])
    refine ⟨ans :: ls, ?_, .cons e hf⟩
    rw [List.mapM_cons, e, e']
    rfl

/-- The hypotheses of C81 (partial) and C82 are met. -/
example (env : PyMinEnv) (ahash : (h : HashSize) → List h.T → UInt64) : ∃ obj,
    PyMinObject.init env ahash exArgs = .ok obj ∧ BandParams env exArgs 4 2 ∧
    AnalyzerReturns env exArgs ("a b".toList :: exPyClean.flatMap pyDocs) ∧
    (PyClean exPyClean ∨ ∀ op ∈ exPyClean, PyNoRemove op) ∧ AnalyzerReturns env exArgs ["a b".toList, [], "q".toList] := by
  obtain ⟨obj, h⟩ := exArgs_ok env ahash
  exact ⟨obj, h, .inl ⟨4, 2, rfl, rfl, rfl, rfl⟩, trivial, .inl exPyClean_clean, trivial⟩

/-! ## C83, C84 -/

/-- Signatures depend only on the set of features. -/
class SetPyHasher (T : Type) [PyHasher T] : Prop where
  create_congr : ∀ (m : PyHasher.Hasher T) (toks toks' : List PyTok), (∀ x, x ∈ toks ↔ x ∈ toks') →
    PyHasher.create m toks = PyHasher.create m toks'

instance setPyHasher64 : SetPyHasher UInt64 := ⟨fun m l l' h => C02_token_set_64 m l l' h⟩
instance setPyHasher32 : SetPyHasher UInt32 := ⟨fun m l l' h => (C02_token_set_narrow m l l' h).1⟩
instance setPyHasher16 : SetPyHasher UInt16 := ⟨fun m l l' h => (C02_token_set_narrow m l l' h).2.1⟩
instance setPyHasher8 : SetPyHasher UInt8 := ⟨fun m l l' h => (C02_token_set_narrow m l l' h).2.2⟩

instance : (h : HashSize) → SetPyHasher h.T
  | .h8 => inferInstanceAs (SetPyHasher UInt8)
  | .h16 => inferInstanceAs (SetPyHasher UInt16)
  | .h32 => inferInstanceAs (SetPyHasher UInt32)
  | .h64 => inferInstanceAs (SetPyHasher UInt64)

/-- Two objects of the same class whose analyzers produce the same sets of features answer alike. -/
theorem py_same_sets {env : PyMinEnv} {ahash : (h : HashSize) → List h.T → UInt64} {a a' : PyMinArgs}
    {obj obj' : PyMinObject} (h : PyMinObject.init env ahash a = .ok obj) (h' : PyMinObject.init env ahash a' = .ok obj')
    (e1 : a'.hashSize = a.hashSize) (e2 : a'.jaccardThreshold = a.jaccardThreshold) (e3 : a'.numBands = a.numBands)
    (e4 : a'.bandSize = a.bandSize) (e5 : a'.numHashes = a.numHashes) (e6 : a'.idContainer = a.idContainer)
    (f : PyText → PyText) (pops : List PyMinOp) (doc : PyText)
    (ha : AnalyzerReturns env a (doc :: pops.flatMap pyDocs))
    (hf : ∀ d ∈ doc :: pops.flatMap pyDocs, ∀ toks, pyFeatures env a d = .ok toks →
      ∃ toks', pyFeatures env a' (f d) = .ok toks' ∧ ∀ x, x ∈ toks' ↔ x ∈ toks)
    (o1 o2 : Order) (flag : Bool) :
    (obj'.index.run env (pops.map (mapDocs f))).size = (obj.index.run env pops).size ∧
    (obj'.index.run env (pops.map (mapDocs f))).query env o1 o2 (f doc) flag =
      (obj.index.run env pops).query env o1 o2 doc flag := by
  obtain ⟨b, r, k1, k2, k3, k4⟩ := init_native h
  obtain ⟨b', r', k1', k2', k3', k4'⟩ := init_native h'
  have hp' : BandParams env a b' r' := by
    unfold BandParams at k3' ⊢
    rw [e2, e3, e4, e5] at k3'
    exact k3'
  obtain ⟨rfl, rfl⟩ := C68_params_unique env a b r b' r' k3 hp'
  rw [e1, k1] at k1'
  rw [e6, k2] at k2'
  have ha1 : AnalyzerReturns env a (pops.flatMap pyDocs) := ha.mono fun d hd => List.mem_cons_of_mem _ hd
  have hall : ∀ d ∈ doc :: pops.flatMap pyDocs, ∃ s, obj.index.sig env d = .ok s := fun d hd => sig_total h ha d hd
  have hs1 := fun d => sig_features h d
  have hs2 := fun d => sig_features h' d
  obtain ⟨hs, ck, ix⟩ := obj
  obtain ⟨hs', ck', ix'⟩ := obj'
  simp only at k1' k2' k4 k4' hs1 hs2 hall ⊢
  cases k1'
  cases k2'
  have hm : ix'.native.minHash = ix.native.minHash := by rw [k4, k4']; rfl
  have hR : PyMinIndex.Rep env b r a.jaccardThreshold (ahash hs) [] ix := by
    rw [k4]; exact ⟨rfl, rfl, by intro op hop; cases hop⟩
  have hR' : PyMinIndex.Rep env b r a.jaccardThreshold (ahash hs) [] ix' := by
    rw [k4', e2]; exact ⟨rfl, rfl, by intro op hop; cases hop⟩
  have hsig : ∀ d ∈ doc :: pops.flatMap pyDocs, ix'.sig env (f d) = ix.sig env d := by
    intro d hd
    obtain ⟨s, e⟩ := hall d hd
    rw [hs1] at e
    cases ef : pyFeatures env a d with
    | error x => rw [ef] at e; cases e
    | ok toks =>
      obtain ⟨toks', ef', hx⟩ := hf d hd toks ef
      rw [hs2, hs1, ef, ef', hm]
      show fromRust (PyHasher.create _ toks') = fromRust (PyHasher.create _ toks)
      rw [SetPyHasher.create_congr ix.native.minHash toks' toks hx]
  have hD : ∀ d ∈ doc :: pops.flatMap pyDocs, ix.sig env d = .ok (sigD env ix d) := by
    intro d hd
    obtain ⟨s, e⟩ := hall d hd
    unfold sigD; rw [e]
  have hD' : ∀ d ∈ doc :: pops.flatMap pyDocs, ix'.sig env (f d) = .ok (sigD env ix' (f d)) ∧
      sigD env ix' (f d) = sigD env ix d := by
    intro d hd
    have e := (hsig d hd).trans (hD d hd)
    have e' : sigD env ix' (f d) = sigD env ix d := by
      unfold sigD at e ⊢
      rw [e]
    exact ⟨by rw [e']; exact e, e'⟩
  obtain ⟨r1, c1⟩ := PyMinIndex.run_core (sigD env ix) pops hR fun d hd => hD d (by simp [hd])
  have hdocs : ∀ d, d ∈ (pops.map (mapDocs f)).flatMap pyDocs → ∃ d0 ∈ pops.flatMap pyDocs, d = f d0 := by
    intro d hd
    obtain ⟨op', hop', hd'⟩ := List.mem_flatMap.mp hd
    obtain ⟨op, hop, rfl⟩ := List.mem_map.mp hop'
    cases op with
    | insertDocument id x =>
      simp only [mapDocs, pyDocs, List.mem_singleton] at hd'
      exact ⟨x, List.mem_flatMap.mpr ⟨_, hop, by simp [pyDocs]⟩, hd'⟩
    | remove id => simp [mapDocs, pyDocs] at hd'
    | parBulkInsertDocs ids docs s1 s2 =>
      simp only [mapDocs, pyDocs, List.mem_map] at hd'
      obtain ⟨x, hx, rfl⟩ := hd'
      exact ⟨x, List.mem_flatMap.mpr ⟨_, hop, hx⟩, rfl⟩
  obtain ⟨r2, c2⟩ := PyMinIndex.run_core (sigD env ix') (pops.map (mapDocs f)) hR' fun d hd => by
    obtain ⟨d0, hd0, rfl⟩ := hdocs d hd
    exact (hD' d0 (by simp [hd0])).1
  have hcore : (pops.map (mapDocs f)).flatMap (PyMinIndex.core (sigD env ix')) =
      pops.flatMap (PyMinIndex.core (sigD env ix)) := by
    rw [List.flatMap_map]
    refine List.flatMap_congr fun op hop => ?_
    have hop' : ∀ d ∈ pyDocs op, sigD env ix' (f d) = sigD env ix d := fun d hd =>
      (hD' d (List.mem_cons_of_mem _ (List.mem_flatMap.mpr ⟨op, hop, hd⟩))).2
    cases op with
    | insertDocument id x => simp only [mapDocs, PyMinIndex.core]; rw [hop' x (by simp [pyDocs])]
    | remove id => rfl
    | parBulkInsertDocs ids docs s1 s2 =>
      simp only [mapDocs, PyMinIndex.core, pyDocs] at hop' ⊢
      rw [List.zip_map_right, List.map_map]
      refine List.map_congr_left fun p hp => ?_
      simp only [Function.comp, Prod.map]
      rw [hop' p.2 (List.of_mem_zip (a := p.1) (b := p.2) hp).2]
      rfl
  rw [hcore] at r2
  have hinner : (ix'.run env (pops.map (mapDocs f))).native.inner = (ix.run env pops).native.inner :=
    r2.inner.trans r1.inner.symm
  refine ⟨congrArg MinHashIndex.size hinner, ?_⟩
  have q1 : (ix.run env pops).sig env doc = .ok (sigD env ix doc) := by rw [c1.sig env]; exact hD doc (by simp)
  have q2 : (ix'.run env (pops.map (mapDocs f))).sig env (f doc) = .ok (sigD env ix doc) := by
    rw [c2.sig env]
    have := hD' doc (by simp)
    rw [this.2] at this
    exact this.1
  cases flag with
  | true => rw [PyMinIndex.query_pairs r1.hasher q1, PyMinIndex.query_pairs r2.hasher q2, hinner]
  | false => rw [PyMinIndex.query_ids r1.hasher q1, PyMinIndex.query_ids r2.hasher q2, hinner]

/-- Two objects of the same class whose analyzers produce the same features answer alike. -/
theorem py_same_answers {env : PyMinEnv} {ahash : (h : HashSize) → List h.T → UInt64} {a a' : PyMinArgs}
    {obj obj' : PyMinObject} (h : PyMinObject.init env ahash a = .ok obj) (h' : PyMinObject.init env ahash a' = .ok obj')
    (e1 : a'.hashSize = a.hashSize) (e2 : a'.jaccardThreshold = a.jaccardThreshold) (e3 : a'.numBands = a.numBands)
    (e4 : a'.bandSize = a.bandSize) (e5 : a'.numHashes = a.numHashes) (e6 : a'.idContainer = a.idContainer)
    (f : PyText → PyText) (pops : List PyMinOp) (doc : PyText)
    (ha : AnalyzerReturns env a (doc :: pops.flatMap pyDocs))
    (hf : ∀ d ∈ doc :: pops.flatMap pyDocs, pyFeatures env a' (f d) = pyFeatures env a d)
    (o1 o2 : Order) (flag : Bool) :
    (obj'.index.run env (pops.map (mapDocs f))).size = (obj.index.run env pops).size ∧
    (obj'.index.run env (pops.map (mapDocs f))).query env o1 o2 (f doc) flag =
      (obj.index.run env pops).query env o1 o2 doc flag :=
  py_same_sets h h' e1 e2 e3 e4 e5 e6 f pops doc ha
    (fun d hd toks e => ⟨toks, (hf d hd).trans e, fun _ => Iff.rfl⟩) o1 o2 flag

/-- C83: with a built-in analyzer, `lowercase=True` behaves like `lowercase=False` fed with lowercased documents and
queries. -/
theorem C83_lowercase (env : PyMinEnv) (ahash : (h : HashSize) → List h.T → UInt64) (a : PyMinArgs)
    (n : Option String) (hn : a.analyzer = .named n) (obj obj' : PyMinObject)
    (h : PyMinObject.init env ahash { a with lowercase := some true } = .ok obj)
    (h' : PyMinObject.init env ahash { a with lowercase := some false } = .ok obj')
    (pops : List PyMinOp) (doc : PyText) (ha : AnalyzerReturns env a (doc :: pops.flatMap pyDocs))
    (o1 o2 : Order) (flag : Bool) :
    (obj.index.run env pops).size = (obj'.index.run env (pops.map (mapDocs env.lower))).size ∧
    (obj.index.run env pops).query env o1 o2 doc flag =
      (obj'.index.run env (pops.map (mapDocs env.lower))).query env o1 o2 (env.lower doc) flag := by
  obtain ⟨k1, k2⟩ := py_same_answers h h' rfl rfl rfl rfl rfl rfl env.lower pops doc (by
    unfold AnalyzerReturns at ha ⊢; exact ha) (by
    intro d _
    rw [pyFeatures_eq, pyFeatures_eq]
    unfold minTokens
    simp only [hn]
    simp) o1 o2 flag
  exact ⟨k1.symm, k2.symm⟩

/-- C83: with a callable analyzer `lowercase` has no effect (the callable gets the raw text). -/
theorem C83_callable_ignores_lowercase (env : PyMinEnv) (ahash : (h : HashSize) → List h.T → UInt64) (a : PyMinArgs)
    (g : PyText → Except PyExc (List PyText)) (hn : a.analyzer = .callable g) (lc lc' : Option Bool)
    (obj obj' : PyMinObject)
    (h : PyMinObject.init env ahash { a with lowercase := lc } = .ok obj)
    (h' : PyMinObject.init env ahash { a with lowercase := lc' } = .ok obj')
    (pops : List PyMinOp) (doc : PyText) (ha : AnalyzerReturns env a (doc :: pops.flatMap pyDocs))
    (o1 o2 : Order) (flag : Bool) :
    (obj.index.run env pops).size = (obj'.index.run env pops).size ∧
    (obj.index.run env pops).query env o1 o2 doc flag = (obj'.index.run env pops).query env o1 o2 doc flag := by
  obtain ⟨k1, k2⟩ := py_same_answers h h' rfl rfl rfl rfl rfl rfl (fun d => d) pops doc (by
    unfold AnalyzerReturns at ha ⊢; exact ha) (by
    intro d _
    rw [pyFeatures_eq, pyFeatures_eq]
    unfold minTokens
    simp only [hn]) o1 o2 flag
  have hid : pops.map (mapDocs fun d => d) = pops := by
    have : (mapDocs fun d => d) = id := by
      funext op
      cases op <;> simp [mapDocs]
    rw [this, List.map_id]
  rw [hid] at k1 k2
  exact ⟨k1.symm, k2.symm⟩

/-- C84: a callable analyzer that splits at whitespace behaves like the default word analyzer (any analyzer name other
than `char`, no `ngram_range`), also if both lowercase. -/
theorem C84_callable_word (env : PyMinEnv) (ahash : (h : HashSize) → List h.T → UInt64) (a : PyMinArgs)
    (n : Option String) (hn : n ≠ some "char") (hr : a.ngramRange = none) (obj obj' : PyMinObject)
    (h : PyMinObject.init env ahash { a with analyzer := .named n } = .ok obj)
    (h' : PyMinObject.init env ahash { a with analyzer := .callable (fun d =>
      .ok (wordsOf (if a.lowercase = some true then env.lower d else d))) } = .ok obj')
    (pops : List PyMinOp) (doc : PyText) (o1 o2 : Order) (flag : Bool) :
    (obj.index.run env pops).size = (obj'.index.run env pops).size ∧
    (obj.index.run env pops).query env o1 o2 doc flag = (obj'.index.run env pops).query env o1 o2 doc flag := by
  have hw : n.getD "word" ≠ "char" := by
    cases n with
    | none => decide
    | some x => intro e; exact hn (congrArg some e)
  have htok : TokenizerSpec.new (n.getD "word") none = .whiteSpace := by
    unfold TokenizerSpec.new
    rw [if_neg hw]
  obtain ⟨k1, k2⟩ := py_same_answers h h' rfl rfl rfl rfl rfl rfl (fun d => d) pops doc (by
    unfold AnalyzerReturns
    simp only [PyMinArgs.range, hr, Option.map_none, htok]
    trivial) (by
    intro d _
    rw [pyFeatures_eq, pyFeatures_eq]
    unfold minTokens
    simp only [hr, Option.map_none, htok, tokenize, Except.map, fromRust, pyTokens, wordsOf_eq]) o1 o2 flag
  have hid : pops.map (mapDocs fun d => d) = pops := by
    have : (mapDocs fun d => d) = id := by
      funext op
      cases op <;> simp [mapDocs]
    rw [this, List.map_id]
  rw [hid] at k1 k2
  exact ⟨k1.symm, k2.symm⟩

/-- The hypotheses of C83 and C84 are met: all these constructor calls succeed. -/
example (env : PyMinEnv) (ahash : (h : HashSize) → List h.T → UInt64) (lc : Option Bool) (an : Analyzer) :
    ∃ obj, PyMinObject.init env ahash { exArgs with lowercase := lc, analyzer := an } = .ok obj :=
  (C68_accepts_partial env ahash { exArgs with lowercase := lc, analyzer := an }
    (show exArgs.jaccardThreshold ≠ .nan by decide)).mpr
    ⟨.inr (.inl rfl), ⟨1 / 2, by norm_num, by norm_num, rfl⟩, .inr (.inl rfl), exArgs_fit,
      .inl ⟨show exArgs.numBands ≠ none by decide, show exArgs.bandSize ≠ none by decide⟩⟩

end Verif.Props
