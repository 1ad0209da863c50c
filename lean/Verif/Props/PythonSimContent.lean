import Verif.Spec.PythonSim
import Verif.Props.PythonSim
import Verif.Props.SimHash
import Verif.Lemmas.PyFeatures

/-! # Properties C95, C96: the content of the Python SimHash index -/
namespace Verif.Props
open Verif.Spec

variable {w : Nat}

/-- The configuration of a constructed object. -/
theorem simInit_native {a : PySimArgs} {obj : PySimObject} (h : PySimObject.init a = .ok obj) :
    (obj.width = 64 ∨ obj.width = 128) ∧ obj.index.analyzer = a.analyzer ∧
      obj.index.native.tokenizer = TokenizerSpec.new (a.analyzer.nativeName.getD "word")
        (a.ngramRange.map fun p => (p.1.toNat, p.2.toNat)) ∧
      obj.index.native.lowercase = a.lowercase.getD false := by
  rcases simInit_cases a with ⟨_, e⟩ | ⟨hsz, _, _, e⟩
  · rw [e] at h; cases h
  · rw [e] at h
    cases hx : PySimHash.new a.hashSize.toNat a.numBlocks a.hammingDistance a.analyzer.nativeName a.lowercase
        a.ngramRange with
    | error x => rw [hx] at h; cases h
    | ok x =>
      rw [hx] at h
      cases h
      refine ⟨by rcases hsz with e | e <;> simp [e], rfl, ?_⟩
      unfold PySimHash.new at hx
      by_cases h1 : FitsUsize a.numBlocks
      · rw [pyUsize_ok h1] at hx
        by_cases h2 : FitsUsize a.hammingDistance
        · rw [pyUsize_ok h2] at hx
          simp only [bind, Except.bind] at hx
          rcases pyOptRange_cases a.ngramRange with ⟨_, e⟩ | ⟨_, e⟩
          · rw [e] at hx
            simp only at hx
            cases hs : SimIndex.new a.hashSize.toNat a.hashSize.toNat Int64 a.numBlocks.toNat
              a.hammingDistance.toNat with
            | ok i => rw [hs] at hx; cases hx; exact ⟨rfl, rfl⟩
            | error e => rw [hs] at hx; cases hx
          · rw [e] at hx; cases hx
        · rw [pyUsize_error h2] at hx; cases hx
      · rw [pyUsize_error h1] at hx; cases hx

/-- The signature that the wrapper computes is the signature of the features. -/
theorem simSig_features {a : PySimArgs} {obj : PySimObject} (h : PySimObject.init a = .ok obj)
    (env : PySimEnv obj.width) (d : PyText) :
    obj.index.sig env d = (pySimFeatures env.toPyEnv a d).map (PySimHash.createSignature env) := by
  obtain ⟨_, h1, h2, h3⟩ := simInit_native h
  unfold PySimIndex.sig pySimFeatures
  rw [features_eq]
  rw [h1]
  cases ha : a.analyzer with
  | callable f =>
    simp only
    cases f d <;> rfl
  | named n =>
    have hl : (a.lowercase.getD false = true) ↔ a.lowercase = some true := by
      cases a.lowercase with
      | none => simp
      | some x => simp
    rw [ha] at h2
    simp only [PySimHash.doc2signature, PySimHash.tokenizeAndSimhash, h2, h3, Analyzer.nativeName, hl]
    split_ifs
    · cases tokenize env.toPyEnv (TokenizerSpec.new (n.getD "word") (a.ngramRange.map fun p => (p.1.toNat, p.2.toNat)))
        (env.lower d) <;> rfl
    · cases tokenize env.toPyEnv (TokenizerSpec.new (n.getD "word") (a.ngramRange.map fun p => (p.1.toNat, p.2.toNat)))
        d <;> rfl

theorem majority_create {env : PySimEnv w} (hw : 2 ≤ w) (toks : List PyTok) :
    MajoritySig env.hash toks (PySimHash.createSignature env toks) := by
  intro i hi
  unfold PySimHash.createSignature
  rw [C47_majority hw w le_rfl env.hash toks i]
  simp [hi]

theorem majority_unique {hash : PyTok → BitVec w} {toks : List PyTok} {s s' : BitVec w} (h : MajoritySig hash toks s)
    (h' : MajoritySig hash toks s') : s = s' := by
  apply BitVec.eq_of_getLsbD_eq
  intro i hi
  rw [Bool.eq_iff_iff]
  exact (h i hi).trans (h' i hi).symm

/-- The signatures of the accepted insertions, looked up. -/
theorem lastSig_accepted {a : PySimArgs} {obj : PySimObject} (h : PySimObject.init a = .ok obj)
    (env : PySimEnv obj.width) (ops : List (Int64 × PyText)) (id : Int64) :
    lastSig (obj.index.accepted env ops) id = (simDoc env.toPyEnv a ops id).bind fun d =>
      ((pySimFeatures env.toPyEnv a d).map (PySimHash.createSignature env)).toOption := by
  unfold lastSig simDoc PySimIndex.accepted
  rw [← List.filterMap_reverse]
  induction ops.reverse with
  | nil => rfl
  | cons p l ih =>
    rw [List.filterMap_cons, List.find?_cons]
    have hs := simSig_features h env p.2
    cases hf : pySimFeatures env.toPyEnv a p.2 with
    | error e =>
      rw [hf] at hs
      rw [hs]
      have : hasFeatures env.toPyEnv a p.2 = false := by unfold hasFeatures; rw [hf]
      simp only [Except.map, this, Bool.and_false]
      exact ih
    | ok toks =>
      rw [hf] at hs
      rw [hs]
      have : hasFeatures env.toPyEnv a p.2 = true := by unfold hasFeatures; rw [hf]
      simp only [Except.map, this, Bool.and_true, List.find?_cons]
      by_cases hid : p.1 = id
      · simp [hid, hf, Except.toOption]
      · simp only [hid, decide_false]
        exact ih

/-! ## C95 -/

/-- C95: after every history of insertions, `query(doc)` returns each id at most once, and exactly the ids whose document
has a signature at distance below `hamming_distance` from the signature of the query; signatures are majority votes
over the features. It raises exactly what the analyzer raises. -/
theorem C95_query {a : PySimArgs} {obj : PySimObject} (h : PySimObject.init a = .ok obj) (env : PySimEnv obj.width)
    (ops : List (Int64 × PyText)) (doc : PyText) (r : PyRun) :
    (∀ e, pySimFeatures env.toPyEnv a doc = .error e → (obj.index.run env ops).query env r doc false = .error e) ∧
    ∀ features, pySimFeatures env.toPyEnv a doc = .ok features →
      ∃ q l, MajoritySig env.hash features q ∧ (obj.index.run env ops).query env r doc false = .ok (.ids l) ∧ l.Nodup ∧
        ∀ id, id ∈ l ↔ ∃ d features' s, simDoc env.toPyEnv a ops id = some d ∧
          pySimFeatures env.toPyEnv a d = .ok features' ∧ MajoritySig env.hash features' s ∧
          ((diffBits q s).card : Int) < a.hammingDistance := by
  obtain ⟨hwd, h1, _⟩ := simInit_native h
  have hw : 2 ≤ obj.width := by rcases hwd with e | e <;> rw [e] <;> decide
  have hsig := simSig_features h env doc
  constructor
  · intro e he
    rw [he] at hsig
    obtain ⟨hcfg, _⟩ := PySimIndex.run_inner env ops obj.index
    rw [← hcfg.sig env] at hsig
    generalize obj.index.run env ops = st at hsig
    obtain ⟨an, na⟩ := st
    cases an with
    | callable f =>
      unfold PySimIndex.sig at hsig
      simp only at hsig
      cases hf : f doc with
      | error e' =>
        rw [hf] at hsig
        cases hsig
        exact (C69_dispatch_partial env r ⟨.callable f, na⟩).2.2.1 f rfl doc e hf
      | ok toks => rw [hf] at hsig; cases hsig
    | named n =>
      unfold PySimIndex.sig at hsig
      simp only at hsig
      rw [(C69_dispatch_partial env r ⟨.named n, na⟩).1 n rfl doc]
      unfold PySimHash.query
      cases hd : na.doc2signature env doc with
      | ok s' => rw [hd] at hsig; cases hsig
      | error e' =>
        rw [hd] at hsig
        cases hsig
        rfl
  · intro features hf
    rw [hf] at hsig
    obtain ⟨l, hl, hnd, hm⟩ := simQuery_exact h env ops doc _ hsig r
    refine ⟨_, l, majority_create hw features, hl, hnd, fun id => (hm id).trans ?_⟩
    rw [lastSig_accepted h env ops id]
    constructor
    · rintro ⟨sg, hsg, hd⟩
      cases hdoc : simDoc env.toPyEnv a ops id with
      | none => rw [hdoc] at hsg; cases hsg
      | some d =>
        rw [hdoc] at hsg
        cases hfd : pySimFeatures env.toPyEnv a d with
        | error e => rw [Option.bind_some, hfd] at hsg; cases hsg
        | ok toks =>
          rw [Option.bind_some, hfd] at hsg
          cases hsg
          exact ⟨d, toks, _, rfl, hfd, majority_create hw toks, hd⟩
    · rintro ⟨d, toks, s, hdoc, hfd, hs, hd⟩
      refine ⟨s, ?_, hd⟩
      rw [hdoc, Option.bind_some, hfd, majority_unique hs (majority_create hw toks)]
      rfl

/-- C95: `insert_document` returns exactly if the document has features, and otherwise raises what the analyzer raises
and changes no later answer. -/
theorem C95_insert {a : PySimArgs} {obj : PySimObject} (h : PySimObject.init a = .ok obj) (env : PySimEnv obj.width)
    (ops : List (Int64 × PyText)) (id : Int64) (doc : PyText) :
    (∀ features, pySimFeatures env.toPyEnv a doc = .ok features →
      ((obj.index.run env ops).insertDocument env id doc).2 = .ok ()) ∧
    ∀ e, pySimFeatures env.toPyEnv a doc = .error e →
      (obj.index.run env ops).insertDocument env id doc = (obj.index.run env ops, .error e) := by
  obtain ⟨hcfg, _⟩ := PySimIndex.run_inner env ops obj.index
  have hsig := simSig_features h env doc
  rw [← hcfg.sig env] at hsig
  constructor
  · intro features hf
    rw [hf] at hsig
    rcases PySimIndex.insertDocument_cases env (obj.index.run env ops) id doc with ⟨s, _, e⟩ | ⟨e, h1, _⟩
    · rw [e]
    · rw [hsig] at h1; cases h1
  · intro e hf
    rw [hf] at hsig
    rcases PySimIndex.insertDocument_cases env (obj.index.run env ops) id doc with ⟨s, h1, _⟩ | ⟨e', h1, h2⟩
    · rw [hsig] at h1; cases h1
    · rw [hsig] at h1
      cases h1
      exact h2

/-- The hypotheses of C95 are met: an object exists; "a, B" has the features `a` and `B`; the last document of 7 counts. -/
example : (∃ obj, PySimObject.init exSimArgs = .ok obj) ∧
    (∀ env : PyEnv, pySimFeatures env exSimArgs "a, B".toList = .ok [.str (toUtf8 "a".toList), .str (toUtf8 "B".toList)]) ∧
    ∀ env : PyEnv, simDoc env exSimArgs [(7, "x".toList), (8, "y".toList), (7, "a, B".toList)] 7 =
      some "a, B".toList := by
  refine ⟨?_, fun env => rfl, fun env => rfl⟩
  obtain ⟨idx, _, h⟩ := simNew_ok (w := 64) (nb := 6) (d := 5) (an := some "word") (lc := none) (by omega) (by omega)
    (by norm_num) (by norm_num)
  exact ⟨⟨64, .named (some "word"), _⟩, by
    rw [show exSimArgs = { exSimArgs with numBlocks := 6, hammingDistance := 5 } from rfl,
      simInit_default 6 5 (by omega), h]
    rfl⟩

/-! ## C96 -/

/-- Calls depend on the document only through its signature. -/
theorem sim_same_sig {env : PySimEnv w} {st : PySimIndex w} {d1 d2 : PyText} {s : BitVec w}
    (h1 : st.sig env d1 = .ok s) (h2 : st.sig env d2 = .ok s) :
    (∀ id, st.insertDocument env id d1 = st.insertDocument env id d2) ∧
      ∀ r, st.query env r d1 false = st.query env r d2 false := by
  obtain ⟨an, na⟩ := st
  unfold PySimIndex.sig at h1 h2
  cases an with
  | callable f =>
    simp only at h1 h2
    cases e1 : f d1 with
    | error e => rw [e1] at h1; cases h1
    | ok t1 =>
      cases e2 : f d2 with
      | error e => rw [e2] at h2; cases h2
      | ok t2 =>
        rw [e1] at h1
        rw [e2] at h2
        have e : PySimHash.createSignature env (pyTokens t1) = PySimHash.createSignature env (pyTokens t2) := by
          have a1 := Except.ok.inj h1
          have a2 := Except.ok.inj h2
          exact a1.trans a2.symm
        constructor
        · intro id
          unfold PySimIndex.insertDocument
          simp only [e1, e2]
          unfold PySimHash.insertTokens
          rw [e]
        · intro r
          rw [(C69_dispatch_partial env r ⟨.callable f, na⟩).2.1 f rfl d1 t1 e1,
            (C69_dispatch_partial env r ⟨.callable f, na⟩).2.1 f rfl d2 t2 e2]
          unfold PySimHash.queryTokens
          rw [e]
  | named n =>
    simp only at h1 h2
    have e : na.doc2signature env d1 = na.doc2signature env d2 := by
      cases e1 : na.doc2signature env d1 with
      | error e => rw [e1] at h1; cases h1
      | ok t1 =>
        cases e2 : na.doc2signature env d2 with
        | error e => rw [e2] at h2; cases h2
        | ok t2 =>
          rw [e1] at h1
          rw [e2] at h2
          cases h1
          cases h2
          rfl
    constructor
    · intro id
      unfold PySimIndex.insertDocument PySimHash.insertDocument
      simp only [e]
    · intro r
      rw [(C69_dispatch_partial env r ⟨.named n, na⟩).1 n rfl d1, (C69_dispatch_partial env r ⟨.named n, na⟩).1 n rfl d2]
      unfold PySimHash.query
      rw [e]

theorem countP_frequencies {T : Type} [DecidableEq T] {f1 f2 : List T} {m n : Nat}
    (hf : ∀ t, m * f1.count t = n * f2.count t) (p : T → Bool) : m * f1.countP p = n * f2.countP p := by
  have hp : (List.replicate m f1).flatten.Perm (List.replicate n f2).flatten := by
    rw [List.perm_iff_count]
    intro t
    rw [List.count_flatten, List.count_flatten, List.map_replicate, List.map_replicate, List.sum_replicate,
      List.sum_replicate]
    exact hf t
  have := hp.countP_eq p
  rwa [List.countP_flatten, List.countP_flatten, List.map_replicate, List.map_replicate, List.sum_replicate,
      List.sum_replicate] at this

/-- C96: two documents in which every feature has the same relative frequency can be exchanged for each other in every
call. -/
theorem C96_frequencies {a : PySimArgs} {obj : PySimObject} (h : PySimObject.init a = .ok obj) (env : PySimEnv obj.width)
    (ops : List (Int64 × PyText)) (d1 d2 : PyText) (f1 f2 : List PyTok) (h1 : pySimFeatures env.toPyEnv a d1 = .ok f1)
    (h2 : pySimFeatures env.toPyEnv a d2 = .ok f2) (m n : Nat) (hm : 0 < m) (hn : 0 < n)
    (hf : ∀ t, m * f1.count t = n * f2.count t) :
    (∀ id, (obj.index.run env ops).insertDocument env id d1 = (obj.index.run env ops).insertDocument env id d2) ∧
      ∀ r, (obj.index.run env ops).query env r d1 false = (obj.index.run env ops).query env r d2 false := by
  obtain ⟨hwd, _⟩ := simInit_native h
  have hw : 2 ≤ obj.width := by rcases hwd with e | e <;> rw [e] <;> decide
  obtain ⟨hcfg, _⟩ := PySimIndex.run_inner env ops obj.index
  have e : PySimHash.createSignature env f2 = PySimHash.createSignature env f1 := by
    refine majority_unique (majority_create hw f2) fun i hi => (majority_create hw f1 i hi).trans ?_
    have c1 := countP_frequencies hf fun t => (env.hash t).getLsbD i
    have c2 := countP_frequencies hf fun t => !(env.hash t).getLsbD i
    rw [← Nat.mul_lt_mul_left hm, c1, c2, Nat.mul_lt_mul_left hn]
  refine sim_same_sig (s := PySimHash.createSignature env f1) ?_ ?_
  · rw [hcfg.sig env, simSig_features h, h1]; rfl
  · rw [hcfg.sig env, simSig_features h, h2, ← e]; rfl

/-- C96: with the word analyzer, the order of the words, the punctuation and the spacing do not matter. -/
theorem C96_word_order {a : PySimArgs} {obj : PySimObject} (h : PySimObject.init a = .ok obj) (env : PySimEnv obj.width)
    (name : Option String) (hname : name ≠ some "char") (ha : a.analyzer = .named name) (hr : a.ngramRange = none)
    (ops : List (Int64 × PyText)) (d1 d2 : PyText) (ws1 ws2 : List PyText)
    (h1 : MaximalRuns (if a.lowercase = some true then env.lower d1 else d1) ws1)
    (h2 : MaximalRuns (if a.lowercase = some true then env.lower d2 else d2) ws2) (hp : ws1.Perm ws2) :
    (∀ id, (obj.index.run env ops).insertDocument env id d1 = (obj.index.run env ops).insertDocument env id d2) ∧
      ∀ r, (obj.index.run env ops).query env r d1 false = (obj.index.run env ops).query env r d2 false := by
  have hn : name.getD "word" ≠ "char" := by
    cases name with
    | none => decide
    | some n => intro hc; exact hname (by simpa using hc)
  have hpf : ∀ d ws, MaximalRuns (if a.lowercase = some true then env.lower d else d) ws →
      pySimFeatures env.toPyEnv a d = .ok (ws.map fun t => .str (toUtf8 t)) := by
    intro d ws hws
    rw [(C41_maximal_runs _ _).mp hws]
    unfold pySimFeatures
    rw [features_eq]
    rw [ha, hr]
    simp only [Option.map_none, TokenizerSpec.new, if_neg hn, tokenize]
    rfl
  refine C96_frequencies h env ops d1 d2 _ _ (hpf d1 ws1 h1) (hpf d2 ws2 h2) 1 1 (by omega) (by omega) fun t => ?_
  rw [(hp.map _).count_eq]

/-- The hypotheses of C96 are met: "b, a" and "a b" have the same words; "a b a b" has every word twice. The number of
repetitions matters for `SimHash`, unlike for `MinHash`: "a b" and "a a b" have different signatures under some hash. -/
example : MaximalRuns "b, a".toList ["b".toList, "a".toList] ∧ MaximalRuns "a b".toList ["a".toList, "b".toList] ∧
    ["b".toList, "a".toList].Perm ["a".toList, "b".toList] ∧
    (∀ t : PyText, 2 * ["a".toList, "b".toList].count t =
      1 * ["a".toList, "b".toList, "a".toList, "b".toList].count t) ∧
    simSignature 64 (["a", "b"].map fun t => if t = "a" then 0#64 else BitVec.allOnes 64) ≠
      simSignature 64 (["a", "a", "b"].map fun t => if t = "a" then 0#64 else BitVec.allOnes 64) := by
  refine ⟨(C41_maximal_runs _ _).mpr (by decide +kernel), (C41_maximal_runs _ _).mpr (by decide +kernel), by decide, fun t => ?_, by decide +kernel⟩
  rw [show ["a".toList, "b".toList, "a".toList, "b".toList] = ["a".toList, "b".toList] ++ ["a".toList, "b".toList] from rfl,
    List.count_append]
  omega

end Verif.Props
