import Verif.Props.PythonSimContent

/-! # Property C105: analyzers and `lowercase` of `SimHashStringIndex` -/
namespace Verif.Props
open Verif.Spec

variable {w : Nat}

/-- A call without distances in terms of the signature of the document. -/
theorem simQuery_sig (env : PySimEnv w) (st : PySimIndex w) (doc : PyText) (r : PyRun) :
    st.query env r doc false = (do
      let s ← st.sig env doc
      (fromRust (do
        let set ← st.native.inner.query s
        pure (r.o1.perm set.elems))).map .ids) := by
  obtain ⟨an, na⟩ := st
  cases an with
  | callable f =>
    unfold PySimIndex.sig
    simp only
    cases hf : f doc with
    | error e => simp [PySimIndex.query, getattr, simMethod, hf, bind, Except.bind, Except.map]
    | ok toks =>
      rw [(C69_dispatch_partial env r ⟨.callable f, na⟩).2.1 f rfl doc toks hf]
      rfl
  | named n =>
    rw [(C69_dispatch_partial env r ⟨.named n, na⟩).1 n rfl doc]
    unfold PySimIndex.sig PySimHash.query
    simp only
    cases na.doc2signature env doc with
    | error e => rfl
    | ok s => rfl

/-- Two objects of the same class, with analyzers that make the same features of `f d` and of `d`. -/
theorem sim_same_answers {a a' : PySimArgs} {i i' : PySimIndex w} (h : PySimObject.init a = .ok ⟨w, i⟩)
    (h' : PySimObject.init a' = .ok ⟨w, i'⟩) (e1 : a'.numBlocks = a.numBlocks)
    (e2 : a'.hammingDistance = a.hammingDistance) (env : PySimEnv w) (f : PyText → PyText)
    (hf : ∀ d, pySimFeatures env.toPyEnv a' (f d) = pySimFeatures env.toPyEnv a d) (ops : List (Int64 × PyText)) :
    (∀ doc r, (i.run env ops).query env r doc false =
      (i'.run env (ops.map fun p => (p.1, f p.2))).query env r (f doc) false) ∧
    ∀ id doc, ((i.run env ops).insertDocument env id doc).2 =
      ((i'.run env (ops.map fun p => (p.1, f p.2))).insertDocument env id (f doc)).2 := by
  have hsig : ∀ d, i'.sig env (f d) = i.sig env d := by
    intro d
    have k1 := simSig_features h env d
    have k2 := simSig_features h' env (f d)
    simp only at k1 k2
    rw [k1, k2, hf]
  have hin : i'.native.inner = i.native.inner := by
    have k1 := (simInit_ok h).2.2
    have k2 := (simInit_ok h').2.2
    simp only at k1 k2
    rw [e1, e2, k1] at k2
    exact (Except.ok.inj k2).symm
  have hacc : i'.accepted env (ops.map fun p => (p.1, f p.2)) = i.accepted env ops := by
    unfold PySimIndex.accepted
    rw [List.filterMap_map]
    congr 1
    funext p
    simp only [Function.comp, hsig]
  obtain ⟨c1, r1⟩ := PySimIndex.run_inner env ops i
  obtain ⟨c2, r2⟩ := PySimIndex.run_inner env (ops.map fun p => (p.1, f p.2)) i'
  rw [hacc, hin, ← r1] at r2
  constructor
  · intro doc r
    rw [simQuery_sig, simQuery_sig, c1.sig, c2.sig, hsig, r2]
  · intro id doc
    rcases PySimIndex.insertDocument_cases env (i.run env ops) id doc with ⟨s, k1, k2⟩ | ⟨e, k1, k2⟩ <;>
      rcases PySimIndex.insertDocument_cases env (i'.run env (ops.map fun p => (p.1, f p.2))) id (f doc) with
        ⟨s', k3, k4⟩ | ⟨e', k3, k4⟩ <;> rw [k2, k4]
    · rw [c1.sig] at k1; rw [c2.sig, hsig, k1] at k3; cases k3
    · rw [c1.sig] at k1; rw [c2.sig, hsig, k1] at k3; cases k3
    · rw [c1.sig] at k1; rw [c2.sig, hsig, k1] at k3; cases k3; rfl

/-- C105: with a built-in analyzer, `lowercase=True` behaves like `lowercase=False` fed with lowercased documents and
queries: same answers, same exceptions. -/
theorem C105_lowercase (a : PySimArgs) (n : Option String) (hn : a.analyzer = .named n) (i i' : PySimIndex w)
    (h : PySimObject.init { a with lowercase := some true } = .ok ⟨w, i⟩)
    (h' : PySimObject.init { a with lowercase := some false } = .ok ⟨w, i'⟩) (env : PySimEnv w)
    (ops : List (Int64 × PyText)) :
    (∀ doc r, (i.run env ops).query env r doc false =
      (i'.run env (ops.map fun p => (p.1, env.lower p.2))).query env r (env.lower doc) false) ∧
    ∀ id doc, ((i.run env ops).insertDocument env id doc).2 =
      ((i'.run env (ops.map fun p => (p.1, env.lower p.2))).insertDocument env id (env.lower doc)).2 := by
  refine sim_same_answers h h' rfl rfl env env.lower (fun d => ?_) ops
  unfold pySimFeatures features
  simp only [hn, reduceCtorEq, if_false, if_true, Option.some.injEq, Bool.false_eq_true]

/-- C105: with a callable analyzer `lowercase` has no effect. -/
theorem C105_callable_ignores_lowercase (a : PySimArgs) (g : PyText → Except PyExc (List PyText))
    (hn : a.analyzer = .callable g) (lc lc' : Option Bool) (i i' : PySimIndex w)
    (h : PySimObject.init { a with lowercase := lc } = .ok ⟨w, i⟩)
    (h' : PySimObject.init { a with lowercase := lc' } = .ok ⟨w, i'⟩) (env : PySimEnv w)
    (ops : List (Int64 × PyText)) :
    (∀ doc r, (i.run env ops).query env r doc false = (i'.run env ops).query env r doc false) ∧
    ∀ id doc, ((i.run env ops).insertDocument env id doc).2 = ((i'.run env ops).insertDocument env id doc).2 := by
  have := sim_same_answers h h' rfl rfl env (fun d => d) (fun d => by
    unfold pySimFeatures features
    simp only [hn]) ops
  simpa using this

/-- C105: a callable analyzer that splits at whitespace behaves like the word analyzer without `ngram_range`, also if
both lowercase. -/
theorem C105_callable_word (a : PySimArgs) (hr : a.ngramRange = none) (env : PySimEnv w)
    (g : PyText → List PyText)
    (hg : ∀ d, MaximalRuns (if a.lowercase = some true then env.lower d else d) (g d)) (i i' : PySimIndex w)
    (h : PySimObject.init { a with analyzer := .named (some "word") } = .ok ⟨w, i⟩)
    (h' : PySimObject.init { a with analyzer := .callable fun d => .ok (g d) } = .ok ⟨w, i'⟩)
    (ops : List (Int64 × PyText)) :
    (∀ doc r, (i.run env ops).query env r doc false = (i'.run env ops).query env r doc false) ∧
    ∀ id doc, ((i.run env ops).insertDocument env id doc).2 = ((i'.run env ops).insertDocument env id doc).2 := by
  have := sim_same_answers h h' rfl rfl env (fun d => d) (fun d => by
    have hw := (C41_maximal_runs _ _).mp (hg d)
    unfold pySimFeatures features
    simp only [hr, Option.map_none, Option.some.injEq, (by decide : ¬ "word" = "char"), if_false]
    rw [wordsOf_eq, ← hw]) ops
  simpa using this

/-- The hypotheses of C105 are met: all these constructor calls succeed with the same class, and every text has words. -/
example (lc : Option Bool) (g : PyText → Except PyExc (List PyText)) :
    (∃ i : PySimIndex 64, PySimObject.init { exSimArgs with lowercase := lc } = .ok ⟨64, i⟩) ∧
    (∃ i : PySimIndex 64, PySimObject.init { exSimArgs with lowercase := lc, analyzer := .callable g } = .ok ⟨64, i⟩) ∧
    ∀ text, MaximalRuns text (whitespaceSplit text) := by
  refine ⟨?_, ?_, fun text => (C41_maximal_runs _ _).mpr rfl⟩
  · obtain ⟨idx, _, e⟩ := simNew_ok (w := 64) (nb := 6) (d := 5) (an := some "word") (lc := lc) (by omega) (by omega)
      (by norm_num) (by norm_num)
    refine ⟨⟨.named (some "word"), ⟨idx, TokenizerSpec.new ((some "word").getD "word") none, lc.getD false⟩⟩, ?_⟩
    unfold PySimObject.init
    simp only [exSimArgs, Analyzer.unknown, Analyzer.nativeName]
    rw [e]
    rfl
  · obtain ⟨idx, _, e⟩ := simNew_ok (w := 64) (nb := 6) (d := 5) (an := some "word") (lc := lc) (by omega) (by omega)
      (by norm_num) (by norm_num)
    refine ⟨⟨.callable g, ⟨idx, TokenizerSpec.new ((some "word").getD "word") none, lc.getD false⟩⟩, ?_⟩
    unfold PySimObject.init
    simp only [exSimArgs, Analyzer.unknown, Analyzer.nativeName]
    rw [e]
    rfl

end Verif.Props
