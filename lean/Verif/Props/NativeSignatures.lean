import Verif.Props.PythonNative

/-! # Property C135: the signature methods of the native Python classes -/
namespace Verif.Props
open Verif.Spec

section
variable {T C : Type} [DecidableEq T] [PyHasher T] [LawfulPyHasher T] [IdContainer C Int64]
  [LawfulIdContainer C Int64]

/-- C135, MinHash: `bulk_hash_docs` returns, in order, the signatures of the features of the documents, at any time. -/
theorem C135_bulk_hash_docs (env : PyMinEnv) (ah : List T → UInt64) (t : Fl) (b r : Nat) (nh : Option Int)
    (an : Option String) (lc : Option Bool) (range : Option (Int × Int)) (st : PyMinHash T C)
    (h : PyMinHash.new env ah t (some b) (some r) nh an lc range = .ok st) (ops : List NatMinOp)
    (F : PyText → List PyTok) (hF : ∀ d ∈ ops.flatMap natDocs,
      features env.toPyEnv (.named an) lc (range.map fun p => (p.1.toNat, p.2.toNat)) d = .ok (F d))
    (docs : List PyText) (hdocs : ∀ d ∈ docs,
      features env.toPyEnv (.named an) lc (range.map fun p => (p.1.toNat, p.2.toNat)) d = .ok (F d)) (sched : List Nat) :
    ∃ sigs, (st.run env ops).bulkHashDocs env docs sched = .ok sigs ∧
      List.Forall₂ (fun d s => NatSig env (b * r) (F d) s ∧ s.length = b * r) docs sigs := by
  obtain ⟨S, hS, hl, _, _, hd⟩ := nat_content h hF
  refine ⟨docs.map fun d => S (F d), PyMinIndex.bulkHashDocs_eq _ (fun d hdm => hd d _ (hdocs d hdm)) sched, ?_⟩
  rw [List.forall₂_map_right_iff]
  exact List.forall₂_same.mpr fun d _ => ⟨hS _, hl _⟩

/-- C135, MinHash: the similarity that `query_return_similarity` reports for an id is the similarity of the two
signatures that `bulk_hash_docs` returns for the document of the id and the query. -/
theorem C135_predicts (env : PyMinEnv) (ah : List T → UInt64) (t : Fl) (b r : Nat) (nh : Option Int)
    (an : Option String) (lc : Option Bool) (range : Option (Int × Int)) (st : PyMinHash T C)
    (h : PyMinHash.new env ah t (some b) (some r) nh an lc range = .ok st) (ops : List NatMinOp)
    (F : PyText → List PyTok) (hF : ∀ d ∈ ops.flatMap natDocs,
      features env.toPyEnv (.named an) lc (range.map fun p => (p.1.toNat, p.2.toNat)) d = .ok (F d))
    (id : Int64) (d q : PyText) (fd fq : List PyTok) (hlive : natLive F ops id = some fd)
    (hd : features env.toPyEnv (.named an) lc (range.map fun p => (p.1.toNat, p.2.toNat)) d = .ok fd)
    (hq : features env.toPyEnv (.named an) lc (range.map fun p => (p.1.toNat, p.2.toNat)) q = .ok fq)
    (o1 o2 : Order) (l : List (Int64 × Fl)) (hl : (st.run env ops).queryReturnSimilarity env o1 o2 q = .ok l)
    (v : Fl) (hv : (id, v) ∈ l) (sched : List Nat) :
    ∃ s sq, (st.run env ops).bulkHashDocs env [d, q] sched = .ok [s, sq] ∧ minhashSimilarity s sq = .ok v := by
  obtain ⟨S, hS, hlen, hrun, _, hh⟩ := nat_content h hF
  have e1 := hh d fd hd
  have e2 := hh q fq hq
  refine ⟨S fd, S fq, ?_, ?_⟩
  · unfold PyMinHash.bulkHashDocs
    rw [parMap_eq_map]
    simp only [List.map_cons, List.map_nil, e1, e2]
    rfl
  · rw [PyMinHash.queryReturnSimilarity_eq, e2] at hl
    have hl' : (After C b r t ah (ops.flatMap (natCore S F))).queryOwnedReturnSimilarity o1 o2 (S fq) = .ok l := by
      rw [hrun] at hl; exact hl
    obtain ⟨_, _, _, k, _⟩ := C23_sorted_query b r t ah _ (S fq) (hlen fq) o1 o2 l hl'
    obtain ⟨s, k1, k2⟩ := k _ hv
    rw [live_natCore hlen, hlive] at k1
    cases k1
    exact k2

/-- C135, MinHash: `tokenize_and_minhash` returns the signature of the features of the text as it is: the argument
`lowercase` has no effect on it. -/
theorem C135_tokenize_and_minhash (env : PyMinEnv) (ah : List T → UInt64) (t : Fl) (b r : Nat) (nh : Option Int)
    (an : Option String) (lc : Option Bool) (range : Option (Int × Int)) (st : PyMinHash T C)
    (h : PyMinHash.new env ah t (some b) (some r) nh an lc range = .ok st) (ops : List NatMinOp)
    (F : PyText → List PyTok) (hF : ∀ d ∈ ops.flatMap natDocs,
      features env.toPyEnv (.named an) lc (range.map fun p => (p.1.toNat, p.2.toNat)) d = .ok (F d))
    (d : PyText) (f : List PyTok)
    (hd : features env.toPyEnv (.named an) (some false) (range.map fun p => (p.1.toNat, p.2.toNat)) d = .ok f) :
    ∃ s, (st.run env ops).tokenizeAndMinhash env d = .ok s ∧ NatSig env (b * r) f s := by
  obtain ⟨S, hS, _, hrun, hm, _⟩ := nat_content h hF
  obtain ⟨b', r', hst, _⟩ := natNew_build h
  refine ⟨S f, ?_, hS f⟩
  have hm' : (st.run env ops).minHash = PyHasher.new env.rng (b * r) env.hash := by rw [hrun]; exact hm
  have ht : (st.run env ops).tokenizer = TokenizerSpec.new (an.getD "word") (range.map fun p => (p.1.toNat, p.2.toNat)) := by
    rw [hrun, hst]; rfl
  unfold PyMinHash.tokenizeAndMinhash
  rw [features_eq] at hd
  simp only [Option.some.injEq, Bool.false_eq_true, if_false] at hd
  rw [hm', ht]
  cases hk : tokenize env.toPyEnv (TokenizerSpec.new (an.getD "word") (range.map fun p => (p.1.toNat, p.2.toNat))) d with
  | error e => rw [hk] at hd; cases hd
  | ok toks =>
    rw [hk] at hd
    cases hd
    exact hS f

/-- C135, the part that holds of `tokenize_and_minhash`: without `lowercase`, or for a text that lowercasing leaves as it
is, it returns the signature that `bulk_hash_docs` returns and that is stored and compared. Missing: other texts with
`lowercase=True` (`C135_single_false`). -/
theorem C135_single_partial (env : PyMinEnv) (ah : List T → UInt64) (t : Fl) (b r : Nat) (nh : Option Int)
    (an : Option String) (lc : Option Bool) (range : Option (Int × Int)) (st : PyMinHash T C)
    (h : PyMinHash.new env ah t (some b) (some r) nh an lc range = .ok st) (ops : List NatMinOp)
    (F : PyText → List PyTok) (hF : ∀ d ∈ ops.flatMap natDocs,
      features env.toPyEnv (.named an) lc (range.map fun p => (p.1.toNat, p.2.toNat)) d = .ok (F d))
    (d : PyText) (f : List PyTok)
    (hd : features env.toPyEnv (.named an) lc (range.map fun p => (p.1.toNat, p.2.toNat)) d = .ok f)
    (hlow : lc ≠ some true ∨ env.lower d = d) (sched : List Nat) :
    ∃ s, (st.run env ops).tokenizeAndMinhash env d = .ok s ∧ (st.run env ops).bulkHashDocs env [d] sched = .ok [s] ∧
      NatSig env (b * r) f s := by
  have hd' : features env.toPyEnv (.named an) (some false) (range.map fun p => (p.1.toNat, p.2.toNat)) d = .ok f := by
    rw [← hd, features_eq, features_eq]
    rcases hlow with hlow | hlow
    · simp [hlow]
    · simp [hlow]
  obtain ⟨s, e1, e2⟩ := C135_tokenize_and_minhash env ah t b r nh an lc range st h ops F hF d f hd'
  obtain ⟨S, hS, _, hrun, _, hh⟩ := nat_content h hF
  refine ⟨s, e1, ?_, e2⟩
  have : s = S f := Except.ok.inj (e2.symm.trans (hS f))
  unfold PyMinHash.bulkHashDocs
  rw [parMap_eq_map]
  simp only [List.map_cons, List.map_nil, hh d f hd, this]
  rfl

end

/-- C135 is false of `tokenize_and_minhash` with `lowercase=True`: for the text "A" it returns a signature other than
the one that is stored and compared. -/
theorem C135_single_false : ∃ (env : PyMinEnv) (st : PyMinHash UInt32 (HashSetContainer Int64)) (d : PyText)
    (s s' : List UInt32), PyMinHash.new env (fun _ => 0) (.fin (1 / 2)) (some 1) (some 1) none (some "word") (some true)
      none = .ok st ∧
    st.tokenizeAndMinhash env d = .ok s ∧ st.bulkHashDocs env [d] [] = .ok [s'] ∧ s ≠ s' ∧
    minhashSimilarity s s' = .ok (.fin 0) := by
  refine ⟨exPyMinEnv, PyMinHash.build exPyMinEnv (fun _ => 0) (.fin (1 / 2)) 1 1 (some "word") (some true) none, "A".toList,
    [1132], [1260], rfl, by decide +kernel, by decide +kernel, by decide, by decide +kernel⟩

/-- The hypotheses of the theorems of C135 are met: a history of documents and tokens, and a query with features. -/
example : (∃ st : PyMinHash UInt32 (HashSetContainer Int64), PyMinHash.new exPyMinEnv (fun _ => 0) (.fin (1 / 2))
      (some ((4 : Nat) : Int)) (some ((2 : Nat) : Int)) none (some "word") (some true) none = .ok st) ∧
    features exPyMinEnv.toPyEnv (.named (some "word")) (some true) none "a B".toList =
      .ok (tokenFeatures ["a".toList, "b".toList]) ∧
    features exPyMinEnv.toPyEnv (.named (some "word")) (some false) none "a B".toList =
      .ok (tokenFeatures ["a".toList, "B".toList]) ∧
    exPyMinEnv.lower "a b".toList = "a b".toList ∧
    natLive (fun _ => tokenFeatures ["a".toList, "b".toList])
      [.insertDocument 1 "a B".toList, .insertTokens 2 ["x".toList]] 1 = some (tokenFeatures ["a".toList, "b".toList]) := by
  exact ⟨⟨_, rfl⟩, by decide +kernel, by decide +kernel, by decide +kernel, by decide +kernel⟩

section
variable {w : Nat}

/-- C135, SimHash: `doc2signature` and `par_bulk_doc2signatures` return the majority signatures of the features of the
documents, at any time. -/
theorem C135_simhash (hw : 2 ≤ w) (env : PySimEnv w) (nb dist : Int) (an : Option String) (lc : Option Bool)
    (range : Option (Int × Int)) (st : PySimHash w) (h : PySimHash.new w nb dist an lc range = .ok st)
    (ops : List NatSimOp) (F : PyText → List PyTok) (hF : ∀ d ∈ ops.flatMap natSimDocs,
      features env.toPyEnv (.named an) lc (range.map fun p => (p.1.toNat, p.2.toNat)) d = .ok (F d))
    (docs : List PyText) (hdocs : ∀ d ∈ docs,
      features env.toPyEnv (.named an) lc (range.map fun p => (p.1.toNat, p.2.toNat)) d = .ok (F d)) (sched : List Nat) :
    ∃ sigs, (st.run env ops).parBulkDoc2signatures env docs sched = .ok sigs ∧
      List.Forall₂ (fun d s => (st.run env ops).doc2signature env d = .ok s ∧ MajoritySig env.hash (F d) s) docs sigs := by
  obtain ⟨_, h2, h3, _⟩ := natSimNew h
  obtain ⟨hcfg, _⟩ := natSim_run (F := F) ops (st := st) fun d hd => natDoc2signature h2 h3 (hF d hd)
  have e : ∀ d ∈ docs, (st.run env ops).doc2signature env d = .ok (PySimHash.createSignature env (F d)) := by
    intro d hd
    rw [hcfg.doc2signature]
    exact natDoc2signature h2 h3 (hdocs d hd)
  refine ⟨_, PySimHash.mapM_doc2signature env (fun d => PySimHash.createSignature env (F d)) docs _ e sched, ?_⟩
  rw [List.forall₂_map_right_iff]
  exact List.forall₂_same.mpr fun d hd => ⟨e d hd, majority_create hw _⟩

/-- C135, SimHash: `tokenize_and_simhash` returns the majority signature of the features of the text as it is. -/
theorem C135_tokenize_and_simhash (hw : 2 ≤ w) (env : PySimEnv w) (nb dist : Int) (an : Option String) (lc : Option Bool)
    (range : Option (Int × Int)) (st : PySimHash w) (h : PySimHash.new w nb dist an lc range = .ok st)
    (ops : List NatSimOp) (F : PyText → List PyTok) (hF : ∀ d ∈ ops.flatMap natSimDocs,
      features env.toPyEnv (.named an) lc (range.map fun p => (p.1.toNat, p.2.toNat)) d = .ok (F d))
    (d : PyText) (f : List PyTok)
    (hd : features env.toPyEnv (.named an) (some false) (range.map fun p => (p.1.toNat, p.2.toNat)) d = .ok f) :
    ∃ s, (st.run env ops).tokenizeAndSimhash env d = .ok s ∧ MajoritySig env.hash f s := by
  obtain ⟨_, h2, h3, _⟩ := natSimNew h
  obtain ⟨hcfg, _⟩ := natSim_run (F := F) ops (st := st) fun d hd => natDoc2signature h2 h3 (hF d hd)
  refine ⟨PySimHash.createSignature env f, ?_, majority_create hw _⟩
  have h2' : (st.run env ops).tokenizer = _ := hcfg.1.trans h2
  unfold PySimHash.tokenizeAndSimhash
  rw [h2']
  rw [features_eq] at hd
  simp only [Option.some.injEq, Bool.false_eq_true, if_false] at hd
  cases hk : tokenize env.toPyEnv (TokenizerSpec.new (an.getD "word") (range.map fun p => (p.1.toNat, p.2.toNat))) d with
  | error e => rw [hk] at hd; cases hd
  | ok toks =>
    rw [hk] at hd
    cases hd
    rfl

/-- The hypotheses of the two theorems are met. -/
example (env : PySimEnv 64) (F : PyText → List PyTok) :
    (∃ st : PySimHash 64, PySimHash.new 64 6 5 (some "word") (some true) none = .ok st) ∧
    features env.toPyEnv (.named (some "word")) (some false) none "a B".toList =
      .ok (tokenFeatures ["a".toList, "B".toList]) ∧
    natSimLive F exNatSimOps 1 = some (tokenFeatures ["q".toList]) := by
  obtain ⟨i1, _, e1⟩ := simNew_ok (w := 64) (nb := 6) (d := 5) (an := some "word") (lc := some true) (by omega) (by omega)
    (by decide) (by decide)
  exact ⟨⟨_, e1⟩, by rfl, rfl⟩

end

end Verif.Props
