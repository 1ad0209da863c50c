import Verif.Lemmas.PyNative
import Verif.Props.PythonSimContent

/-! # Properties C103, C104: the native Python classes -/
namespace Verif.Props
open Verif.Spec

section
variable {T C : Type} [DecidableEq T] [PyHasher T] [LawfulPyHasher T] [IdContainer C Int64]
  [LawfulIdContainer C Int64]

omit [DecidableEq T] [LawfulPyHasher T] [IdContainer C Int64] [LawfulIdContainer C Int64] in
/-- What the constructor of a native MinHash class returns. -/
theorem natNew_build {env : PyMinEnv} {ah : List T → UInt64} {t : Fl} {nb bw nh : Option Int} {an : Option String}
    {lc : Option Bool} {range : Option (Int × Int)} {st : PyMinHash T C}
    (h : PyMinHash.new env ah t nb bw nh an lc range = .ok st) :
    ∃ b r, st = PyMinHash.build env ah t b r an lc (range.map fun p => (p.1.toNat, p.2.toNat)) ∧
      ∀ x y : Nat, nb = some (x : Int) → bw = some (y : Int) → b = x ∧ r = y := by
  unfold PyMinHash.new at h
  have hu : ∀ (z : Option Int) (v : Option Nat), pyOptUsize z = .ok v → v = z.map Int.toNat := by
    intro z v hz
    cases z with
    | none => cases hz; rfl
    | some n =>
      change (pyUsize n).map some = _ at hz
      unfold pyUsize at hz
      split_ifs at hz <;> cases hz
      rfl
  have hr : ∀ v, pyOptRange range = .ok v → v = range.map fun p => (p.1.toNat, p.2.toNat) := by
    intro v hv
    cases range with
    | none => cases hv; rfl
    | some p =>
      change (do
        let a ← pyUsize p.1
        let b ← pyUsize p.2
        pure (some (a, b))) = _ at hv
      unfold pyUsize at hv
      split_ifs at hv <;> cases hv
      rfl
  cases h1 : pyOptUsize nb with
  | error e => rw [h1] at h; cases h
  | ok nb' =>
    cases h2 : pyOptUsize bw with
    | error e => rw [h1, h2] at h; cases h
    | ok bw' =>
      cases h3 : pyOptUsize nh with
      | error e => rw [h1, h2, h3] at h; cases h
      | ok nh' =>
        cases h4 : pyOptRange range with
        | error e => rw [h1, h2, h3, h4] at h; cases h
        | ok range' =>
          rw [h1, h2, h3, h4] at h
          simp only [bind, Except.bind] at h
          rw [← hr _ h4]
          have e1 := hu _ _ h1
          have e2 := hu _ _ h2
          have hxy : ∀ b r, nb' = some b → bw' = some r → ∀ x y : Nat, nb = some (x : Int) → bw = some (y : Int) →
              b = x ∧ r = y := by
            intro b r hb hr x y hx hy
            rw [e1, hx] at hb
            rw [e2, hy] at hr
            simp at hb hr
            exact ⟨hb.symm, hr.symm⟩
          have hno : nb' = none ∨ bw' = none → ∀ (b r x y : Nat), nb = some (x : Int) → bw = some (y : Int) →
              b = x ∧ r = y := by
            intro hn b r x y hx hy
            rw [hx] at e1; rw [hy] at e2
            rcases hn with hn | hn
            · rw [e1] at hn; cases hn
            · rw [e2] at hn; cases hn
          cases nb' with
          | some b =>
            cases bw' with
            | some r =>
              cases h
              exact ⟨b, r, rfl, hxy b r rfl rfl⟩
            | none =>
              cases nh' with
              | none => cases h
              | some n =>
                simp only at h
                split at h
                · rename_i b r _
                  cases h
                  exact ⟨b, r, rfl, hno (.inr rfl) b r⟩
                · cases h
          | none =>
            cases nh' with
            | none => cases h
            | some n =>
              simp only at h
              split at h
              · rename_i b r _
                cases h
                exact ⟨b, r, rfl, hno (.inl rfl) b r⟩
              · cases h

omit [DecidableEq T] [LawfulPyHasher T] [IdContainer C Int64] [LawfulIdContainer C Int64] in
/-- The signature of a document is the signature of its features. -/
theorem natHashDoc {env : PyMinEnv} {ah : List T → UInt64} {t : Fl} {b r : Nat} {an : Option String} {lc : Option Bool}
    {range : Option (Nat × Nat)} {S : List PyTok → List T}
    (hS : ∀ f, PyHasher.create (PyHasher.new env.rng (b * r) env.hash : PyHasher.Hasher T) f = .ok (S f))
    {d : PyText} {f : List PyTok} (hf : features env.toPyEnv (.named an) lc range d = .ok f) :
    (PyMinHash.build env ah t b r an lc range : PyMinHash T C).hashDoc env d = .ok (S f) := by
  rw [features_eq] at hf
  have hl : (lc.getD false = true) ↔ lc = some true := by cases lc <;> simp
  have key : ∀ text, fromRust (tokenize env.toPyEnv (TokenizerSpec.new (an.getD "word") range) text) = .ok f →
      (PyMinHash.build env ah t b r an lc range : PyMinHash T C).tokenizeAndMinhash env text = .ok (S f) := by
    intro text ht
    unfold PyMinHash.tokenizeAndMinhash PyMinHash.build
    simp only
    cases hk : tokenize env.toPyEnv (TokenizerSpec.new (an.getD "word") range) text with
    | error e => rw [hk] at ht; cases ht
    | ok toks =>
      rw [hk] at ht
      cases ht
      exact hS f
  unfold PyMinHash.hashDoc
  simp only at hf
  split_ifs at hf with h1
  · rw [if_pos (show (PyMinHash.build env ah t b r an lc range : PyMinHash T C).lowercase = true from hl.mpr h1)]
    exact key _ hf
  · rw [if_neg (show ¬ (PyMinHash.build env ah t b r an lc range : PyMinHash T C).lowercase = true from
      fun e => h1 (hl.mp e))]
    exact key _ hf

/-- The words are the features under the word analyzer. -/
theorem features_words {env : PyEnv} {an : Option String} (ha : an ≠ some "char") {lc : Option Bool} {d : PyText}
    {ws : List PyText} (hw : MaximalRuns (if lc = some true then env.lower d else d) ws) :
    features env (.named an) lc none d = .ok (tokenFeatures ws) := by
  rw [C41_maximal_runs] at hw
  unfold features
  simp only [ha, if_false]
  rw [wordsOf_eq, ← hw]
  rfl

omit [LawfulPyHasher T] [LawfulIdContainer C Int64] in
theorem natQueries {env : PyMinEnv} {na : PyMinHash T C} (o1 o2 : Order) (d : PyText) (ts : List PyText) (s : List T)
    (h1 : na.hashDoc env d = .ok s) (h2 : PyHasher.create na.minHash (pyTokens ts) = .ok s) :
    na.query env o1 d = na.queryTokens o1 ts ∧
      na.queryReturnSimilarity env o1 o2 d = na.queryTokensReturnSimilarity o1 o2 ts := by
  rw [PyMinHash.query_eq, PyMinHash.queryReturnSimilarity_eq, h1]
  unfold PyMinHash.queryTokens PyMinHash.queryTokensReturnSimilarity
  rw [h2]
  exact ⟨rfl, rfl⟩

/-- C103, MinHash: with the word analyzer (any name but `char`, no `ngram_range`), after every history of document and
token calls, a call with documents does what the call with their words does, and it does not panic. -/
theorem C103_minhash_insert (env : PyMinEnv) (ah : List T → UInt64) (t : Fl) (nb bw nh : Option Int)
    (an : Option String) (lc : Option Bool) (st : PyMinHash T C)
    (h : PyMinHash.new env ah t nb bw nh an lc none = .ok st) (ha : an ≠ some "char") (W : PyText → List PyText)
    (hW : ∀ d, MaximalRuns (if lc = some true then env.lower d else d) (W d)) (ops : List NatMinOp) (op : NatMinOp) :
    (st.run env ops).step env op = (st.run env ops).step env (asTokens W op) ∧
      ((st.run env ops).step env op).2 = .ok () ∧ st.run env ops = st.run env (ops.map (asTokens W)) := by
  obtain ⟨b, r, hst, _⟩ := natNew_build h
  rw [Option.map_none] at hst
  subst hst
  have hc := fun f => LawfulPyHasher.create_new (T := T) env.rng (b * r) env.hash f
  choose S hS _ using hc
  let F : PyText → List PyTok := fun d => tokenFeatures (W d)
  have hF : ∀ d, (PyMinHash.build env ah t b r an lc none : PyMinHash T C).hashDoc env d = .ok (S (F d)) := fun d =>
    natHashDoc hS (features_words ha (hW d))
  have hcore : ∀ op, natCore S F (asTokens W op) = natCore S F op := by
    intro op
    cases op with
    | parBulkInsertDocs ids docs s1 s2 =>
      simp only [asTokens, natCore, natInserts, List.map_map]
      rfl
    | _ => rfl
  have hrun := fun ops => nat_run hS (F := F) ops (ops := []) (na := PyMinHash.build env ah t b r an lc none) rfl rfl
    fun d _ => hF d
  have hstep := fun op => nat_step hS (F := F) (ops := [] ++ ops.flatMap (natCore S F))
    (na := (PyMinHash.build env ah t b r an lc none : PyMinHash T C).run env ops) (t := t) (ah := ah)
    (by rw [hrun ops]) (by rw [hrun ops]; rfl) op (by
      intro d _
      rw [← hF d, hrun ops]
      exact PyMinIndex.hashDoc_cfg rfl rfl rfl env d)
  refine ⟨?_, ?_, ?_⟩
  · rw [hstep op, hstep (asTokens W op), hcore]
  · rw [hstep op]
  · rw [hrun ops, hrun (ops.map (asTokens W)), List.flatMap_map]
    simp only [hcore]

/-- C103, MinHash: so do the queries, and the batch queries. -/
theorem C103_minhash_query (env : PyMinEnv) (ah : List T → UInt64) (t : Fl) (nb bw nh : Option Int)
    (an : Option String) (lc : Option Bool) (st : PyMinHash T C)
    (h : PyMinHash.new env ah t nb bw nh an lc none = .ok st) (ha : an ≠ some "char") (W : PyText → List PyText)
    (hW : ∀ d, MaximalRuns (if lc = some true then env.lower d else d) (W d)) (ops : List NatMinOp) (o1 o2 : Order) :
    (∀ d, (st.run env ops).query env o1 d = (st.run env ops).queryTokens o1 (W d) ∧
      (st.run env ops).queryReturnSimilarity env o1 o2 d = (st.run env ops).queryTokensReturnSimilarity o1 o2 (W d)) ∧
    ∀ docs s1 s2 s1' s2',
      (st.run env ops).parBulkQuery env o1 docs s1 s2 = (st.run env ops).parBulkQueryTokens o1 (docs.map W) s1' s2' ∧
      (st.run env ops).parBulkQueryReturnSimilarity env o1 o2 docs s1 s2 =
        (st.run env ops).parBulkQueryTokensReturnSimilarity o1 o2 (docs.map W) s1' s2' := by
  obtain ⟨b, r, hst, _⟩ := natNew_build h
  rw [Option.map_none] at hst
  subst hst
  have hc := fun f => LawfulPyHasher.create_new (T := T) env.rng (b * r) env.hash f
  choose S hS _ using hc
  let F : PyText → List PyTok := fun d => tokenFeatures (W d)
  have hF : ∀ d, (PyMinHash.build env ah t b r an lc none : PyMinHash T C).hashDoc env d = .ok (S (F d)) := fun d =>
    natHashDoc hS (features_words ha (hW d))
  have hrun := nat_run hS (F := F) ops (ops := []) (na := PyMinHash.build env ah t b r an lc none) (t := t) (ah := ah)
    (C := C) rfl rfl fun d _ => hF d
  have hd : ∀ d, ((PyMinHash.build env ah t b r an lc none : PyMinHash T C).run env ops).hashDoc env d =
      .ok (S (F d)) := by
    intro d
    rw [← hF d, hrun]
    exact PyMinIndex.hashDoc_cfg rfl rfl rfl env d
  have hm : ((PyMinHash.build env ah t b r an lc none : PyMinHash T C).run env ops).minHash =
      PyHasher.new env.rng (b * r) env.hash := by rw [hrun]; rfl
  have ht : ∀ ts, PyHasher.create ((PyMinHash.build env ah t b r an lc none : PyMinHash T C).run env ops).minHash
      (pyTokens ts) = .ok (S (tokenFeatures ts)) := by
    intro ts
    rw [hm]
    exact hS _
  clear hrun
  generalize (PyMinHash.build env ah t b r an lc none : PyMinHash T C).run env ops = na at hd hm ht
  refine ⟨fun d => natQueries o1 o2 d (W d) _ (hd d) (ht (W d)), fun docs s1 s2 s1' s2' => ?_⟩
  unfold PyMinHash.parBulkQuery PyMinHash.parBulkQueryTokens PyMinHash.parBulkQueryReturnSimilarity
    PyMinHash.parBulkQueryTokensReturnSimilarity
  rw [PyMinIndex.bulkHashDocs_eq (fun d => S (F d)) (fun d _ => hd d),
    bulkCreate_tokens _ (fun ts => S (tokenFeatures ts)) ht, List.map_map]
  simp only [bind, Except.bind]
  unfold MinHashIndex.parBulkQuery MinHashIndex.parBulkQueryReturnSimilarity
  simp only [parMap_eq_map]
  exact ⟨rfl, rfl⟩

/-! ## C104 -/

/-- `s` is the signature of length `n` of the features `f`. -/
def NatSig (env : PyMinEnv) (n : Nat) (f : List PyTok) (s : List T) : Prop :=
  PyHasher.create (PyHasher.new env.rng n env.hash) f = .ok s

/-- The state after a history whose documents have features. -/
theorem nat_content {env : PyMinEnv} {ah : List T → UInt64} {t : Fl} {b r : Nat} {nh : Option Int}
    {an : Option String} {lc : Option Bool} {range : Option (Int × Int)} {st : PyMinHash T C}
    (h : PyMinHash.new env ah t (some b) (some r) nh an lc range = .ok st) {ops : List NatMinOp}
    {F : PyText → List PyTok} (hF : ∀ d ∈ ops.flatMap natDocs,
      features env.toPyEnv (.named an) lc (range.map fun p => (p.1.toNat, p.2.toNat)) d = .ok (F d)) :
    ∃ S : List PyTok → List T, (∀ f, NatSig env (b * r) f (S f)) ∧ (∀ f, (S f).length = b * r) ∧
      st.run env ops = { st with inner := After C b r t ah (ops.flatMap (natCore S F)) } ∧
      st.minHash = PyHasher.new env.rng (b * r) env.hash ∧ ∀ d f,
        features env.toPyEnv (.named an) lc (range.map fun p => (p.1.toNat, p.2.toNat)) d = .ok f →
          (st.run env ops).hashDoc env d = .ok (S f) := by
  obtain ⟨b', r', hst, hbr⟩ := natNew_build h
  obtain ⟨rfl, rfl⟩ := hbr b r rfl rfl
  have hc := fun f => LawfulPyHasher.create_new (T := T) env.rng (b' * r') env.hash f
  choose S hS hl using hc
  subst hst
  have hrun := nat_run hS (F := F) ops (ops := []) (t := t) (ah := ah)
    (na := (PyMinHash.build env ah t b' r' an lc (range.map fun p => (p.1.toNat, p.2.toNat)) : PyMinHash T C)) rfl rfl
    fun d hd => natHashDoc hS (hF d hd)
  rw [List.nil_append] at hrun
  refine ⟨S, hS, hl, hrun, rfl, fun d f hf => ?_⟩
  rw [← natHashDoc (ah := ah) (t := t) (C := C) hS hf, hrun]
  exact PyMinIndex.hashDoc_cfg rfl rfl rfl env d

/-- C104, MinHash: no call panics if its documents have features. -/
theorem C104_calls_return (env : PyMinEnv) (ah : List T → UInt64) (t : Fl) (b r : Nat) (nh : Option Int)
    (an : Option String) (lc : Option Bool) (range : Option (Int × Int)) (st : PyMinHash T C)
    (h : PyMinHash.new env ah t (some b) (some r) nh an lc range = .ok st) (ops : List NatMinOp) (op : NatMinOp)
    (F : PyText → List PyTok) (hF : ∀ d ∈ (ops ++ [op]).flatMap natDocs,
      features env.toPyEnv (.named an) lc (range.map fun p => (p.1.toNat, p.2.toNat)) d = .ok (F d)) :
    ((st.run env ops).step env op).2 = .ok () := by
  obtain ⟨S, hS, hl, hrun, hm, hd⟩ := nat_content h (ops := ops) (F := F) fun d hd => hF d (by
    rw [List.flatMap_append, List.mem_append]; exact .inl hd)
  rw [nat_step (t := t) (ah := ah) hS (F := F) (by rw [hrun]) (by rw [hrun]; exact hm) op fun d hdo => hd d _ (hF d (by
    rw [List.flatMap_append, List.mem_append, List.flatMap_singleton]; exact .inr hdo))]

/-- C104, MinHash: `size()` is the number of ids that have features. -/
theorem C104_size (env : PyMinEnv) (ah : List T → UInt64) (t : Fl) (b r : Nat) (nh : Option Int)
    (an : Option String) (lc : Option Bool) (range : Option (Int × Int)) (st : PyMinHash T C)
    (h : PyMinHash.new env ah t (some b) (some r) nh an lc range = .ok st) (ops : List NatMinOp)
    (F : PyText → List PyTok) (hF : ∀ d ∈ ops.flatMap natDocs,
      features env.toPyEnv (.named an) lc (range.map fun p => (p.1.toNat, p.2.toNat)) d = .ok (F d))
    (ids : List Int64) (hnd : ids.Nodup) (hmem : ∀ id, id ∈ ids ↔ natLive F ops id ≠ none) :
    (st.run env ops).size = ids.length := by
  obtain ⟨S, hS, hl, hrun, hm, hd⟩ := nat_content h hF
  rw [hrun]
  refine C15_size b r t ah _ ids hnd fun id => ?_
  rw [hmem, live_natCore hl]
  simp

/-- C104, MinHash: after every history of document and token calls, `query_tokens` returns each id at most once; every
returned id has features whose signature is similar to that of the tokens; an id whose features share a band with the
tokens and are similar enough is returned; without overwriting the answer is decided by the features of the ids.
`query` of a document answers like `query_tokens` of any tokens with the features of the document. -/
theorem C104_query (env : PyMinEnv) (ah : List T → UInt64) (t : Fl) (b r : Nat) (nh : Option Int)
    (an : Option String) (lc : Option Bool) (range : Option (Int × Int)) (st : PyMinHash T C)
    (h : PyMinHash.new env ah t (some b) (some r) nh an lc range = .ok st) (ops : List NatMinOp)
    (F : PyText → List PyTok) (hF : ∀ d ∈ ops.flatMap natDocs,
      features env.toPyEnv (.named an) lc (range.map fun p => (p.1.toNat, p.2.toNat)) d = .ok (F d))
    (g : List PyTok) (o1 : Order) :
    ∃ (l : List Int64) (q : List T), NatSig env (b * r) g q ∧
      (∀ ts, tokenFeatures ts = g → (st.run env ops).queryTokens o1 ts = .ok l) ∧
      (∀ d, features env.toPyEnv (.named an) lc (range.map fun p => (p.1.toNat, p.2.toNat)) d = .ok g →
        (st.run env ops).query env o1 d = .ok l) ∧ l.Nodup ∧
      (∀ id ∈ l, ∃ f s v, natLive F ops id = some f ∧ NatSig env (b * r) f s ∧ minhashSimilarity s q = .ok v ∧
        Fl.ge v t = true) ∧
      (∀ id f s v, natLive F ops id = some f → NatSig env (b * r) f s → (∃ i < b, sameBand r s q i) →
        minhashSimilarity s q = .ok v → Fl.ge v t = true → id ∈ l) ∧
      (NatClean F ops → ∀ id, id ∈ l ↔ ∃ f s v, natLive F ops id = some f ∧ NatSig env (b * r) f s ∧
        (∃ i < b, ah (bandOf r s i) = ah (bandOf r q i)) ∧ minhashSimilarity s q = .ok v ∧ Fl.ge v t = true) := by
  obtain ⟨S, hS, hl, hrun, hm, hd⟩ := nat_content h hF
  have key : ∀ id s, live (b * r) (ops.flatMap (natCore S F)) id = some s ↔
      ∃ f, natLive F ops id = some f ∧ NatSig env (b * r) f s := by
    intro id s
    rw [live_natCore hl, Option.map_eq_some_iff]
    constructor
    · rintro ⟨f, hf, rfl⟩; exact ⟨f, hf, hS f⟩
    · rintro ⟨f, hf, hs⟩
      exact ⟨f, hf, Except.ok.inj ((hS f).symm.trans hs)⟩
  obtain ⟨res, hres, hreso⟩ := C17_query_returns (C := C) b r t ah _ (S g) (rightLengths_natCore hl F ops) (hl g)
  have hq : (st.run env ops).inner.queryOwned (S g) = .ok res := by rw [hrun]; exact hreso
  have hmh : (st.run env ops).minHash = PyHasher.new env.rng (b * r) env.hash := by rw [hrun]; exact hm
  refine ⟨o1.perm res.elems, S g, hS g, ?_, ?_, (o1.isPerm _).nodup_iff.mpr res.nodup, ?_, ?_, ?_⟩
  · intro ts hts
    unfold PyMinHash.queryTokens
    rw [show pyTokens ts = g from hts, hmh, show PyHasher.create _ g = _ from hS g]
    simp only [bind, Except.bind]
    rw [hq]
    rfl
  · intro d hfd
    rw [PyMinHash.query_eq, hd d g hfd]
    simp only [bind, Except.bind]
    rw [hq]
    rfl
  · intro id hid
    rw [Order.mem_perm] at hid
    obtain ⟨s, v, e1, e2, e3⟩ := C16_query b r t ah _ (S g) res hres id hid
    obtain ⟨f, hf, hs⟩ := (key id s).mp e1
    exact ⟨f, s, v, hf, hs, e2, e3⟩
  · intro id f s v hf hs hband hv hge
    rw [Order.mem_perm]
    exact C17_complete b r t ah _ (S g) res (.inl hres) id s v ((key id s).mpr ⟨f, hf, hs⟩) hband hv hge
  · intro hc id
    rw [Order.mem_perm, C18_exact b r t ah _ (S g) (clean_natCore hl F ops hc) res hres id]
    constructor
    · rintro ⟨s, v, e1, e2, e3, e4⟩
      obtain ⟨f, hf, hs⟩ := (key id s).mp e1
      exact ⟨f, s, v, hf, hs, e2, e3, e4⟩
    · rintro ⟨f, s, v, hf, hs, e2, e3, e4⟩
      exact ⟨s, v, (key id s).mpr ⟨f, hf, hs⟩, e2, e3, e4⟩

/-- C104, MinHash: `query_tokens` with the features that an id has, in any order and with any repetitions, finds it
(positive sizes below 2^64, a threshold of at most one). -/
theorem C104_finds [SetPyHasher T] (env : PyMinEnv) (ah : List T → UInt64) (t : Fl) (b r : Nat) (nh : Option Int)
    (an : Option String) (lc : Option Bool) (range : Option (Int × Int)) (st : PyMinHash T C)
    (h : PyMinHash.new env ah t (some b) (some r) nh an lc range = .ok st) (h0 : 0 < b * r) (hn : b * r < 2 ^ 64)
    (ht : Fl.ge (.fin 1) t = true) (ops : List NatMinOp)
    (F : PyText → List PyTok) (hF : ∀ d ∈ ops.flatMap natDocs,
      features env.toPyEnv (.named an) lc (range.map fun p => (p.1.toNat, p.2.toNat)) d = .ok (F d))
    (id : Int64) (f : List PyTok) (hlive : natLive F ops id = some f) (ts : List PyText)
    (hts : ∀ x, x ∈ f ↔ x ∈ tokenFeatures ts) (o1 : Order) :
    ∃ l, (st.run env ops).queryTokens o1 ts = .ok l ∧ id ∈ l := by
  obtain ⟨l, q, hq, hans, _, _, _, hc, _⟩ := C104_query env ah t b r nh an lc range st h ops F hF (tokenFeatures ts) o1
  have hfq : NatSig env (b * r) f q := by
    unfold NatSig at hq ⊢
    rw [SetPyHasher.create_congr _ _ _ hts]
    exact hq
  obtain ⟨s', e, hl⟩ := LawfulPyHasher.create_new (T := T) env.rng (b * r) env.hash f
  rw [show PyHasher.create _ f = _ from hfq] at e
  cases e
  have hb : 0 < b := by rcases Nat.eq_zero_or_pos b with e | e; · rw [e] at h0; simp at h0
                        · exact e
  exact ⟨l, hans ts rfl, hc id f q (.fin 1) hlive hfq ⟨0, hb, fun _ _ _ => rfl⟩
    (self_similarity q (by omega) (by omega)) ht⟩

/-- A history of the native class with documents and tokens. -/
def exNatOps : List NatMinOp :=
  [.insertDocument 1 "x y".toList, .insertTokens 2 ["x".toList, "z".toList], .bulkInsertTokens [3, 4] [["a".toList], []],
    .parBulkInsertDocs [5] ["b c".toList] [] [], .remove 2, .parBulkInsertTokens [1] [["q".toList]] [] []]

/-- The hypotheses of C103 and C104 are met: the constructor succeeds, every text has words, and with them every
document has features. -/
example (env : PyMinEnv) (ah : List T → UInt64) (lc : Option Bool) :
    (∃ st : PyMinHash T C, PyMinHash.new env ah (.fin (1 / 2)) (some (20 : Nat)) (some (3 : Nat)) none (some "word") lc none = .ok st) ∧
    ∃ W : PyText → List PyText, (∀ d, MaximalRuns (if lc = some true then env.lower d else d) (W d)) ∧
      ∀ d, features env.toPyEnv (.named (some "word")) lc none d = .ok (tokenFeatures (W d)) := by
  refine ⟨⟨_, rfl⟩, fun d => whitespaceSplit (if lc = some true then env.lower d else d), fun d =>
    (C41_maximal_runs _ _).mpr rfl, fun d => features_words (by decide) ((C41_maximal_runs _ _).mpr rfl)⟩

/-- A history without overwriting. -/
example (F : PyText → List PyTok) :
    NatClean F [.insertTokens 1 ["x".toList], .remove 1, .parBulkInsertDocs [2, 1] ["a b".toList, []] [] []] := by
  intro pre op post e
  rcases pre with _ | ⟨p1, _ | ⟨p2, _ | ⟨p3, _ | ⟨p4, pre⟩⟩⟩⟩ <;>
    simp only [List.nil_append, List.cons_append, List.cons.injEq] at e
  · obtain ⟨rfl, -⟩ := e
    exact ⟨List.nodup_singleton _, fun p _ => rfl⟩
  · obtain ⟨rfl, rfl, -⟩ := e
    exact ⟨List.nodup_nil, fun p hp => (by cases hp)⟩
  · obtain ⟨rfl, rfl, rfl, -⟩ := e
    refine ⟨by simp [natInserts], fun p hp => ?_⟩
    rcases List.mem_cons.mp hp with rfl | hp
    · rfl
    · rw [List.mem_singleton.mp hp]; rfl
  · obtain ⟨-, -, -, h⟩ := e; cases h
  · obtain ⟨-, -, -, h⟩ := e; cases h

/-- In the example history the last insertion decides the features of id 1, and id 2 is gone. -/
example (F : PyText → List PyTok) : natLive F exNatOps 1 = some (tokenFeatures ["q".toList]) ∧
    natLive F exNatOps 2 = none ∧ natLive F exNatOps 4 = some [] ∧ natLive F exNatOps 5 = some (F "b c".toList) := by
  refine ⟨?_, ?_, ?_, ?_⟩ <;> rfl
end

/-! ## SimHash -/

section
variable {w : Nat}

/-- What the constructor of a native SimHash class returns. -/
theorem natSimNew {nb d : Int} {an : Option String} {lc : Option Bool} {range : Option (Int × Int)}
    {st : PySimHash w} (h : PySimHash.new w nb d an lc range = .ok st) :
    SimIndex.new w w Int64 nb.toNat d.toNat = .ok st.inner ∧
      st.tokenizer = TokenizerSpec.new (an.getD "word") (range.map fun p => (p.1.toNat, p.2.toNat)) ∧
      st.lowercase = lc.getD false ∧ 0 ≤ d := by
  unfold PySimHash.new at h
  have hr : ∀ v, pyOptRange range = .ok v → v = range.map fun p => (p.1.toNat, p.2.toNat) := by
    intro v hv
    cases range with
    | none => cases hv; rfl
    | some p =>
      change (do
        let a ← pyUsize p.1
        let b ← pyUsize p.2
        pure (some (a, b))) = _ at hv
      unfold pyUsize at hv
      split_ifs at hv <;> cases hv
      rfl
  by_cases h1 : 0 ≤ nb ∧ nb < 2 ^ 64
  · by_cases h2 : 0 ≤ d ∧ d < 2 ^ 64
    · rw [pyUsize_ok h1, pyUsize_ok h2] at h
      cases h3 : pyOptRange range with
      | error e => rw [h3] at h; cases h
      | ok range' =>
        rw [h3] at h
        simp only [bind, Except.bind] at h
        cases h4 : SimIndex.new w w Int64 nb.toNat d.toNat with
        | error e => rw [h4] at h; cases h
        | ok i =>
          rw [h4] at h
          cases h
          exact ⟨rfl, by rw [hr _ h3], rfl, h2.1⟩
    · rw [pyUsize_ok h1, pyUsize_error h2] at h; cases h
  · rw [pyUsize_error h1] at h; cases h

/-- The signature of a document is the signature of its features. -/
theorem natDoc2signature {env : PySimEnv w} {st : PySimHash w} {an : Option String} {lc : Option Bool}
    {range : Option (Nat × Nat)} (ht : st.tokenizer = TokenizerSpec.new (an.getD "word") range)
    (hlc : st.lowercase = lc.getD false) {d : PyText} {f : List PyTok}
    (hf : features env.toPyEnv (.named an) lc range d = .ok f) :
    st.doc2signature env d = .ok (PySimHash.createSignature env f) := by
  rw [features_eq] at hf
  have hl : (lc.getD false = true) ↔ lc = some true := by cases lc <;> simp
  have key : ∀ text, fromRust (tokenize env.toPyEnv (TokenizerSpec.new (an.getD "word") range) text) = .ok f →
      st.tokenizeAndSimhash env text = .ok (PySimHash.createSignature env f) := by
    intro text h
    unfold PySimHash.tokenizeAndSimhash
    rw [ht]
    cases hk : tokenize env.toPyEnv (TokenizerSpec.new (an.getD "word") range) text with
    | error e => rw [hk] at h; cases h
    | ok toks =>
      rw [hk] at h
      cases h
      rfl
  unfold PySimHash.doc2signature
  simp only at hf
  rw [hlc]
  split_ifs at hf with h1
  · rw [if_pos (hl.mpr h1)]
    exact key _ hf
  · rw [if_neg fun e => h1 (hl.mp e)]
    exact key _ hf

/-- The signed pairs of a call. -/
def natSimPairs (env : PySimEnv w) (F : PyText → List PyTok) (op : NatSimOp) : List (Int64 × BitVec w) :=
  (natSimInserts F op).map fun p => (p.1, PySimHash.createSignature env p.2)

/-- One call in terms of the Rust index. -/
theorem natSim_step {env : PySimEnv w} {st : PySimHash w} {F : PyText → List PyTok} (op : NatSimOp)
    (hF : ∀ d ∈ natSimDocs op, st.doc2signature env d = .ok (PySimHash.createSignature env (F d))) :
    (st.step env op).2 = .ok () ∧ PySimHash.SameCfg (st.step env op).1 st ∧
      SimSame (st.step env op).1.inner (st.inner.insertSeq (natSimPairs env F op)) := by
  have hbulk := fun (o : Order) (ids : List Int64) (sigs : List (BitVec w)) (s2 : List Nat) =>
    parBulkInsertPairs_eq o st.inner (ids.zip sigs) s2
  cases op with
  | insertDocument id d =>
    show (st.insertDocument env id d).2 = _ ∧ PySimHash.SameCfg (st.insertDocument env id d).1 st ∧
      SimSame (st.insertDocument env id d).1.inner _
    unfold PySimHash.insertDocument
    rw [hF d (by simp [natSimDocs])]
    exact ⟨rfl, ⟨rfl, rfl⟩, SimSame.refl _⟩
  | insertTokens id ts => exact ⟨rfl, ⟨rfl, rfl⟩, SimSame.refl _⟩
  | parBulkInsertTokens o ids tss s1 s2 =>
    show (st.parBulkInsertTokens env o ids tss s1 s2).2 = _ ∧
      PySimHash.SameCfg (st.parBulkInsertTokens env o ids tss s1 s2).1 st ∧
      SimSame (st.parBulkInsertTokens env o ids tss s1 s2).1.inner _
    unfold PySimHash.parBulkInsertTokens
    simp only [parMap_eq_map, parBulkInsert_eq]
    obtain ⟨h1, h2⟩ := hbulk o ids (tss.map fun tokens => PySimHash.createSignature env (pyTokens tokens)) s2
    refine ⟨h1, ⟨rfl, rfl⟩, ?_⟩
    have e : natSimPairs env F (.parBulkInsertTokens o ids tss s1 s2) =
        ids.zip (tss.map fun tokens => PySimHash.createSignature env (pyTokens tokens)) := by
      simp only [natSimPairs, natSimInserts, List.zip_map_right, List.map_map]
      rfl
    rw [e]
    exact h2
  | parBulkInsertDocs o ids docs s1 s2 =>
    have e : natSimPairs env F (.parBulkInsertDocs o ids docs s1 s2) =
        ids.zip (docs.map fun d => PySimHash.createSignature env (F d)) := by
      simp only [natSimPairs, natSimInserts, List.zip_map_right, List.map_map]
      rfl
    show (st.parBulkInsertDocs env o ids docs s1 s2).2 = _ ∧
      PySimHash.SameCfg (st.parBulkInsertDocs env o ids docs s1 s2).1 st ∧
      SimSame (st.parBulkInsertDocs env o ids docs s1 s2).1.inner _
    change ∀ d ∈ docs, _ at hF
    rw [e]
    unfold PySimHash.parBulkInsertDocs
    split_ifs with hlen
    · rw [PySimHash.insertLoop_ok env (fun d => PySimHash.createSignature env (F d)) (ids.zip docs) st fun p hp =>
        hF p.2 (List.of_mem_zip (a := p.1) (b := p.2) hp).2]
      refine ⟨rfl, ⟨rfl, rfl⟩, ?_⟩
      have e' : st.inner.run ((ids.zip docs).map fun p =>
            .insert p.1 (PySimHash.createSignature env (F p.2))) =
          st.inner.insertSeq (ids.zip (docs.map fun d => PySimHash.createSignature env (F d))) := by
        unfold SimIndex.run SimIndex.insertSeq
        rw [List.zip_map_right, List.foldl_map, List.foldl_map]
        rfl
      simp only
      rw [e']
      exact SimSame.refl _
    · rw [PySimHash.mapM_doc2signature env (fun d => PySimHash.createSignature env (F d)) docs st hF]
      simp only [parBulkInsert_eq]
      obtain ⟨h1, h2⟩ := hbulk o ids (docs.map fun d => PySimHash.createSignature env (F d)) s2
      exact ⟨h1, ⟨rfl, rfl⟩, h2⟩

/-- A history in terms of the Rust index. -/
theorem natSim_run {env : PySimEnv w} {F : PyText → List PyTok} (ops : List NatSimOp) : ∀ {st : PySimHash w},
    (∀ d ∈ ops.flatMap natSimDocs, st.doc2signature env d = .ok (PySimHash.createSignature env (F d))) →
    PySimHash.SameCfg (st.run env ops) st ∧
      SimSame (st.run env ops).inner (st.inner.insertSeq (ops.flatMap (natSimPairs env F))) := by
  induction ops with
  | nil => intro st _; exact ⟨⟨rfl, rfl⟩, SimSame.refl _⟩
  | cons op ops ih =>
    intro st hF
    obtain ⟨_, h2, h3⟩ := natSim_step (st := st) (F := F) op fun d hd => hF d (by
      rw [List.flatMap_cons, List.mem_append]; exact .inl hd)
    obtain ⟨h4, h5⟩ := ih (st := (st.step env op).1) fun d hd => by
      rw [h2.doc2signature]
      exact hF d (by rw [List.flatMap_cons, List.mem_append]; exact .inr hd)
    refine ⟨⟨h4.1.trans h2.1, h4.2.trans h2.2⟩, ?_⟩
    rw [List.flatMap_cons, insertSeq_append]
    exact h5.trans (h3.insertSeq _)

theorem SimSame.symm' {Id : Type} [DecidableEq Id] {a b : SimIndex w Id} (h : SimSame a b) : SimSame b a :=
  ⟨h.1.symm, h.2.symm, h.3.symm, fun id => (h.4 id).symm, h.5.symm⟩

/-- C103, SimHash: with the word analyzer, after every history of document and token calls, `insert_document` and
`insert_tokens` of the words of the document leave the same state, the queries of a document answer like those of its
words, and so do the batch queries; nothing panics. -/
theorem C103_simhash (env : PySimEnv w) (nb dist : Int) (an : Option String) (lc : Option Bool) (st : PySimHash w)
    (h : PySimHash.new w nb dist an lc none = .ok st) (ha : an ≠ some "char") (W : PyText → List PyText)
    (hW : ∀ d, MaximalRuns (if lc = some true then env.lower d else d) (W d)) (ops : List NatSimOp) (o1 o2 : Order) :
    (∀ op, ((st.run env ops).step env op).2 = .ok ()) ∧
    (∀ id d, (st.run env ops).insertDocument env id d = (st.run env ops).insertTokens env id (W d)) ∧
    (∀ d, (st.run env ops).query env o1 d = (st.run env ops).queryTokens env o1 (W d) ∧
      (st.run env ops).queryReturnDistance env o1 o2 d =
        (st.run env ops).queryTokensReturnDistance env o1 o2 (W d)) ∧
    ∀ docs s1 s2 s1' s2', (st.run env ops).parBulkQueryReturnDistance env o1 o2 docs s1 s2 =
      (st.run env ops).parBulkQueryTokensReturnSimilarity env o1 o2 (docs.map W) s1' s2' := by
  obtain ⟨_, h2, h3, _⟩ := natSimNew h
  have hd0 : ∀ d, st.doc2signature env d = .ok (PySimHash.createSignature env (tokenFeatures (W d))) := fun d =>
    natDoc2signature (an := an) (lc := lc) (range := none) h2 h3 (features_words ha (hW d))
  obtain ⟨hcfg, _⟩ := natSim_run (F := fun d => tokenFeatures (W d)) ops (st := st) fun d _ => hd0 d
  have hd : ∀ d, (st.run env ops).doc2signature env d =
      .ok (PySimHash.createSignature env (tokenFeatures (W d))) := fun d => by
    rw [hcfg.doc2signature]; exact hd0 d
  generalize st.run env ops = na at hd
  refine ⟨fun op => (natSim_step (F := fun d => tokenFeatures (W d)) op fun d _ => hd d).1, ?_, ?_, ?_⟩
  · intro id d
    unfold PySimHash.insertDocument PySimHash.insertTokens
    rw [hd]
    rfl
  · intro d
    unfold PySimHash.query PySimHash.queryTokens PySimHash.queryReturnDistance PySimHash.queryTokensReturnDistance
    rw [hd]
    exact ⟨rfl, rfl⟩
  · intro docs s1 s2 s1' s2'
    rw [C89_simhash_query_tokens, (C89_simhash_query env na docs (fun d _ => ⟨_, hd d⟩) o1 o2 s1 s2).2,
      PyMinIndex.mapM_map_ok]
    congr 1
    funext d
    unfold PySimHash.queryReturnDistance PySimHash.queryTokensReturnDistance
    rw [hd]
    rfl

/-- C103, SimHash: a history and the history with the words of its documents in their place answer all queries alike. -/
theorem C103_simhash_history (env : PySimEnv w) (nb dist : Int) (an : Option String) (lc : Option Bool)
    (st : PySimHash w) (h : PySimHash.new w nb dist an lc none = .ok st) (ha : an ≠ some "char")
    (W : PyText → List PyText) (hW : ∀ d, MaximalRuns (if lc = some true then env.lower d else d) (W d))
    (ops : List NatSimOp) (o1 o2 : Order) (d : PyText) (ts : List PyText) :
    (st.run env ops).query env o1 d = (st.run env (ops.map (asSimTokens W))).query env o1 d ∧
    (st.run env ops).queryReturnDistance env o1 o2 d =
      (st.run env (ops.map (asSimTokens W))).queryReturnDistance env o1 o2 d ∧
    (st.run env ops).queryTokens env o1 ts = (st.run env (ops.map (asSimTokens W))).queryTokens env o1 ts ∧
    (st.run env ops).queryTokensReturnDistance env o1 o2 ts =
      (st.run env (ops.map (asSimTokens W))).queryTokensReturnDistance env o1 o2 ts := by
  obtain ⟨_, h2, h3, _⟩ := natSimNew h
  have hd0 : ∀ d, st.doc2signature env d = .ok (PySimHash.createSignature env (tokenFeatures (W d))) := fun d =>
    natDoc2signature (an := an) (lc := lc) (range := none) h2 h3 (features_words ha (hW d))
  obtain ⟨c1, i1⟩ := natSim_run (F := fun d => tokenFeatures (W d)) ops (st := st) fun d _ => hd0 d
  obtain ⟨c2, i2⟩ := natSim_run (F := fun d => tokenFeatures (W d)) (ops.map (asSimTokens W)) (st := st) fun d _ => hd0 d
  have hp : ∀ op, natSimPairs env (fun d => tokenFeatures (W d)) (asSimTokens W op) =
      natSimPairs env (fun d => tokenFeatures (W d)) op := by
    intro op
    cases op with
    | parBulkInsertDocs o ids docs s1 s2 =>
      simp only [asSimTokens, natSimPairs, natSimInserts, List.map_map]
      rfl
    | _ => rfl
  rw [List.flatMap_map] at i2
  simp only [hp] at i2
  obtain ⟨k1, k2, k3, k4, _⟩ := C66_simhash_answers env (c1.1.trans c2.1.symm) (c1.2.trans c2.2.symm)
    (i1.trans (SimSame.symm' i2)) d ts o1 o2
  exact ⟨k1, k2, k3, k4⟩

theorem lastSig_pairs (env : PySimEnv w) (F : PyText → List PyTok) (ops : List NatSimOp) (id : Int64) :
    lastSig (ops.flatMap (natSimPairs env F)) id =
      (natSimLive F ops id).map (PySimHash.createSignature env) := by
  have e : ops.flatMap (natSimPairs env F) =
      (ops.flatMap (natSimInserts F)).map fun p => (p.1, PySimHash.createSignature env p.2) := by
    rw [List.map_flatMap]
    rfl
  unfold lastSig natSimLive
  rw [e, ← List.map_reverse]
  generalize (ops.flatMap (natSimInserts F)).reverse = l
  induction l with
  | nil => rfl
  | cons p l ih =>
    rw [List.map_cons, List.find?_cons, List.find?_cons]
    by_cases hp : p.1 = id
    · simp [hp]
    · simp only [hp, decide_false]
      exact ih

/-- C104, SimHash: after every history of document and token calls whose documents have features, `query_tokens` and
`query` return exactly the ids whose last features have a signature at distance strictly below `max_distance`. -/
theorem C104_simhash (hw : 2 ≤ w) (env : PySimEnv w) (nb dist : Int) (an : Option String) (lc : Option Bool)
    (range : Option (Int × Int)) (st : PySimHash w) (h : PySimHash.new w nb dist an lc range = .ok st)
    (ops : List NatSimOp) (F : PyText → List PyTok) (hF : ∀ d ∈ ops.flatMap natSimDocs,
      features env.toPyEnv (.named an) lc (range.map fun p => (p.1.toNat, p.2.toNat)) d = .ok (F d))
    (g : List PyTok) (o1 : Order) :
    ∃ (l : List Int64) (q : BitVec w), MajoritySig env.hash g q ∧
      (∀ ts, tokenFeatures ts = g → (st.run env ops).queryTokens env o1 ts = .ok l) ∧
      (∀ d, features env.toPyEnv (.named an) lc (range.map fun p => (p.1.toNat, p.2.toNat)) d = .ok g →
        (st.run env ops).query env o1 d = .ok l) ∧ l.Nodup ∧
      ∀ id, id ∈ l ↔ ∃ f s, natSimLive F ops id = some f ∧ MajoritySig env.hash f s ∧
        ((diffBits q s).card : Int) < dist := by
  obtain ⟨h1, h2, h3, h4⟩ := natSimNew h
  obtain ⟨hcfg, hsame⟩ := natSim_run (F := F) ops (st := st) fun d hd => natDoc2signature h2 h3 (hF d hd)
  obtain ⟨set, hq, _, hm⟩ := C51_query_exact h1 ((ops.flatMap (natSimPairs env F)).map fun p => SimOp.insert p.1 p.2)
    (PySimHash.createSignature env g)
  have has : assigned ((ops.flatMap (natSimPairs env F)).map fun p => SimOp.insert p.1 p.2) =
      ops.flatMap (natSimPairs env F) := by
    induction ops.flatMap (natSimPairs env F) with
    | nil => rfl
    | cons p l ih => rw [List.map_cons, assigned, ih]
  have hrun : st.inner.run ((ops.flatMap (natSimPairs env F)).map fun p => SimOp.insert p.1 p.2) =
      st.inner.insertSeq (ops.flatMap (natSimPairs env F)) := by
    unfold SimIndex.run SimIndex.insertSeq
    rw [List.foldl_map]
    rfl
  rw [has] at hm
  rw [hrun] at hq
  have hq' : (st.run env ops).inner.query (PySimHash.createSignature env g) = .ok set :=
    (C55_same_answers hsame (PySimHash.createSignature env g) o1 o1 []).1.trans hq
  refine ⟨o1.perm set.elems, PySimHash.createSignature env g, majority_create hw g, ?_, ?_,
    (o1.isPerm _).nodup_iff.mpr set.nodup, ?_⟩
  · intro ts hts
    unfold PySimHash.queryTokens
    rw [show pyTokens ts = g from hts, hq']
    rfl
  · intro d hd
    unfold PySimHash.query
    rw [hcfg.doc2signature, natDoc2signature h2 h3 hd]
    simp only [bind, Except.bind]
    rw [hq']
    rfl
  · intro id
    rw [Order.mem_perm, hm]
    simp only [lastSig_pairs, Option.map_eq_some_iff]
    constructor
    · rintro ⟨sg, ⟨f, hf, rfl⟩, hc⟩
      exact ⟨f, _, hf, majority_create hw f, by omega⟩
    · rintro ⟨f, s, hf, hs, hc⟩
      rw [majority_unique hs (majority_create hw f)] at hc
      exact ⟨_, ⟨f, hf, rfl⟩, by omega⟩

/-- A history of the native class with documents and tokens. -/
def exNatSimOps : List NatSimOp :=
  [.insertDocument 1 "x y".toList, .insertTokens 2 ["x".toList, "x".toList, "z".toList], .insertTokens 1 ["q".toList]]

/-- The hypotheses of C103 and C104 are met for SimHash. -/
example (F : PyText → List PyTok) : (∃ st : PySimHash 64, PySimHash.new 64 6 5 none none none = .ok st) ∧
    (∃ st : PySimHash 128, PySimHash.new 128 6 5 (some "word") (some true) none = .ok st) ∧
    natSimLive F exNatSimOps 1 = some (tokenFeatures ["q".toList]) ∧ natSimLive F exNatSimOps 3 = none := by
  obtain ⟨i1, _, e1⟩ := simNew_ok (w := 64) (nb := 6) (d := 5) (an := none) (lc := none) (by omega) (by omega)
    (by decide) (by decide)
  obtain ⟨i2, _, e2⟩ := simNew_ok (w := 128) (nb := 6) (d := 5) (an := some "word") (lc := some true) (by omega)
    (by omega) (by decide) (by decide)
  exact ⟨⟨_, e1⟩, ⟨_, e2⟩, rfl, rfl⟩
end

end Verif.Props
