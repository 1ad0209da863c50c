import Verif.Lemmas.PySimHash

/-! # Properties C66 (SimHash part), C69, C70, C76: the Python SimHash index -/
namespace Verif.Props
open Verif.Spec

variable {w : Nat}

/-! ## C66, SimHash -/

/-- C66, SimHash: in every state of the native class, a batch insertion (below or above 100 ids, any schedule) does
not panic, and the index is the one left by one by one insertion, up to the iteration order of its signature map.
If the lists have different lengths, the surplus is ignored. -/
theorem C66_simhash_bulk (env : PySimEnv w) (st : PySimHash w) (name : String) (range : Option (Nat × Nat))
    (htok : st.tokenizer = TokenizerSpec.new name range)
    (hret : ShinglesReturn env.toPyEnv (TokenizerSpec.new name range))
    (ids : List Int64) (docs : List PyText) (o : Order) (s1 s2 : List Nat) :
    (st.parBulkInsertDocs env o ids docs s1 s2).2 = .ok () ∧
    ((ids.zip docs).foldl (fun st p => (st.insertDocument env p.1 p.2).1) st).lowercase =
      (st.parBulkInsertDocs env o ids docs s1 s2).1.lowercase ∧
    ((ids.zip docs).foldl (fun st p => (st.insertDocument env p.1 p.2).1) st).tokenizer =
      (st.parBulkInsertDocs env o ids docs s1 s2).1.tokenizer ∧
    SimSame (st.parBulkInsertDocs env o ids docs s1 s2).1.inner
      ((ids.zip docs).foldl (fun st p => (st.insertDocument env p.1 p.2).1) st).inner := by
  have htot : ∀ d, ∃ s, st.doc2signature env d = .ok s := by
    intro d
    have key : ∀ d, ∃ s, st.tokenizeAndSimhash env d = .ok s := by
      intro d
      obtain ⟨toks, e⟩ := tokenize_total env.toPyEnv name range hret d
      unfold PySimHash.tokenizeAndSimhash
      rw [htok, e]
      exact ⟨_, rfl⟩
    unfold PySimHash.doc2signature
    split_ifs
    · exact key _
    · exact key _
  choose f hf using htot
  have hseq : ∀ (ps : List (Int64 × PyText)) (st' : PySimHash w), PySimHash.SameCfg st' st →
      ps.foldl (fun st p => (st.insertDocument env p.1 p.2).1) st' =
        { st' with inner := st'.inner.run (ps.map fun p => .insert p.1 (f p.2)) } := by
    intro ps
    induction ps with
    | nil => intro st' _; rfl
    | cons p ps ih =>
      intro st' hc
      have h1 : (st'.insertDocument env p.1 p.2).1 = { st' with inner := st'.inner.insert p.1 (f p.2) } := by
        unfold PySimHash.insertDocument
        rw [hc.doc2signature, hf]
      rw [List.foldl_cons, h1, ih { st' with inner := st'.inner.insert p.1 (f p.2) } hc]
      rfl
  rw [hseq _ st ⟨rfl, rfl⟩]
  unfold PySimHash.parBulkInsertDocs
  split_ifs with hlen
  · rw [PySimHash.insertLoop_ok env f _ st fun p _ => hf p.2]
    exact ⟨rfl, rfl, rfl, SimSame.refl _⟩
  · rw [PySimHash.mapM_doc2signature env f docs st (fun d _ => hf d)]
    simp only
    obtain ⟨h1, h2⟩ := C55_bulk_insert st.inner ids (docs.map f) o s2
    refine ⟨h1, trivial, trivial, ?_⟩
    have hz : (ids.zip (docs.map f)).map (fun p => SimOp.insert p.1 p.2) =
        (ids.zip docs).map fun p => .insert p.1 (f p.2) := by
      rw [List.zip_map_right, List.map_map]
      rfl
    rw [hz] at h2
    exact h2

/-- C66, SimHash: hence every query gives the same answer on both, now and after further insertions. -/
theorem C66_simhash_answers (env : PySimEnv w) {a b : PySimHash w} (ht : a.tokenizer = b.tokenizer)
    (hl : a.lowercase = b.lowercase) (h : SimSame a.inner b.inner) (doc : PyText) (toks : List PyText)
    (o1 o2 : Order) :
    a.query env o1 doc = b.query env o1 doc ∧
    a.queryReturnDistance env o1 o2 doc = b.queryReturnDistance env o1 o2 doc ∧
    a.queryTokens env o1 toks = b.queryTokens env o1 toks ∧
    a.queryTokensReturnDistance env o1 o2 toks = b.queryTokensReturnDistance env o1 o2 toks ∧
    ∀ id, SimSame (a.insertDocument env id doc).1.inner (b.insertDocument env id doc).1.inner := by
  have hd := PySimHash.SameCfg.doc2signature (a := a) (b := b) ⟨ht, hl⟩ env
  refine ⟨?_, ?_, ?_, ?_, fun id => ?_⟩
  · unfold PySimHash.query
    rw [hd]
    cases b.doc2signature env doc with
    | error e => rfl
    | ok s =>
      have := (C55_same_answers h s o1 o2 []).1
      simp only [bind, Except.bind]
      rw [show a.inner.query s = b.inner.query s from this]
  · unfold PySimHash.queryReturnDistance
    rw [hd]
    cases b.doc2signature env doc with
    | error e => rfl
    | ok s => exact (C55_same_answers h s o1 o2 []).2.2.2
  · unfold PySimHash.queryTokens
    rw [show a.inner.query _ = b.inner.query _ from (C55_same_answers h _ o1 o2 []).1]
  · exact (C55_same_answers h _ o1 o2 []).2.2.2
  · unfold PySimHash.insertDocument
    rw [hd]
    cases b.doc2signature env doc with
    | error e => exact h
    | ok s => exact h.insertSeq [(id, s)]

/-- The hypotheses are met by the word and character analyzers with their default range, whatever the external
code, in every state. -/
example (env : PySimEnv 64) : ShinglesReturn env.toPyEnv (TokenizerSpec.new "word" none) ∧
    ShinglesReturn env.toPyEnv (TokenizerSpec.new "char" none) ∧
    ShinglesReturn env.toPyEnv (TokenizerSpec.new "char" (some (2, 5))) ∧
    ∃ st : PySimHash 64, PySimHash.new 64 6 5 (some "char") (some true) none = .ok st ∧
      st.tokenizer = TokenizerSpec.new "char" none := by
  refine ⟨trivial, trivial, trivial, ?_⟩
  obtain ⟨idx, h⟩ := C51_new_returns (w := 64) (Id := Int64) 6 5 64 (by omega) (by omega) (by omega)
  refine ⟨⟨idx, TokenizerSpec.new "char" none, true⟩, ?_, rfl⟩
  unfold PySimHash.new
  rw [show pyUsize 6 = .ok 6 from rfl, show pyUsize 5 = .ok 5 from rfl]
  simp only [bind, Except.bind]
  rw [h]
  rfl

/-! ## C69 -/

/-- C69 is false of the code: `query` with `return_hamming_distance` raises `AttributeError` on every object, for
every document; so does `par_bulk_query` with `return_similarity`, and, with a callable analyzer, `par_bulk_query`
with or without it (if the analyzer itself returns). -/
theorem C69_dispatch_false (env : PySimEnv w) (r : PyRun) (st : PySimIndex w) :
    (∀ doc, st.query env r doc true = .error .attributeError) ∧
    (∀ n, st.analyzer = .named n → ∀ docs, st.parBulkQuery env r docs true = .error .attributeError) ∧
    (∀ f, st.analyzer = .callable f → ∀ docs flag, (∀ d ∈ docs, ∃ toks, f d = .ok toks) →
      st.parBulkQuery env r docs flag = .error .attributeError) := by
  refine ⟨fun doc => ?_, fun n hn docs => ?_, fun f hf docs flag hd => ?_⟩
  · unfold PySimIndex.query
    cases st.analyzer <;> rfl
  · unfold PySimIndex.parBulkQuery
    rw [hn]
    rfl
  · unfold PySimIndex.parBulkQuery
    rw [hf]
    obtain ⟨l, hl⟩ : ∃ l, docs.mapM f = .ok l := by
      clear hf
      induction docs with
      | nil => exact ⟨[], rfl⟩
      | cons d ds ih =>
        obtain ⟨t, ht⟩ := hd d (by simp)
        obtain ⟨l, hl⟩ := ih fun d hd' => hd d (by simp [hd'])
        exact ⟨t :: l, by rw [List.mapM_cons, ht, hl]; rfl⟩
    simp only [bind, Except.bind]
    rw [hl]
    cases flag <;> rfl

/-- C69, the part that holds: `query` without the flag, and `par_bulk_query` without the flag under a named
analyzer, dispatch to native methods, hence never raise `AttributeError`; the batch is the list of the single
answers. Missing: the paths of `C69_dispatch_false`. -/
theorem C69_dispatch_partial (env : PySimEnv w) (r : PyRun) (st : PySimIndex w) :
    (∀ n, st.analyzer = .named n → ∀ doc, st.query env r doc false =
      (fromRust (st.native.query env r.o1 doc)).map .ids) ∧
    (∀ f, st.analyzer = .callable f → ∀ doc toks, f doc = .ok toks → st.query env r doc false =
      (fromRust (st.native.queryTokens env r.o1 toks)).map .ids) ∧
    (∀ f, st.analyzer = .callable f → ∀ doc e, f doc = .error e → st.query env r doc false = .error e) ∧
    (∀ n, st.analyzer = .named n → ∀ docs, st.parBulkQuery env r docs false ≠ .error .attributeError ∧
      ∀ ls, st.parBulkQuery env r docs false = .ok (.idLists ls) ↔
        List.Forall₂ (fun doc l => st.query env r doc false = .ok (.ids l)) docs ls) := by
  refine ⟨fun n hn doc => ?_, fun f hf doc toks ht => ?_, fun f hf doc e he => ?_, fun n hn docs => ⟨?_, ?_⟩⟩
  · unfold PySimIndex.query
    rw [hn]
    rfl
  · unfold PySimIndex.query
    rw [hf]
    simp only [Bool.false_eq_true, if_false]
    rw [ht]
    rfl
  · unfold PySimIndex.query
    rw [hf]
    simp only [Bool.false_eq_true, if_false]
    rw [he]
    rfl
  · have : st.parBulkQuery env r docs false =
        (fromRust (st.native.parBulkQuery env r.o1 docs r.s1 r.s2)).map .idLists := by
      unfold PySimIndex.parBulkQuery
      rw [hn]
      rfl
    rw [this]
    cases st.native.parBulkQuery env r.o1 docs r.s1 r.s2 <;> simp [fromRust, Except.map]
  · intro ls
    have : st.parBulkQuery env r docs false =
        (fromRust (st.native.parBulkQuery env r.o1 docs r.s1 r.s2)).map .idLists := by
      unfold PySimIndex.parBulkQuery
      rw [hn]
      rfl
    rw [this]
    have hq : ∀ doc l, st.query env r doc false = .ok (.ids l) ↔ st.native.query env r.o1 doc = .ok l := by
      intro doc l
      have : st.query env r doc false = (fromRust (st.native.query env r.o1 doc)).map .ids := by
        unfold PySimIndex.query
        rw [hn]
        rfl
      rw [this]
      cases st.native.query env r.o1 doc <;> simp [fromRust, Except.map]
    have hb : (fromRust (st.native.parBulkQuery env r.o1 docs r.s1 r.s2)).map PySimAnswer.idLists = .ok (.idLists ls) ↔
        st.native.parBulkQuery env r.o1 docs r.s1 r.s2 = .ok ls := by
      cases st.native.parBulkQuery env r.o1 docs r.s1 r.s2 <;> simp [fromRust, Except.map]
    rw [hb]
    simp only [hq]
    unfold PySimHash.parBulkQuery PySimHash.parBulkDoc2signatures
    rw [parMap_eq_map, List.mapM_map]
    have key : ∀ docs ls, (do
          let signatures ← docs.mapM fun d => st.native.doc2signature env d
          let sets ← st.native.inner.parBulkQuery signatures r.s2
          pure (sets.map fun (set : HSet Int64) => r.o1.perm set.elems)) = .ok ls ↔
        List.Forall₂ (fun doc l => st.native.query env r.o1 doc = .ok l) docs ls := by
      intro docs
      simp only [(C55_bulk_query st.native.inner _ r.o1 r.o2 r.s2).1]
      induction docs with
      | nil =>
        intro ls
        constructor
        · intro h; cases h; exact .nil
        · intro h; cases h; rfl
      | cons d ds ih =>
        intro ls
        rw [List.mapM_cons]
        cases hs : st.native.doc2signature env d with
        | error e =>
          constructor
          · intro h; cases h
          · intro h
            cases h with
            | cons h1 _ =>
              unfold PySimHash.query at h1
              rw [hs] at h1
              cases h1
        | ok s =>
          cases hss : ds.mapM (fun d => st.native.doc2signature env d) with
          | error e =>
            constructor
            · intro h; cases h
            · intro h
              cases h with
              | cons _ h2 =>
                have := (ih _).mpr h2
                rw [hss] at this
                cases this
          | ok ss =>
            have ih' := ih
            rw [hss] at ih'
            simp only [bind, Except.bind, pure, Except.pure] at ih' ⊢
            rw [List.mapM_cons]
            cases hqs : st.native.inner.query s with
            | error e =>
              constructor
              · intro h; cases h
              · intro h
                cases h with
                | cons h1 _ =>
                  unfold PySimHash.query at h1
                  rw [hs] at h1
                  simp only [bind, Except.bind] at h1
                  rw [hqs] at h1
                  cases h1
            | ok set =>
              have hone : st.native.query env r.o1 d = .ok (r.o1.perm set.elems) := by
                unfold PySimHash.query
                rw [hs]
                simp only [bind, Except.bind]
                rw [hqs]
                rfl
              cases hqm : ss.mapM st.native.inner.query with
              | error e =>
                rw [hqm] at ih'
                constructor
                · intro h; cases h
                · intro h
                  cases h with
                  | cons _ h2 => exact absurd ((ih' _).mpr h2) (by intro h; cases h)
              | ok sets =>
                rw [hqm] at ih'
                constructor
                · intro h
                  cases h
                  exact .cons hone ((ih' _).mp rfl)
                · intro h
                  cases h with
                  | cons h1 h2 =>
                    rw [hone] at h1
                    cases h1
                    have := (ih' _).mpr h2
                    cases this
                    rfl
    exact key docs ls

/-! ## C70 -/

/-- Arguments for the examples. -/
def exSimArgs : PySimArgs :=
  { hashSize := 64, numBlocks := 6, hammingDistance := 5, analyzer := .named (some "word"), lowercase := none,
    ngramRange := none }

/-- All outcomes of the constructor. -/
theorem simInit_cases (a : PySimArgs) :
    ((¬ (a.hashSize = 64 ∨ a.hashSize = 128) ∨ a.hammingDistance ≥ a.numBlocks ∨ a.analyzer.unknown = true) ∧
      PySimObject.init a = .error .valueError) ∨
    ((a.hashSize = 64 ∨ a.hashSize = 128) ∧ a.hammingDistance < a.numBlocks ∧ a.analyzer.unknown = false ∧
      PySimObject.init a =
        (PySimHash.new a.hashSize.toNat a.numBlocks a.hammingDistance a.analyzer.nativeName a.lowercase
          a.ngramRange).map fun native => ⟨a.hashSize.toNat, a.analyzer, native⟩) := by
  unfold PySimObject.init
  by_cases h1 : a.hashSize = 64 ∨ a.hashSize = 128
  · rw [if_neg (not_not.mpr h1), if_neg (by omega)]
    by_cases h2 : a.hammingDistance ≥ a.numBlocks
    · left; rw [if_pos h2]; exact ⟨.inr (.inl h2), rfl⟩
    · rw [if_neg h2]
      by_cases h3 : a.analyzer.unknown = true
      · left; rw [if_pos h3]; exact ⟨.inr (.inr h3), rfl⟩
      · right
        rw [if_neg h3]
        refine ⟨h1, by omega, by simpa using h3, ?_⟩
        rcases h1 with h1 | h1
        · rw [if_pos h1, h1]; rfl
        · rw [if_neg (by omega), h1]; rfl
  · left; rw [if_pos h1]; exact ⟨.inl h1, rfl⟩

/-- The native constructor raises no `ValueError`. -/
theorem simNew_ne_valueError (w : Nat) (nb d : Int) (an : Option String) (lc : Option Bool)
    (rg : Option (Int × Int)) : PySimHash.new w nb d an lc rg ≠ .error .valueError := by
  unfold PySimHash.new
  intro h
  by_cases h1 : FitsUsize nb
  · rw [pyUsize_ok h1] at h
    by_cases h2 : FitsUsize d
    · rw [pyUsize_ok h2] at h
      simp only [bind, Except.bind] at h
      rcases pyOptRange_cases rg with ⟨_, e⟩ | ⟨_, e⟩
      · rw [e] at h
        simp only at h
        cases hs : SimIndex.new w w Int64 nb.toNat d.toNat with
        | ok i => rw [hs] at h; cases h
        | error e => rw [hs] at h; cases h
      · rw [e] at h; cases h
    · rw [pyUsize_error h2] at h; cases h
  · rw [pyUsize_error h1] at h; cases h

/-- What the native constructor makes of arguments in range. -/
theorem simNew_ok {w : Nat} {nb d : Int} {an : Option String} {lc : Option Bool}
    (h0 : 0 ≤ d) (h1 : d ≤ nb) (h2 : nb ≤ w) (h3 : w < 2 ^ 64) :
    ∃ idx, SimIndex.new w w Int64 nb.toNat d.toNat = .ok idx ∧ PySimHash.new w nb d an lc none =
      .ok ⟨idx, TokenizerSpec.new (an.getD "word") none, lc.getD false⟩ := by
  obtain ⟨idx, h⟩ := C51_new_returns (w := w) (Id := Int64) nb.toNat d.toNat w (by omega) (by omega) le_rfl
  refine ⟨idx, h, ?_⟩
  unfold PySimHash.new
  rw [pyUsize_ok ⟨by omega, by omega⟩, pyUsize_ok ⟨h0, by omega⟩]
  simp only [bind, Except.bind]
  rw [h]
  rfl

/-- The constructor with the default values of the other arguments. -/
theorem simInit_default (n d : Int) (h : d < n) :
    PySimObject.init { exSimArgs with numBlocks := n, hammingDistance := d } =
      (PySimHash.new 64 n d (some "word") none none).map fun native => ⟨64, .named (some "word"), native⟩ := by
  unfold PySimObject.init
  rw [if_neg (not_not.mpr (.inl rfl)), if_neg (by simp only; omega), if_neg (by simp only; omega), if_neg (by
    show ¬ (Analyzer.named (some "word")).unknown = true
    decide), if_pos (by rfl)]
  rfl

/-- C70 is false of the code, for every number of blocks outside `3..32`: no `ValueError` is raised for it (with a
smaller Hamming distance and the other arguments at their defaults); and for 1, 2 and 33 to 64 an index is made. -/
theorem C70_rejects_false (n : Int) (_hn : n < 3 ∨ 32 < n) :
    PySimObject.init { exSimArgs with numBlocks := n, hammingDistance := n - 1 } ≠ .error .valueError ∧
    (1 ≤ n → n ≤ 64 →
      ∃ obj, PySimObject.init { exSimArgs with numBlocks := n, hammingDistance := n - 1 } = .ok obj) := by
  rw [simInit_default n (n - 1) (by omega)]
  constructor
  · intro h
    have := simNew_ne_valueError 64 n (n - 1) (some "word") none none
    cases hx : PySimHash.new 64 n (n - 1) (some "word") none none with
    | ok x => rw [hx] at h; cases h
    | error x =>
      rw [hx] at h this
      cases Except.error.inj h
      exact this rfl
  · intro h1 h2
    obtain ⟨idx, _, h⟩ := simNew_ok (w := 64) (nb := n) (d := n - 1) (an := some "word") (lc := none) (by omega)
      (by omega) (by exact_mod_cast h2) (by norm_num)
    exact ⟨_, by rw [h]; rfl⟩

/-- C70, the part that holds: `ValueError` is raised exactly for a hash size other than 64 and 128, a Hamming
distance not below the number of blocks, or an unknown analyzer. In particular every number of blocks below 1 is
rejected, unless the Hamming distance is negative too. Missing: the limits 3 and 32. -/
theorem C70_rejects_partial (a : PySimArgs) :
    PySimObject.init a = .error .valueError ↔
      (a.hashSize ≠ 64 ∧ a.hashSize ≠ 128) ∨ a.numBlocks ≤ a.hammingDistance ∨
      ∃ n, a.analyzer = .named n ∧ n ≠ some "word" ∧ n ≠ some "char" := by
  have hu : a.analyzer.unknown = true ↔ ∃ n, a.analyzer = .named n ∧ n ≠ some "word" ∧ n ≠ some "char" := by
    cases a.analyzer with
    | named n => simp [Analyzer.unknown]
    | callable f => simp [Analyzer.unknown]
  rw [← hu]
  rcases simInit_cases a with ⟨h, e⟩ | ⟨h1, h2, h3, e⟩
  · rw [e]
    refine ⟨fun _ => ?_, fun _ => rfl⟩
    rcases h with h | h | h
    · left; exact not_or.mp h
    · exact .inr (.inl h)
    · exact .inr (.inr h)
  · rw [e]
    constructor
    · intro h
      have := simNew_ne_valueError a.hashSize.toNat a.numBlocks a.hammingDistance a.analyzer.nativeName a.lowercase
        a.ngramRange
      cases hx : PySimHash.new a.hashSize.toNat a.numBlocks a.hammingDistance a.analyzer.nativeName a.lowercase
        a.ngramRange with
      | ok x => rw [hx] at h; cases h
      | error x =>
        rw [hx] at h this
        cases Except.error.inj h
        exact absurd rfl this
    · rintro (h | h | h)
      · exact absurd h1 (not_or.mpr h)
      · omega
      · rw [h3] at h; cases h

/-- An accepted object in the allowed range, and a rejected one. -/
example : (∃ obj, PySimObject.init exSimArgs = .ok obj) ∧
    PySimObject.init { exSimArgs with hammingDistance := 6 } = .error .valueError ∧
    ((33 : Int) < 3 ∨ 32 < (33 : Int)) := by
  refine ⟨?_, (C70_rejects_partial _).mpr (.inr (.inl (by decide))), by omega⟩
  obtain ⟨idx, _, h⟩ := simNew_ok (w := 64) (nb := 6) (d := 5) (an := some "word") (lc := none) (by omega) (by omega)
    (by norm_num) (by norm_num)
  exact ⟨⟨64, .named (some "word"), _⟩, by
    rw [show exSimArgs = { exSimArgs with numBlocks := 6, hammingDistance := 5 } from rfl,
      simInit_default 6 5 (by omega), h]
    rfl⟩

/-! ## C76 -/

/-- The object made by the constructor holds an empty native index. -/
theorem simInit_ok {a : PySimArgs} {obj : PySimObject} (h : PySimObject.init a = .ok obj) :
    obj.index.analyzer = a.analyzer ∧ 0 ≤ a.hammingDistance ∧
      SimIndex.new obj.width obj.width Int64 a.numBlocks.toNat a.hammingDistance.toNat = .ok obj.index.native.inner := by
  rcases simInit_cases a with ⟨_, e⟩ | ⟨_, _, _, e⟩
  · rw [e] at h; cases h
  · rw [e] at h
    cases hx : PySimHash.new a.hashSize.toNat a.numBlocks a.hammingDistance a.analyzer.nativeName a.lowercase
        a.ngramRange with
    | error x => rw [hx] at h; cases h
    | ok x =>
      rw [hx] at h
      cases h
      refine ⟨rfl, ?_⟩
      unfold PySimHash.new at hx
      by_cases h1 : FitsUsize a.numBlocks
      · rw [pyUsize_ok h1] at hx
        by_cases h2 : FitsUsize a.hammingDistance
        · rw [pyUsize_ok h2] at hx
          simp only [bind, Except.bind] at hx
          rcases pyOptRange_cases a.ngramRange with ⟨_, e⟩ | ⟨_, e⟩
          · rw [e] at hx
            simp only at hx
            cases hs : SimIndex.new a.hashSize.toNat a.hashSize.toNat Int64 a.numBlocks.toNat
              a.hammingDistance.toNat with
            | ok i => rw [hs] at hx; cases hx; exact ⟨h2.1, rfl⟩
            | error e => rw [hs] at hx; cases hx
          · rw [e] at hx; cases hx
        · rw [pyUsize_error h2] at hx; cases hx
      · rw [pyUsize_error h1] at hx; cases hx

theorem lastSig_append {Id : Type} [DecidableEq Id] (l l' : List (Id × BitVec w)) (id : Id) :
    lastSig (l ++ l') id = (lastSig l' id).or (lastSig l id) := by
  unfold lastSig
  rw [List.reverse_append, List.find?_append]
  cases l'.reverse.find? (fun p => decide (p.1 = id)) <;> rfl

/-- The answer to `query(doc)` is decided by the Hamming distance to the signature of the last accepted insertion. -/
theorem simQuery_exact {a : PySimArgs} {obj : PySimObject} (h : PySimObject.init a = .ok obj)
    (env : PySimEnv obj.width) (ops : List (Int64 × PyText)) (doc : PyText) (s : BitVec obj.width)
    (hs : obj.index.sig env doc = .ok s) (r : PyRun) :
    ∃ l, (obj.index.run env ops).query env r doc false = .ok (.ids l) ∧ l.Nodup ∧
      ∀ id, id ∈ l ↔ ∃ sg, lastSig (obj.index.accepted env ops) id = some sg ∧
        ((diffBits s sg).card : Int) < a.hammingDistance := by
  obtain ⟨hcfg, hinner⟩ := PySimIndex.run_inner env ops obj.index
  obtain ⟨_, h0, hnew⟩ := simInit_ok h
  obtain ⟨set, hq, _, hm⟩ := C51_query_exact hnew
    ((obj.index.accepted env ops).map fun p => SimOp.insert p.1 p.2) s
  have has : assigned ((obj.index.accepted env ops).map fun p => SimOp.insert p.1 p.2) =
      obj.index.accepted env ops := by
    induction obj.index.accepted env ops with
    | nil => rfl
    | cons p l ih => rw [List.map_cons, assigned, ih]
  rw [has] at hm
  rw [← hinner] at hq
  rw [← hcfg.sig env] at hs
  generalize obj.index.run env ops = st at hs hq
  refine ⟨r.o1.perm set.elems, ?_, (r.o1.isPerm _).nodup_iff.mpr set.nodup, fun id => ?_⟩
  · obtain ⟨an, na⟩ := st
    cases an with
    | callable f =>
      unfold PySimIndex.sig at hs
      simp only at hs
      cases hf : f doc with
      | error e => rw [hf] at hs; cases hs
      | ok toks =>
        rw [hf] at hs
        cases hs
        rw [(C69_dispatch_partial env r ⟨.callable f, na⟩).2.1 f rfl doc toks hf]
        unfold PySimHash.queryTokens
        simp only at hq
        rw [hq]
        rfl
    | named n =>
      unfold PySimIndex.sig at hs
      simp only at hs
      rw [(C69_dispatch_partial env r ⟨.named n, na⟩).1 n rfl doc]
      unfold PySimHash.query
      cases hd : na.doc2signature env doc with
      | error e => simp only [hd] at hs; cases hs
      | ok s' =>
        rw [hd] at hs
        cases hs
        simp only [bind, Except.bind]
        simp only at hq
        rw [hq]
        rfl
  · rw [Order.mem_perm, hm]
    constructor
    · rintro ⟨sg, h1, h2⟩; exact ⟨sg, h1, by omega⟩
    · rintro ⟨sg, h1, h2⟩; exact ⟨sg, h1, by omega⟩

/-- C76, the part that holds: with a Hamming distance of at least 1, if `insert_document(id, doc)` returned after
some history and no later call inserts `id` again, `query(doc)` returns and contains `id`. Missing: distance 0. -/
theorem C76_finds_partial {a : PySimArgs} {obj : PySimObject} (h : PySimObject.init a = .ok obj)
    (hd : 1 ≤ a.hammingDistance) (env : PySimEnv obj.width) (pre post : List (Int64 × PyText)) (id : Int64)
    (doc : PyText) (hins : ((obj.index.run env pre).insertDocument env id doc).2 = .ok ())
    (hpost : ∀ p ∈ post, p.1 ≠ id) (r : PyRun) :
    ∃ l, (obj.index.run env (pre ++ (id, doc) :: post)).query env r doc false = .ok (.ids l) ∧ id ∈ l := by
  obtain ⟨hcfg, _⟩ := PySimIndex.run_inner env pre obj.index
  obtain ⟨s, hs⟩ : ∃ s, obj.index.sig env doc = .ok s := by
    rw [← hcfg.sig env]
    rcases PySimIndex.insertDocument_cases env (obj.index.run env pre) id doc with ⟨s, e, _⟩ | ⟨e, _, e'⟩
    · exact ⟨s, e⟩
    · rw [e'] at hins; cases hins
  obtain ⟨l, hl, _, hm⟩ := simQuery_exact h env (pre ++ (id, doc) :: post) doc s hs r
  refine ⟨l, hl, (hm id).mpr ⟨s, ?_, ?_⟩⟩
  · have : obj.index.accepted env (pre ++ (id, doc) :: post) =
        obj.index.accepted env pre ++ (id, s) :: obj.index.accepted env post := by
      unfold PySimIndex.accepted
      rw [List.filterMap_append, List.filterMap_cons, hs]
    rw [this, lastSig_append]
    have hnone : lastSig (obj.index.accepted env post) id = none := by
      have : ∀ p ∈ obj.index.accepted env post, p.1 ≠ id := by
        intro p hp
        unfold PySimIndex.accepted at hp
        obtain ⟨q, hq, he⟩ := List.mem_filterMap.mp hp
        cases hsq : obj.index.sig env q.2 with
        | error e => rw [hsq] at he; cases he
        | ok sq => rw [hsq] at he; cases he; exact hpost q hq
      unfold lastSig
      rw [List.find?_eq_none.mpr fun p hp => by simpa using this p (List.mem_reverse.mp hp)]
      rfl
    have hone : lastSig ((id, s) :: obj.index.accepted env post) id = some s := by
      rw [show (id, s) :: obj.index.accepted env post = [(id, s)] ++ obj.index.accepted env post from rfl,
        lastSig_append, hnone]
      simp [lastSig]
    rw [hone]
    rfl
  · have : (diffBits s s).card = 0 := by simp [diffBits]
    omega

/-- C76 is false of the code: with Hamming distance 0 (which the constructor accepts) no query ever returns
anything, whatever has been inserted, not even the queried document itself. -/
theorem C76_finds_false {a : PySimArgs} {obj : PySimObject} (h : PySimObject.init a = .ok obj)
    (hd : a.hammingDistance = 0) (env : PySimEnv obj.width) (ops : List (Int64 × PyText)) (doc : PyText)
    (s : BitVec obj.width) (hs : obj.index.sig env doc = .ok s) (r : PyRun) :
    (obj.index.run env ops).query env r doc false = .ok (.ids []) := by
  obtain ⟨l, hl, _, hm⟩ := simQuery_exact h env ops doc s hs r
  rw [hl]
  have : l = [] := by
    apply List.eq_nil_iff_forall_not_mem.mpr
    intro id hid
    obtain ⟨_, _, h'⟩ := (hm id).mp hid
    omega
  rw [this]

/-- Objects with distance 5 and 0, for which every document has a signature. -/
example : ∃ obj, PySimObject.init exSimArgs = .ok obj ∧ 1 ≤ exSimArgs.hammingDistance ∧
    (∀ (env : PySimEnv obj.width) (pre : List (Int64 × PyText)),
      ((obj.index.run env pre).insertDocument env 3 "a b".toList).2 = .ok ()) ∧
    ∀ p ∈ [((4 : Int64), "c".toList), (5, "a b".toList)], p.1 ≠ 3 := by
  obtain ⟨idx, _, h⟩ := simNew_ok (w := 64) (nb := 6) (d := 5) (an := some "word") (lc := none) (by omega) (by omega)
    (by norm_num) (by norm_num)
  refine ⟨⟨64, .named (some "word"), _⟩, by
    rw [show exSimArgs = { exSimArgs with numBlocks := 6, hammingDistance := 5 } from rfl,
      simInit_default 6 5 (by omega), h]
    rfl, by decide, fun env pre => ?_, by decide⟩
  obtain ⟨hcfg, _⟩ := PySimIndex.run_inner env pre
    ⟨.named (some "word"), ⟨idx, TokenizerSpec.new ((some "word").getD "word") none, none.getD false⟩⟩
  rcases PySimIndex.insertDocument_cases env (PySimIndex.run env ⟨.named (some "word"), ⟨idx,
    TokenizerSpec.new ((some "word").getD "word") none, none.getD false⟩⟩ pre) 3 "a b".toList with ⟨s, _, e⟩ | ⟨e, h1, _⟩
  · exact congrArg Prod.snd e
  · rw [hcfg.sig env] at h1
    cases h1

end Verif.Props
