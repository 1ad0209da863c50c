import Verif.Lemmas.PyInit
import Verif.Props.IndexRank

/-! # Properties C66 - C68: the Python MinHash index -/
namespace Verif.Props
open Verif.Spec

/-! ## C68 -/

/-- The checks in `__init__` on the first, second and last argument. -/
def ChecksPass (a : PyMinArgs) : Prop :=
  (a.hashSize = 8 ∨ a.hashSize = 16 ∨ a.hashSize = 32 ∨ a.hashSize = 64) ∧
  Fl.lt a.jaccardThreshold (.fin 0) = false ∧ Fl.gt a.jaccardThreshold (.fin 1) = false ∧
  (a.idContainer = "set" ∨ a.idContainer = "vec" ∨ a.idContainer = "smallvec")

/-- Either both `num_bands` and `band_size` or `num_hashes` is given. -/
def SizesGiven (a : PyMinArgs) : Prop :=
  (a.numBands ≠ none ∧ a.bandSize ≠ none) ∨ a.numHashes ≠ none

/-- All outcomes of the constructor. -/
theorem init_cases (env : PyMinEnv) (ahash : (h : HashSize) → List h.T → UInt64) (a : PyMinArgs) :
    (¬ ChecksPass a ∧ PyMinObject.init env ahash a = .error .valueError) ∨
    (ChecksPass a ∧ ¬ a.fit ∧ PyMinObject.init env ahash a = .error .overflowError) ∨
    (ChecksPass a ∧ a.fit ∧ ¬ SizesGiven a ∧ PyMinObject.init env ahash a = .error .valueError) ∨
    (ChecksPass a ∧ a.fit ∧ SizesGiven a ∧ ∃ (h : HashSize) (k : ContKind) (b r : Nat),
      HashSize.ofInt a.hashSize = some h ∧ ContKind.ofString a.idContainer = some k ∧ BandParams env a b r ∧
      PyMinObject.init env ahash a = .ok ⟨h, k, ⟨a.analyzer, PyMinHash.build env (ahash h) a.jaccardThreshold b r
        a.analyzer.nativeName a.lowercase a.range⟩⟩) := by
  unfold PyMinObject.init
  cases hh : HashSize.ofInt a.hashSize with
  | none => left; exact ⟨fun hc => hashSize_none hh hc.1, rfl⟩
  | some h =>
    simp only
    by_cases ht : (Fl.lt a.jaccardThreshold (.fin 0) || Fl.gt a.jaccardThreshold (.fin 1)) = true
    · left
      rw [if_pos ht]
      refine ⟨fun hc => ?_, rfl⟩
      rw [hc.2.1, hc.2.2.1] at ht
      cases ht
    · rw [if_neg ht]
      cases hk : ContKind.ofString a.idContainer with
      | none => left; exact ⟨fun hc => contKind_none hk hc.2.2.2, rfl⟩
      | some k =>
        right
        have hc : ChecksPass a := by
          rw [Bool.or_eq_true, not_or] at ht
          exact ⟨hashSize_some hh, by simpa using ht.1, by simpa using ht.2, contKind_some hk⟩
        simp only
        rcases new_cases (C := k.C) env (ahash h) a with ⟨hf, e⟩ | ⟨hf, e⟩
        · right
          rw [e]
          rcases build_cases (C := k.C) env (ahash h) a with ⟨b, r, hp, e'⟩ | ⟨hn, hn', e'⟩
          · right
            refine ⟨hc, hf, ?_, h, k, b, r, rfl, rfl, hp, by rw [e']; rfl⟩
            rcases hp with ⟨nb, bs, h1, h2, _⟩ | ⟨_, nh, h3, _⟩
            · left; rw [h1, h2]; simp
            · right; rw [h3]; simp
          · left
            refine ⟨hc, hf, ?_, by rw [e']; rfl⟩
            rintro (⟨h1, h2⟩ | h3)
            · rcases hn with hn | hn
              · exact h1 hn
              · exact h2 hn
            · exact h3 hn'
        · left
          exact ⟨hc, hf, by rw [e]; rfl⟩

/-- Arguments for the examples. -/
def exArgs : PyMinArgs :=
  { hashSize := 16, jaccardThreshold := .fin (1 / 2), numBands := some 4, bandSize := some 2, numHashes := none,
    analyzer := .named (some "word"), lowercase := some true, ngramRange := none, idContainer := "vec" }

/-- C68 is false of the code: a threshold outside `[0, 1]`, namely NaN, is accepted (whatever the external code). -/
theorem C68_rejects_false : ∃ a : PyMinArgs, (¬ ∃ q : ℚ, 0 ≤ q ∧ q ≤ 1 ∧ a.jaccardThreshold = .fin q) ∧
    ∀ env ahash, ∃ obj, PyMinObject.init env ahash a = .ok obj := by
  refine ⟨{ exArgs with jaccardThreshold := .nan }, ?_, fun env ahash => ?_⟩
  · rintro ⟨q, _, _, h⟩; cases h
  · exact ⟨_, rfl⟩

/-- C68, the part that holds: if the threshold is not NaN, an object is made exactly if the hash size is 8, 16, 32
or 64, the threshold is in `[0, 1]`, the container is known, all integers fit `usize`, and either both `num_bands`
and `band_size` or `num_hashes` is given. Missing: NaN thresholds, which are accepted. -/
theorem C68_accepts_partial (env : PyMinEnv) (ahash : (h : HashSize) → List h.T → UInt64) (a : PyMinArgs)
    (hnan : a.jaccardThreshold ≠ .nan) :
    (∃ obj, PyMinObject.init env ahash a = .ok obj) ↔
      (a.hashSize = 8 ∨ a.hashSize = 16 ∨ a.hashSize = 32 ∨ a.hashSize = 64) ∧
      (∃ q : ℚ, 0 ≤ q ∧ q ≤ 1 ∧ a.jaccardThreshold = .fin q) ∧
      (a.idContainer = "set" ∨ a.idContainer = "vec" ∨ a.idContainer = "smallvec") ∧
      a.fit ∧ ((a.numBands ≠ none ∧ a.bandSize ≠ none) ∨ a.numHashes ≠ none) := by
  have hthr : (Fl.lt a.jaccardThreshold (.fin 0) = false ∧ Fl.gt a.jaccardThreshold (.fin 1) = false) ↔
      ∃ q : ℚ, 0 ≤ q ∧ q ≤ 1 ∧ a.jaccardThreshold = .fin q := by
    cases ht : a.jaccardThreshold with
    | nan => exact absurd ht hnan
    | ninf => simp [Fl.lt, Fl.cmp]
    | pinf => simp [Fl.gt, Fl.cmp]
    | fin q =>
      simp only [Fl.lt, Fl.gt, Fl.cmp, Fl.fin.injEq, beq_eq_false_iff_ne, ne_eq,
        Option.some.injEq]
      rw [compare_lt_iff_lt, compare_gt_iff_gt, not_lt, not_lt]
      constructor
      · rintro ⟨h1, h2⟩; exact ⟨q, h1, h2, rfl⟩
      · rintro ⟨q', h1, h2, rfl⟩; exact ⟨h1, h2⟩
  rw [← hthr]
  rcases init_cases env ahash a with ⟨h, e⟩ | ⟨h, hf, e⟩ | ⟨h, hf, hs, e⟩ | ⟨h, hf, hs, _, _, _, _, _, _, _, e⟩
  · rw [e]
    constructor
    · rintro ⟨_, h'⟩; cases h'
    · rintro ⟨h1, h2, h3, _⟩; exact absurd ⟨h1, h2.1, h2.2, h3⟩ h
  · rw [e]
    constructor
    · rintro ⟨_, h'⟩; cases h'
    · rintro ⟨_, _, _, h4, _⟩; exact absurd h4 hf
  · rw [e]
    constructor
    · rintro ⟨_, h'⟩; cases h'
    · rintro ⟨_, _, _, _, h5⟩; exact absurd h5 hs
  · rw [e]
    exact ⟨fun _ => ⟨h.1, ⟨h.2.1, h.2.2.1⟩, h.2.2.2, hf, hs⟩, fun _ => ⟨_, rfl⟩⟩

/-- C68: which error is raised. A `ValueError` for a bad hash size, threshold, container, or if no sizes are given;
`OverflowError` for an integer that does not fit `usize`; nothing else, in particular no panic. -/
theorem C68_errors (env : PyMinEnv) (ahash : (h : HashSize) → List h.T → UInt64) (a : PyMinArgs) (e : PyExc) :
    PyMinObject.init env ahash a = .error e ↔
      (e = .valueError ∧ (¬ ChecksPass a ∨ (a.fit ∧ ¬ SizesGiven a))) ∨
      (e = .overflowError ∧ ChecksPass a ∧ ¬ a.fit) := by
  rcases init_cases env ahash a with ⟨h, e'⟩ | ⟨h, hf, e'⟩ | ⟨h, hf, hs, e'⟩ | ⟨h, hf, hs, _, _, _, _, _, _, _, e'⟩
  · rw [e']
    constructor
    · intro he; cases he; exact .inl ⟨rfl, .inl h⟩
    · rintro (⟨rfl, _⟩ | ⟨_, h', _⟩)
      · rfl
      · exact absurd h' h
  · rw [e']
    constructor
    · intro he; cases he; exact .inr ⟨rfl, h, hf⟩
    · rintro (⟨_, h' | h'⟩ | ⟨rfl, _⟩)
      · exact absurd h h'
      · exact absurd h'.1 hf
      · rfl
  · rw [e']
    constructor
    · intro he; cases he; exact .inl ⟨rfl, .inr ⟨hf, hs⟩⟩
    · rintro (⟨rfl, _⟩ | ⟨_, _, h'⟩)
      · rfl
      · exact absurd hf h'
  · rw [e']
    constructor
    · intro he; cases he
    · rintro (⟨_, h' | h'⟩ | ⟨_, _, h'⟩)
      · exact absurd h h'
      · exact absurd hs h'.2
      · exact absurd hf h'

/-- C68: the object made has the requested hash size and container, a fresh index, and its hasher makes signatures
of length `num_bands * band_size` if both are given, else of length `b * r` for the `(b, r)` of
`calculate_minhash_params`; the index expects that length. -/
theorem C68_lengths (env : PyMinEnv) (ahash : (h : HashSize) → List h.T → UInt64) (a : PyMinArgs) (obj : PyMinObject)
    (h : PyMinObject.init env ahash a = .ok obj) :
    HashSize.ofInt a.hashSize = some obj.hashSize ∧ ContKind.ofString a.idContainer = some obj.container ∧
    obj.index.size = 0 ∧
    ∃ b r, BandParams env a b r ∧ obj.index.native.inner.numHashes = b * r ∧
      obj.index.native.inner.b = b ∧ obj.index.native.inner.r = r ∧
      obj.index.native.inner.threshold = a.jaccardThreshold ∧
      ∀ toks, ∃ s, PyHasher.create obj.index.native.minHash toks = .ok s ∧ s.length = b * r := by
  rcases init_cases env ahash a with ⟨_, e⟩ | ⟨_, _, e⟩ | ⟨_, _, _, e⟩ | ⟨_, _, _, hh, k, b, r, h1, h2, h3, e⟩
  · rw [e] at h; cases h
  · rw [e] at h; cases h
  · rw [e] at h; cases h
  · rw [e] at h; cases h
    exact ⟨h1, h2, rfl, b, r, h3, rfl, rfl, rfl, rfl, fun toks => LawfulPyHasher.create_new _ _ _ toks⟩

/-- The band parameters are determined by the arguments. -/
theorem C68_params_unique (env : PyMinEnv) (a : PyMinArgs) (b r b' r' : Nat) (h : BandParams env a b r)
    (h' : BandParams env a b' r') : b = b' ∧ r = r' := by
  rcases h with ⟨nb, bs, h1, h2, rfl, rfl⟩ | ⟨hn, nh, h3, e⟩
  · rcases h' with ⟨nb', bs', h1', h2', rfl, rfl⟩ | ⟨hn, _⟩
    · rw [h1] at h1'; rw [h2] at h2'; cases h1'; cases h2'; exact ⟨rfl, rfl⟩
    · rcases hn with hn | hn
      · rw [h1] at hn; cases hn
      · rw [h2] at hn; cases hn
  · rcases h' with ⟨nb', bs', h1', h2', _⟩ | ⟨_, nh', h3', e'⟩
    · rcases hn with hn | hn
      · rw [h1'] at hn; cases hn
      · rw [h2'] at hn; cases hn
    · rw [h3] at h3'; cases h3'
      rw [e] at e'; cases e'; exact ⟨rfl, rfl⟩

theorem exArgs_checks : ChecksPass exArgs := ⟨by decide, by decide +kernel, by decide +kernel, by decide⟩

theorem exArgs_fit : exArgs.fit :=
  ⟨fun n h => by cases h; exact ⟨by decide, by decide⟩, fun n h => by cases h; exact ⟨by decide, by decide⟩,
    fun n h => (nomatch h), fun p h => (nomatch h)⟩

theorem exArgs_ok (env : PyMinEnv) (ahash : (h : HashSize) → List h.T → UInt64) :
    ∃ obj, PyMinObject.init env ahash exArgs = .ok obj :=
  (C68_accepts_partial env ahash exArgs (by decide)).mpr ⟨by decide, ⟨1 / 2, by decide +kernel, by decide +kernel, rfl⟩,
    by decide, exArgs_fit, .inl ⟨by decide, by decide⟩⟩

/-- Instances: an accepted and some rejected argument tuples. -/
example (env : PyMinEnv) (ahash : (h : HashSize) → List h.T → UInt64) :
    (∃ obj, PyMinObject.init env ahash exArgs = .ok obj) ∧
    PyMinObject.init env ahash { exArgs with hashSize := 24 } = .error .valueError ∧
    PyMinObject.init env ahash { exArgs with bandSize := none } = .error .valueError ∧
    PyMinObject.init env ahash { exArgs with bandSize := some (-1) } = .error .overflowError ∧
    BandParams env exArgs 4 2 := by
  refine ⟨exArgs_ok env ahash, rfl, ?_, ?_, .inl ⟨4, 2, rfl, rfl, rfl, rfl⟩⟩
  · refine (C68_errors _ _ _ _).mpr (.inl ⟨rfl, .inr ⟨⟨exArgs_fit.1, fun n h => (nomatch h), exArgs_fit.2.2.1,
      exArgs_fit.2.2.2⟩, ?_⟩⟩)
    rintro (⟨_, h⟩ | h)
    · exact h rfl
    · exact h rfl
  · refine (C68_errors _ _ _ _).mpr (.inr ⟨rfl, exArgs_checks, fun h => ?_⟩)
    have := (h.2.1 (-1) rfl).1
    omega

/-! ## Objects and histories -/

/-- The state of a constructed object represents an empty Rust index. -/
theorem init_rep {env : PyMinEnv} {ahash : (h : HashSize) → List h.T → UInt64} {a : PyMinArgs} {obj : PyMinObject}
    (h : PyMinObject.init env ahash a = .ok obj) :
    ∃ b r, BandParams env a b r ∧
      PyMinIndex.Rep env b r a.jaccardThreshold (ahash obj.hashSize) [] obj.index ∧
      obj.index.analyzer = a.analyzer ∧
      obj.index.native.tokenizer = TokenizerSpec.new (a.analyzer.nativeName.getD "word") a.range := by
  rcases init_cases env ahash a with ⟨_, e⟩ | ⟨_, _, e⟩ | ⟨_, _, _, e⟩ | ⟨_, _, _, hh, k, b, r, h1, h2, h3, e⟩
  · rw [e] at h; cases h
  · rw [e] at h; cases h
  · rw [e] at h; cases h
  · rw [e] at h; cases h
    exact ⟨b, r, h3, ⟨rfl, rfl, by intro op hop; cases hop⟩, rfl, rfl⟩

/-- The analyzer of `a` returns on every text in `docs`: a callable does not raise, and the crate `shingles`
returns shingles where it is used. -/
def AnalyzerReturns (env : PyMinEnv) (a : PyMinArgs) (docs : List PyText) : Prop :=
  match a.analyzer with
  | .callable f => ∀ d ∈ docs, ∃ toks, f d = .ok toks
  | .named n => ShinglesReturn env.toPyEnv (TokenizerSpec.new (n.getD "word") a.range)

theorem sig_total {env : PyMinEnv} {ahash : (h : HashSize) → List h.T → UInt64} {a : PyMinArgs} {obj : PyMinObject}
    (h : PyMinObject.init env ahash a = .ok obj) {docs : List PyText} (ha : AnalyzerReturns env a docs)
    (d : PyText) (hd : d ∈ docs) : ∃ s, obj.index.sig env d = .ok s := by
  obtain ⟨b, r, _, hrep, han, htok⟩ := init_rep h
  unfold PyMinIndex.sig
  rw [han]
  unfold AnalyzerReturns at ha
  have hc := LawfulPyHasher.create_new (T := obj.hashSize.T) env.rng (b * r) env.hash
  rw [← hrep.hasher] at hc
  cases hn : a.analyzer with
  | callable f =>
    rw [hn] at ha
    obtain ⟨toks, e⟩ := ha d hd
    obtain ⟨s, e', _⟩ := hc (pyTokens toks)
    refine ⟨s, ?_⟩
    simp only
    rw [e]
    show fromRust _ = _
    rw [e']
    rfl
  | named n =>
    rw [hn] at ha htok
    simp only
    have key : ∀ d, ∃ s, obj.index.native.tokenizeAndMinhash env d = .ok s := by
      intro d
      obtain ⟨toks, e⟩ := tokenize_total env.toPyEnv (n.getD "word") a.range ha d
      obtain ⟨s, e', _⟩ := hc toks
      refine ⟨s, ?_⟩
      unfold PyMinHash.tokenizeAndMinhash
      rw [htok]
      show (tokenize env.toPyEnv (TokenizerSpec.new (n.getD "word") a.range) d >>= _) = _
      rw [e]
      exact e'
    unfold PyMinHash.hashDoc
    split_ifs
    · obtain ⟨s, e⟩ := key (env.lower d)
      exact ⟨s, by rw [e]; rfl⟩
    · obtain ⟨s, e⟩ := key d
      exact ⟨s, by rw [e]; rfl⟩

/-! ## C66 -/

/-- C66, MinHash: after every history, a batch insertion (below or above 100 ids, any schedule, any analyzer) does
not raise and leaves the same index as inserting the documents one by one. If the lists have different lengths, the
surplus is ignored. -/
theorem C66_minhash_bulk (env : PyMinEnv) (ahash : (h : HashSize) → List h.T → UInt64) (a : PyMinArgs)
    (obj : PyMinObject) (h : PyMinObject.init env ahash a = .ok obj) (pre : List PyMinOp) (ids : List Int64)
    (docs : List PyText) (ha : AnalyzerReturns env a docs) (s1 s2 : List Nat) :
    (obj.index.run env pre).parBulkInsertDocs env ids docs s1 s2 =
      (obj.index.run env (pre ++ (ids.zip docs).map fun p => .insertDocument p.1 p.2), .ok ()) := by
  obtain ⟨b, r, _, hrep, _⟩ := init_rep h
  obtain ⟨ops', h1, h2, _⟩ := PyMinIndex.run_rep pre hrep
  rw [PyMinIndex.parBulkInsertDocs_eq h1 ids docs (fun d hd => by
    rw [h2.sig env]; exact sig_total h ha d hd), PyMinIndex.run_append']

/-- C66, MinHash: and each of the single insertions returns normally. -/
theorem C66_minhash_single (env : PyMinEnv) (ahash : (h : HashSize) → List h.T → UInt64) (a : PyMinArgs)
    (obj : PyMinObject) (h : PyMinObject.init env ahash a = .ok obj) (pre : List PyMinOp) (id : Int64)
    (doc : PyText) (ha : AnalyzerReturns env a [doc]) :
    ((obj.index.run env pre).insertDocument env id doc).2 = .ok () := by
  obtain ⟨b, r, _, hrep, _⟩ := init_rep h
  obtain ⟨ops', h1, h2, _⟩ := PyMinIndex.run_rep pre hrep
  obtain ⟨s, e⟩ := sig_total h ha doc (by simp)
  exact ((PyMinIndex.insertDocument_rep h1 id doc).1 s (by rw [h2.sig env]; exact e)).2

/-- The hypothesis on the analyzer is met by the word and character analyzers with their default range and with
every proper range, whatever the external code, and by total callables. -/
example (env : PyMinEnv) (docs : List PyText) : AnalyzerReturns env exArgs docs ∧
    AnalyzerReturns env { exArgs with analyzer := .named (some "char") } docs ∧
    (∀ lo hi : Int, lo.toNat ≠ hi.toNat →
      AnalyzerReturns env { exArgs with analyzer := .named (some "char"), ngramRange := some (lo, hi) } docs) ∧
    AnalyzerReturns env { exArgs with analyzer := .callable fun d => .ok [d] } docs := by
  refine ⟨trivial, trivial, fun lo hi hne => ?_, fun d _ => ⟨_, rfl⟩⟩
  show ShinglesReturn _ (TokenizerSpec.new "char" (some (lo.toNat, hi.toNat)))
  unfold TokenizerSpec.new
  rw [if_pos rfl]
  simp only
  rw [if_neg hne]
  trivial

/-! ## C67 -/

/-- What the claim asks of the arguments: positive sizes (whose product does not overflow), a threshold that is
not NaN. (Thresholds above 1 are rejected by the constructor.) -/
def GoodSizes (a : PyMinArgs) : Prop :=
  (∃ nb bs : Int, a.numBands = some nb ∧ a.bandSize = some bs ∧ 1 ≤ nb ∧ 1 ≤ bs ∧ nb * bs < 2 ^ 64) ∨
  ((a.numBands = none ∨ a.bandSize = none) ∧ ∃ nh : Int, a.numHashes = some nh ∧ 1 ≤ nh)

theorem goodSizes_params {env : PyMinEnv} {a : PyMinArgs} {b r : Nat} (hf : a.fit) (hg : GoodSizes a)
    (hp : BandParams env a b r) : 1 ≤ b ∧ 1 ≤ r ∧ b * r < 2 ^ 64 := by
  rcases hg with ⟨nb, bs, h1, h2, h3, h4, h5⟩ | ⟨hn, nh, h3, h4⟩
  · obtain ⟨rfl, rfl⟩ := C68_params_unique env a b r nb.toNat bs.toNat hp (.inl ⟨nb, bs, h1, h2, rfl, rfl⟩)
    refine ⟨by omega, by omega, ?_⟩
    have : ((nb.toNat * bs.toNat : Nat) : Int) < 2 ^ 64 := by
      rw [Nat.cast_mul, Int.toNat_of_nonneg (by omega), Int.toNat_of_nonneg (by omega)]
      exact h5
    exact_mod_cast this
  · obtain ⟨b', r', e, hb, hr, _, hle⟩ := C13_params_default env.powf a.jaccardThreshold nh.toNat (by omega)
    obtain ⟨rfl, rfl⟩ := C68_params_unique env a b r b' r' hp (.inr ⟨hn, nh, h3, e _ (by omega)⟩)
    have := (hf.2.2.1 nh h3).2
    have h' : nh.toNat < 2 ^ 64 := by omega
    exact ⟨hb, hr, by omega⟩

/-- C67: if `insert_document(id, doc)` returned after some history, and no later call mentions `id`, then
`query(doc)` returns and its answer contains `id`; with `return_similarity`, if the call returns, the answer
contains `id` with similarity 1. -/
theorem C67_finds (env : PyMinEnv) (ahash : (h : HashSize) → List h.T → UInt64) (a : PyMinArgs)
    (obj : PyMinObject) (h : PyMinObject.init env ahash a = .ok obj) (hg : GoodSizes a)
    (ht : a.jaccardThreshold ≠ .nan) (pre post : List PyMinOp) (id : Int64) (doc : PyText)
    (hins : ((obj.index.run env pre).insertDocument env id doc).2 = .ok ())
    (hpost : ∀ op ∈ post, id ∉ op.ids) (o1 o2 : Order) :
    (∃ l, (obj.index.run env (pre ++ .insertDocument id doc :: post)).query env o1 o2 doc false = .ok (.ids l) ∧
      id ∈ l) ∧
    ∀ ans, (obj.index.run env (pre ++ .insertDocument id doc :: post)).query env o1 o2 doc true = .ok ans →
      ∃ l, ans = .pairs l ∧ (id, .fin 1) ∈ l := by
  have hcase := init_cases env ahash a
  obtain ⟨b, r, hp, hrep, _⟩ := init_rep h
  have hfit : a.fit ∧ ChecksPass a := by
    rcases hcase with ⟨_, e⟩ | ⟨_, _, e⟩ | ⟨_, _, _, e⟩ | ⟨hc, hf, _⟩
    · rw [e] at h; cases h
    · rw [e] at h; cases h
    · rw [e] at h; cases h
    · exact ⟨hf, hc⟩
  obtain ⟨hb, hr, hn⟩ := goodSizes_params hfit.1 hg hp
  have h0 : 0 < b * r := Nat.mul_pos hb hr
  have hthr : Fl.ge (.fin 1) a.jaccardThreshold = true := by
    have := hfit.2.2.2.1
    cases hv : a.jaccardThreshold with
    | nan => exact absurd hv ht
    | ninf => rfl
    | pinf => rw [hv] at this; cases this
    | fin q =>
      rw [hv] at this
      simp only [Fl.gt, Fl.ge, Fl.cmp, beq_eq_false_iff_ne, ne_eq, Option.some.injEq, Bool.or_eq_true,
        beq_iff_eq] at this ⊢
      rw [compare_gt_iff_gt, not_lt] at this
      rw [compare_gt_iff_gt, compare_eq_iff_eq]
      rcases this.lt_or_eq with h | h
      · exact .inl h
      · exact .inr h.symm
  obtain ⟨ops1, r1, c1, _⟩ := PyMinIndex.run_rep pre hrep
  obtain ⟨i1, i2, i3⟩ := PyMinIndex.insertDocument_rep r1 id doc
  -- the insertion was accepted
  obtain ⟨s, hs⟩ : ∃ s, (obj.index.run env pre).sig env doc = .ok s := by
    cases hs : (obj.index.run env pre).sig env doc with
    | ok s => exact ⟨s, rfl⟩
    | error e => rw [i2 e hs] at hins; cases hins
  obtain ⟨r2, _⟩ := i1 s hs
  obtain ⟨ops3, r3, c3, ho3⟩ := PyMinIndex.run_rep post r2
  have hrun : obj.index.run env (pre ++ .insertDocument id doc :: post) =
      ((obj.index.run env pre).insertDocument env id doc).1.run env post := by
    rw [PyMinIndex.run_append', PyMinIndex.run_cons']
    rfl
  rw [hrun]
  generalize hst : ((obj.index.run env pre).insertDocument env id doc).1.run env post = st at r3 c3
  have hsig : st.sig env doc = .ok s := by rw [(c3.trans i3).sig env]; exact hs
  have hsl : s.length = b * r := PyMinIndex.sig_length r3.hasher hsig
  have hlive : live (b * r) (([] ++ ops1 ++ [.insert id s]) ++ ops3) id = some s := by
    rw [PyMinIndex.live_only _ _ (ho3.2 id (by
      rw [List.mem_flatMap]
      rintro ⟨op, hop, hid⟩
      exact hpost op hop hid)), live_snoc]
    unfold applyL touch
    simp only
    rw [if_pos ⟨trivial, hsl⟩]
  have hget := (C15_get_signature (C := obj.container.C) b r a.jaccardThreshold (ahash obj.hashSize) _ id).trans hlive
  obtain ⟨res, hq, _, _, _, hmem⟩ := C19_self_right_lengths b r a.jaccardThreshold (ahash obj.hashSize) _ id s hb h0 hn
    hthr r3.lengths hget
  rw [← r3.inner] at hq
  have hqo : st.native.inner.queryOwned s = .ok res := by rw [query_owned_eq]; exact hq
  have hret : ∀ l, st.native.inner.queryOwnedReturnSimilarity o1 o2 s = .ok l → (id, .fin 1) ∈ l := by
    intro l hl
    rw [r3.inner] at hl
    obtain ⟨res', hres', hperm, hall, _⟩ := C23_sorted_query b r a.jaccardThreshold (ahash obj.hashSize) _ s
      hsl o1 o2 l hl
    rw [← r3.inner, hqo] at hres'
    cases hres'
    obtain ⟨p, hp, hpid⟩ := List.mem_map.mp (hperm.symm.mem_iff.mp hmem)
    obtain ⟨s', hs', hsim⟩ := hall p hp
    rw [hpid, hlive] at hs'
    cases hs'
    rw [self_similarity s (by omega) (by omega)] at hsim
    rw [← hpid, Except.ok.inj hsim]
    exact hp
  obtain ⟨an, na⟩ := st
  cases an with
  | named nm =>
    have hd := PyMinIndex.sig_named.mp hsig
    unfold PyMinIndex.query
    simp only
    rw [PyMinHash.query_eq, PyMinHash.queryReturnSimilarity_eq, hd]
    simp only [bind, Except.bind, Bool.false_eq_true, if_false, if_true]
    constructor
    · refine ⟨o1.perm res.elems, ?_, by rwa [Order.mem_perm]⟩
      rw [hqo]
      rfl
    · intro ans hans
      cases hl : na.inner.queryOwnedReturnSimilarity o1 o2 s with
      | error e => rw [hl] at hans; cases hans
      | ok l => rw [hl] at hans; cases hans; exact ⟨l, rfl, hret l hl⟩
  | callable f =>
    obtain ⟨toks, e1, e2⟩ := PyMinIndex.sig_callable r3.hasher hsig
    unfold PyMinIndex.query
    simp only
    rw [e1]
    simp only [bind, Except.bind, Bool.false_eq_true, if_false, if_true]
    unfold PyMinHash.queryTokens PyMinHash.queryTokensReturnSimilarity
    rw [e2]
    simp only [bind, Except.bind]
    constructor
    · refine ⟨o1.perm res.elems, ?_, by rwa [Order.mem_perm]⟩
      rw [hqo]
      rfl
    · intro ans hans
      cases hl : na.inner.queryOwnedReturnSimilarity o1 o2 s with
      | error e => rw [hl] at hans; cases hans
      | ok l => rw [hl] at hans; cases hans; exact ⟨l, rfl, hret l hl⟩

/-- The hypotheses are met: arguments, a history before, the accepted insertion, and a history after it. -/
example (env : PyMinEnv) (ahash : (h : HashSize) → List h.T → UInt64) :
    ∃ obj, PyMinObject.init env ahash exArgs = .ok obj ∧ GoodSizes exArgs ∧ exArgs.jaccardThreshold ≠ .nan ∧
      ((obj.index.run env [.insertDocument 1 "x y".toList, .insertDocument 2 "z".toList]).insertDocument env 1
        "A b".toList).2 = .ok () ∧
      ∀ op ∈ [PyMinOp.remove 2, .parBulkInsertDocs [2, 3] ["A b".toList, []] [] []], 1 ∉ op.ids := by
  obtain ⟨obj, h⟩ := exArgs_ok env ahash
  exact ⟨obj, h, .inl ⟨4, 2, rfl, rfl, by decide, by decide, by decide⟩, by decide,
    C66_minhash_single env ahash exArgs obj h _ 1 _ trivial, by decide⟩

/-- C67: a `NaN` threshold is accepted, and then nothing is ever found. -/
theorem C67_nan_finds_nothing (env : PyMinEnv) (ahash : (h : HashSize) → List h.T → UInt64) (a : PyMinArgs)
    (obj : PyMinObject) (h : PyMinObject.init env ahash a = .ok obj) (ht : a.jaccardThreshold = .nan)
    (ops : List PyMinOp) (doc : PyText) (o1 o2 : Order) (l : List Int64)
    (hq : (obj.index.run env ops).query env o1 o2 doc false = .ok (.ids l)) : l = [] := by
  obtain ⟨b, r, _, hrep, _⟩ := init_rep h
  obtain ⟨ops1, r1, _, _⟩ := PyMinIndex.run_rep ops hrep
  generalize obj.index.run env ops = st at r1 hq
  have key : ∀ s res, st.native.inner.queryOwned s = .ok res → o1.perm res.elems = [] := by
    intro s res hs
    have hall : ∀ id ∈ res.elems, False := by
      intro id hid
      rw [r1.inner] at hs
      obtain ⟨s', v, _, _, hv⟩ := (C16_query_owned b r _ _ _ s res hs id hid)
      rw [ht] at hv
      cases v <;> cases hv
    have : ∀ x, x ∉ o1.perm res.elems := fun x hx => hall x (by rwa [Order.mem_perm] at hx)
    exact List.eq_nil_iff_forall_not_mem.mpr this
  obtain ⟨an, na⟩ := st
  cases an with
  | named nm =>
    unfold PyMinIndex.query at hq
    simp only [Bool.false_eq_true, if_false] at hq
    rw [PyMinHash.query_eq] at hq
    cases hd : na.hashDoc env doc with
    | error e => rw [hd] at hq; cases hq
    | ok s =>
      rw [hd] at hq
      simp only [bind, Except.bind] at hq
      cases hr : na.inner.queryOwned s with
      | error e => rw [hr] at hq; cases hq
      | ok res => rw [hr] at hq; cases hq; exact key s res hr
  | callable f =>
    unfold PyMinIndex.query at hq
    simp only [Bool.false_eq_true, if_false] at hq
    cases hf : f doc with
    | error e => rw [hf] at hq; cases hq
    | ok toks =>
      rw [hf] at hq
      simp only [bind, Except.bind] at hq
      unfold PyMinHash.queryTokens at hq
      cases hd : (PyHasher.create na.minHash (pyTokens toks) : Except Panic (List obj.hashSize.T)) with
      | error e => rw [hd] at hq; cases hq
      | ok s =>
        rw [hd] at hq
        simp only [bind, Except.bind] at hq
        cases hr : na.inner.queryOwned s with
        | error e => rw [hr] at hq; cases hq
        | ok res => rw [hr] at hq; cases hq; exact key s res hr

end Verif.Props
