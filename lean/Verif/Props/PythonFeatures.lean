import Verif.Props.PythonContent

/-! # Properties C85, C86: features of documents in the Python MinHash index -/
namespace Verif.Props
open Verif.Spec

/-- The text that a built-in analyzer gets. -/
def analyzedText (env : PyMinEnv) (a : PyMinArgs) (doc : PyText) : PyText :=
  if a.lowercase = some true then env.lower doc else doc

/-- `g` is an n-gram of `l` with `lo ≤ n ≤ hi`. -/
def IsNgram {α : Type} (lo hi : Nat) (l g : List α) : Prop :=
  ∃ p n, lo ≤ n ∧ n ≤ hi ∧ p + n ≤ l.length ∧ g = ngram l p n

/-! ## C85 -/

/-- C85: an object hashes exactly `minTokens`. -/
theorem C85_hashed {env : PyMinEnv} {ahash : (h : HashSize) → List h.T → UInt64} {a : PyMinArgs} {obj : PyMinObject}
    (h : PyMinObject.init env ahash a = .ok obj) (d : PyText) :
    obj.index.sig env d = (do
      let toks ← minTokens env a d
      fromRust (PyHasher.create obj.index.native.minHash toks)) := by
  rw [sig_features h, pyFeatures_eq]

/-- C85: the tokens are the specified features, for all analyzers, ranges and texts. -/
theorem C85_features (env : PyMinEnv) (a : PyMinArgs) (doc : PyText) :
    minTokens env a doc =
      features env.toPyEnv a.analyzer a.lowercase (a.ngramRange.map fun p => (p.1.toNat, p.2.toNat)) doc :=
  (pyFeatures_eq env a doc).symm

/-- C85: the exact features for `ngram_range = (lo, hi)`, `lo ≠ hi`, and the word analyzer, as lists: the n-grams of
the words before the first one that does not fit. -/
theorem C85_word_exact (env : PyMinEnv) (a : PyMinArgs) (name : Option String) (hname : name ≠ some "char")
    (ha : a.analyzer = .named name) (lo hi : Nat) (hne : lo ≠ hi) (hr : a.ngramRange = some ((lo : Int), (hi : Int)))
    (doc : PyText) (ws : List PyText) (hws : MaximalRuns (analyzedText env a doc) ws) :
    minTokens env a doc = .ok ((shinglesBeforeGap ws lo hi).map .words) := by
  have h1 : name.getD "word" ≠ "char" := by
    cases name with
    | none => decide
    | some n => intro hc; exact hname (by simpa using hc)
  have hw := (C41_maximal_runs _ _).mp hws
  unfold minTokens
  rw [ha, hr]
  simp only [Option.map_some, Int.toNat_natCast, TokenizerSpec.new, if_neg h1, if_neg hne, tokenize]
  rw [show (if a.lowercase = some true then env.lower doc else doc) = analyzedText env a doc from rfl, ← hw]
  have h2 : 1 ≤ lo ∨ 1 ≤ hi := by omega
  rw [exhaust_of_yields (C43_slice_exact ws lo hi h2) (collectFuel_enough ws lo hi _ h2 le_rfl)]
  rfl

/-- C85: the exact features for `ngram_range = (lo, hi)`, `lo ≠ hi`, `1 ≤ lo`, and the character analyzer. -/
theorem C85_char_exact (env : PyMinEnv) (a : PyMinArgs) (ha : a.analyzer = .named (some "char")) (lo hi : Nat)
    (hlo : 1 ≤ lo) (hne : lo ≠ hi) (hr : a.ngramRange = some ((lo : Int), (hi : Int))) (doc : PyText) :
    minTokens env a doc = .ok ((shinglesBeforeGap (analyzedText env a doc) lo hi).map fun g => .str (utf8 g)) := by
  unfold minTokens
  rw [ha, hr]
  simp only [Option.map_some, Int.toNat_natCast, TokenizerSpec.new, Option.getD_some, if_true, if_neg hne, tokenize]
  rw [show (if a.lowercase = some true then env.lower doc else doc) = analyzedText env a doc from rfl]
  have h := C44_str_exact (analyzedText env a doc) lo hi hlo
  rw [exhaust_of_yields (show Yields _ (MultiShingles.new (toUtf8 (analyzedText env a doc)) lo hi) _ from h)
    (collectFuel_enough_str _ lo hi (.inl hlo))]
  simp [Except.map, fromRust]

/-- C85: without `ngram_range` the character analyzer makes 3-grams and 4-grams. -/
theorem C85_char_default (env : PyMinEnv) (a : PyMinArgs) (ha : a.analyzer = .named (some "char"))
    (hr : a.ngramRange = none) : minTokens env a = minTokens env { a with ngramRange := some (3, 4) } := by
  funext doc
  unfold minTokens
  simp only [ha, hr]
  rfl

theorem mem_shinglesBeforeGap {α : Type} {l g : List α} {lo hi : Nat} (h : lo ≤ hi)
    (hg : g ∈ shinglesBeforeGap l lo hi) : IsNgram lo hi l g := by
  unfold shinglesBeforeGap at hg
  obtain ⟨⟨p, n⟩, hq, rfl⟩ := List.mem_map.mp hg
  have h1 := mem_allPairs.mp ((List.takeWhile_sublist _).subset hq)
  have h2 := List.mem_takeWhile_imp hq
  simp only [decide_eq_true_eq] at h2
  exact ⟨p, n, h1.2.1, by omega, h2, rfl⟩

theorem shinglesBeforeGap_all {α : Type} {l g : List α} {lo hi : Nat} (hlo : 1 ≤ lo)
    (hhi : hi ≤ lo + 1 ∨ l.length ≤ lo) (hg : IsNgram lo hi l g) : g ∈ shinglesBeforeGap l lo hi := by
  obtain ⟨p, n, h1, h2, h3, rfl⟩ := hg
  exact C42_all_ngrams_partial l lo hi hlo hhi _ (C43_slice_exact l lo hi (.inl hlo)) p n h1 h2 h3

/-- C85: every feature is an n-gram of the words with `lo ≤ n ≤ hi`. -/
theorem C85_word_sound (env : PyMinEnv) (a : PyMinArgs) (name : Option String) (hname : name ≠ some "char")
    (ha : a.analyzer = .named name) (lo hi : Nat) (hlt : lo < hi) (hr : a.ngramRange = some ((lo : Int), (hi : Int)))
    (doc : PyText) (ws : List PyText) (hws : MaximalRuns (analyzedText env a doc) ws) :
    ∃ toks, minTokens env a doc = .ok toks ∧ ∀ x ∈ toks, ∃ g, IsNgram lo hi ws g ∧ x = .words g := by
  refine ⟨_, C85_word_exact env a name hname ha lo hi (by omega) hr doc ws hws, fun x hx => ?_⟩
  obtain ⟨g, hg, rfl⟩ := List.mem_map.mp hx
  exact ⟨g, mem_shinglesBeforeGap (by omega) hg, rfl⟩

/-- C85: every feature is an n-gram of the characters with `lo ≤ n ≤ hi`. -/
theorem C85_char_sound (env : PyMinEnv) (a : PyMinArgs) (ha : a.analyzer = .named (some "char")) (lo hi : Nat)
    (hlo : 1 ≤ lo) (hlt : lo < hi) (hr : a.ngramRange = some ((lo : Int), (hi : Int))) (doc : PyText) :
    ∃ toks, minTokens env a doc = .ok toks ∧
      ∀ x ∈ toks, ∃ g, IsNgram lo hi (analyzedText env a doc) g ∧ x = .str (utf8 g) := by
  refine ⟨_, C85_char_exact env a ha lo hi hlo (by omega) hr doc, fun x hx => ?_⟩
  obtain ⟨g, hg, rfl⟩ := List.mem_map.mp hx
  exact ⟨g, mem_shinglesBeforeGap (by omega) hg, rfl⟩

/-- C85, the part that holds for words: if `hi = lo + 1`, or there are at most `lo` words, the features are exactly
the n-grams with `lo ≤ n ≤ hi`. Missing: `hi ≥ lo + 2`, where the claim fails (`C85_tail_lost`), and `lo = hi`, which
the code hands to the external crate `shingles`. -/
theorem C85_word_partial (env : PyMinEnv) (a : PyMinArgs) (name : Option String) (hname : name ≠ some "char")
    (ha : a.analyzer = .named name) (lo hi : Nat) (hlo : 1 ≤ lo) (hlt : lo < hi)
    (hr : a.ngramRange = some ((lo : Int), (hi : Int)))
    (doc : PyText) (ws : List PyText) (hws : MaximalRuns (analyzedText env a doc) ws)
    (hhi : hi = lo + 1 ∨ ws.length ≤ lo) :
    ∃ toks, minTokens env a doc = .ok toks ∧ ∀ x, x ∈ toks ↔ ∃ g, IsNgram lo hi ws g ∧ x = .words g := by
  obtain ⟨toks, e, hs⟩ := C85_word_sound env a name hname ha lo hi hlt hr doc ws hws
  refine ⟨toks, e, fun x => ⟨hs x, ?_⟩⟩
  rintro ⟨g, hg, rfl⟩
  rw [C85_word_exact env a name hname ha lo hi (by omega) hr doc ws hws, Except.ok.injEq] at e
  rw [← e]
  exact List.mem_map.mpr ⟨g, shinglesBeforeGap_all hlo (by omega) hg, rfl⟩

/-- C85, the part that holds for characters; with `C85_char_default` it covers the default `(3, 4)`. Missing: as for
words. -/
theorem C85_char_partial (env : PyMinEnv) (a : PyMinArgs) (ha : a.analyzer = .named (some "char")) (lo hi : Nat)
    (hlo : 1 ≤ lo) (hlt : lo < hi) (hr : a.ngramRange = some ((lo : Int), (hi : Int))) (doc : PyText)
    (hhi : hi = lo + 1 ∨ (analyzedText env a doc).length ≤ lo) :
    ∃ toks, minTokens env a doc = .ok toks ∧
      ∀ x, x ∈ toks ↔ ∃ g, IsNgram lo hi (analyzedText env a doc) g ∧ x = .str (utf8 g) := by
  obtain ⟨toks, e, hs⟩ := C85_char_sound env a ha lo hi hlo hlt hr doc
  refine ⟨toks, e, fun x => ⟨hs x, ?_⟩⟩
  rintro ⟨g, hg, rfl⟩
  rw [C85_char_exact env a ha lo hi hlo (by omega) hr doc, Except.ok.injEq] at e
  rw [← e]
  exact List.mem_map.mpr ⟨g, shinglesBeforeGap_all hlo (by omega) hg, rfl⟩

/-- C85 is false of the code: with `hi ≥ lo + 2`, for every text of more than `lo` distinct words, the last `lo` words
are not a feature. -/
theorem C85_tail_lost (env : PyMinEnv) (a : PyMinArgs) (name : Option String) (hname : name ≠ some "char")
    (ha : a.analyzer = .named name) (lo hi : Nat) (hlo : 1 ≤ lo) (hhi : lo + 2 ≤ hi)
    (hr : a.ngramRange = some ((lo : Int), (hi : Int)))
    (doc : PyText) (ws : List PyText) (hws : MaximalRuns (analyzedText env a doc) ws) (hnd : ws.Nodup)
    (hl : lo + 1 ≤ ws.length) :
    ∃ toks, minTokens env a doc = .ok toks ∧ IsNgram lo hi ws (ngram ws (ws.length - lo) lo) ∧
      .words (ngram ws (ws.length - lo) lo) ∉ toks := by
  refine ⟨_, C85_word_exact env a name hname ha lo hi (by omega) hr doc ws hws,
    ⟨_, _, le_rfl, by omega, by omega, rfl⟩, fun hm => ?_⟩
  obtain ⟨g, hg, e⟩ := List.mem_map.mp hm
  cases e
  exact C42_tail_lost_partial ws hnd lo hi hlo hhi hl _ (C43_slice_exact ws lo hi (.inl hlo)) hg

/-- C85 is false of the code: with `ngram_range = (1, 3)` the text "the cat" lacks the 1-gram "cat". -/
theorem C85_ngrams_false : ∃ (a : PyMinArgs) (doc : PyText) (ws g : List PyText),
    a.analyzer = .named (some "word") ∧ a.ngramRange = some (1, 3) ∧ ∀ env, a.lowercase = none ∧
      MaximalRuns (analyzedText env a doc) ws ∧ IsNgram 1 3 ws g ∧
      ∃ toks, minTokens env a doc = .ok toks ∧ .words g ∉ toks := by
  refine ⟨{ exArgs with ngramRange := some (1, 3), lowercase := none }, "the cat".toList,
    ["the".toList, "cat".toList], ["cat".toList], rfl, rfl, fun env => ?_⟩
  have hm : MaximalRuns (analyzedText env { exArgs with ngramRange := some (1, 3), lowercase := none } "the cat".toList)
      ["the".toList, "cat".toList] := (C41_maximal_runs _ _).mpr (show _ = whitespaceSplit "the cat".toList by decide +kernel)
  obtain ⟨toks, h1, h2, h3⟩ := C85_tail_lost env { exArgs with ngramRange := some (1, 3), lowercase := none }
    (some "word") (by decide) rfl 1 3 le_rfl le_rfl rfl "the cat".toList _ hm (by decide) (by decide)
  exact ⟨rfl, hm, h2, toks, h1, h3⟩

/-- The hypotheses of the theorems of C85 are met; the features of "ab cd e" for `(1, 2)` and of "abcd" by default. -/
example (env : PyMinEnv) :
    minTokens env { exArgs with ngramRange := some (1, 2), lowercase := none } "ab cd, e".toList =
      .ok [.words ["ab".toList], .words ["ab".toList, "cd".toList], .words ["cd".toList],
        .words ["cd".toList, "e".toList], .words ["e".toList]] ∧
    minTokens env { exArgs with analyzer := .named (some "char"), lowercase := none } "abcd".toList =
      .ok [.str (utf8 "abc".toList), .str (utf8 "abcd".toList), .str (utf8 "bcd".toList)] := by
  constructor
  · refine (C85_word_exact env { exArgs with ngramRange := some (1, 2), lowercase := none } (some "word") (by decide)
      rfl 1 2 (by decide) rfl "ab cd, e".toList ["ab".toList, "cd".toList, "e".toList]
      ((C41_maximal_runs _ _).mpr (show _ = whitespaceSplit "ab cd, e".toList by decide +kernel))).trans ?_
    rfl
  · rw [C85_char_default env _ rfl rfl]
    exact C85_char_exact env { exArgs with analyzer := .named (some "char"), lowercase := none, ngramRange := some (3, 4) }
      rfl 3 4 (by decide) (by decide) rfl "abcd".toList

/-- C85 for `ngram_range = (n, n)` and words, with the external crate `shingles` as a hypothesis: if on the words of the
text it yields exactly their n-grams, these are the features. -/
theorem C85_word_single_size (env : PyMinEnv) (a : PyMinArgs) (name : Option String) (hname : name ≠ some "char")
    (ha : a.analyzer = .named name) (n : Nat) (hr : a.ngramRange = some ((n : Int), (n : Int)))
    (doc : PyText) (ws : List PyText) (hws : MaximalRuns (analyzedText env a doc) ws)
    (hcrate : ∃ out, env.sliceShingles ws n = .ok out ∧ ∀ g, g ∈ out ↔ IsNgram n n ws g) :
    ∃ toks, minTokens env a doc = .ok toks ∧ ∀ x, x ∈ toks ↔ ∃ g, IsNgram n n ws g ∧ x = .words g := by
  have h1 : name.getD "word" ≠ "char" := by
    cases name with
    | none => decide
    | some n => intro hc; exact hname (by simpa using hc)
  have hw := (C41_maximal_runs _ _).mp hws
  obtain ⟨out, e, ho⟩ := hcrate
  refine ⟨out.map .words, ?_, fun x => ?_⟩
  · unfold minTokens
    rw [ha, hr]
    simp only [Option.map_some, Int.toNat_natCast, TokenizerSpec.new, if_neg h1, if_true, tokenize]
    rw [show (if a.lowercase = some true then env.lower doc else doc) = analyzedText env a doc from rfl, ← hw, e]
    rfl
  · simp only [List.mem_map, ho]
    constructor
    · rintro ⟨g, hg, rfl⟩; exact ⟨g, hg, rfl⟩
    · rintro ⟨g, hg, rfl⟩; exact ⟨g, hg, rfl⟩

/-- C85 for `ngram_range = (n, n)` and characters, with the external crate `shingles` as a hypothesis. -/
theorem C85_char_single_size (env : PyMinEnv) (a : PyMinArgs) (ha : a.analyzer = .named (some "char"))
    (n : Nat) (hr : a.ngramRange = some ((n : Int), (n : Int))) (doc : PyText)
    (hcrate : ∃ out, env.strShingles (analyzedText env a doc) n = .ok out ∧
      ∀ y, y ∈ out ↔ ∃ g, IsNgram n n (analyzedText env a doc) g ∧ y = utf8 g) :
    ∃ toks, minTokens env a doc = .ok toks ∧
      ∀ x, x ∈ toks ↔ ∃ g, IsNgram n n (analyzedText env a doc) g ∧ x = .str (utf8 g) := by
  obtain ⟨out, e, ho⟩ := hcrate
  refine ⟨out.map .str, ?_, fun x => ?_⟩
  · unfold minTokens
    rw [ha, hr]
    simp only [Option.map_some, Int.toNat_natCast, TokenizerSpec.new, Option.getD_some, if_true, tokenize]
    rw [show (if a.lowercase = some true then env.lower doc else doc) = analyzedText env a doc from rfl, e]
    rfl
  · simp only [List.mem_map, ho]
    constructor
    · rintro ⟨y, ⟨g, hg, rfl⟩, rfl⟩; exact ⟨g, hg, rfl⟩
    · rintro ⟨g, hg, rfl⟩; exact ⟨_, ⟨g, hg, rfl⟩, rfl⟩

/-- A crate that yields the windows of the given size meets the hypotheses of the two theorems, for every text. -/
example (n : Nat) (text : PyText) (ws : List PyText) :
    let env : PyMinEnv := { exPyMinEnv with
      strShingles := fun t n => .ok ((List.range (t.length + 1 - n)).map fun p => utf8 (ngram t p n))
      sliceShingles := fun l n => .ok ((List.range (l.length + 1 - n)).map fun p => ngram l p n) }
    (∃ out, env.sliceShingles ws n = .ok out ∧ ∀ g, g ∈ out ↔ IsNgram n n ws g) ∧
    ∃ out, env.strShingles text n = .ok out ∧ ∀ y, y ∈ out ↔ ∃ g, IsNgram n n text g ∧ y = utf8 g := by
  refine ⟨⟨_, rfl, fun g => ?_⟩, ⟨_, rfl, fun y => ?_⟩⟩
  · simp only [List.mem_map, List.mem_range]
    constructor
    · rintro ⟨p, hp, rfl⟩; exact ⟨p, n, le_rfl, le_rfl, by omega, rfl⟩
    · rintro ⟨p, k, h1, h2, h3, rfl⟩
      obtain rfl : k = n := by omega
      exact ⟨p, by omega, rfl⟩
  · simp only [List.mem_map, List.mem_range]
    constructor
    · rintro ⟨p, hp, rfl⟩; exact ⟨_, ⟨p, n, le_rfl, le_rfl, by omega, rfl⟩, rfl⟩
    · rintro ⟨_, ⟨p, k, h1, h2, h3, rfl⟩, rfl⟩
      obtain rfl : k = n := by omega
      exact ⟨p, by omega, rfl⟩

/-! ## C86 -/

/-- C86: replacing documents and query by texts with the same sets of features changes no answer and no size. -/
theorem C86_feature_sets (env : PyMinEnv) (ahash : (h : HashSize) → List h.T → UInt64) (a : PyMinArgs)
    (obj : PyMinObject) (h : PyMinObject.init env ahash a = .ok obj) (f : PyText → PyText) (pops : List PyMinOp)
    (doc : PyText) (ha : AnalyzerReturns env a (doc :: pops.flatMap pyDocs))
    (hf : ∀ d ∈ doc :: pops.flatMap pyDocs, ∀ toks, pyFeatures env a d = .ok toks →
      ∃ toks', pyFeatures env a (f d) = .ok toks' ∧ ∀ x, x ∈ toks' ↔ x ∈ toks)
    (o1 o2 : Order) (flag : Bool) :
    (obj.index.run env (pops.map (mapDocs f))).size = (obj.index.run env pops).size ∧
    (obj.index.run env (pops.map (mapDocs f))).query env o1 o2 (f doc) flag =
      (obj.index.run env pops).query env o1 o2 doc flag :=
  py_same_sets h h rfl rfl rfl rfl rfl rfl f pops doc ha hf o1 o2 flag

/-- C86: with the default word analyzer, order, repetition, punctuation and spacing of the words do not matter: texts
with the same set of words can be exchanged for each other. -/
theorem C86_word_sets (env : PyMinEnv) (ahash : (h : HashSize) → List h.T → UInt64) (a : PyMinArgs)
    (name : Option String) (hname : name ≠ some "char") (ha : a.analyzer = .named name) (hr : a.ngramRange = none)
    (obj : PyMinObject) (h : PyMinObject.init env ahash a = .ok obj) (f : PyText → PyText) (pops : List PyMinOp)
    (doc : PyText)
    (hf : ∀ d ∈ doc :: pops.flatMap pyDocs, ∀ ws ws', MaximalRuns (analyzedText env a d) ws →
      MaximalRuns (analyzedText env a (f d)) ws' → ∀ w, w ∈ ws' ↔ w ∈ ws)
    (o1 o2 : Order) (flag : Bool) :
    (obj.index.run env (pops.map (mapDocs f))).size = (obj.index.run env pops).size ∧
    (obj.index.run env (pops.map (mapDocs f))).query env o1 o2 (f doc) flag =
      (obj.index.run env pops).query env o1 o2 doc flag := by
  have h1 : name.getD "word" ≠ "char" := by
    cases name with
    | none => decide
    | some n => intro hc; exact hname (by simpa using hc)
  have hpf : ∀ d, pyFeatures env a d =
      .ok ((whitespaceSplit (analyzedText env a d)).map fun t => .str (toUtf8 t)) := by
    intro d
    rw [pyFeatures_eq]
    unfold minTokens
    rw [ha, hr]
    simp only [Option.map_none, TokenizerSpec.new, if_neg h1, tokenize]
    rfl
  refine C86_feature_sets env ahash a obj h f pops doc ?_ (fun d hd toks e => ?_) o1 o2 flag
  · unfold AnalyzerReturns PyMinArgs.range
    rw [ha, hr]
    simp only [Option.map_none, TokenizerSpec.new, if_neg h1, ShinglesReturn]
  · rw [hpf, Except.ok.injEq] at e
    refine ⟨_, hpf (f d), fun x => ?_⟩
    have := hf d hd _ _ ((C41_maximal_runs _ _).mpr rfl) ((C41_maximal_runs _ _).mpr rfl)
    rw [← e]
    simp only [List.mem_map, this]

/-- C86: an id whose document has the same set of features as the query is returned; in particular, if neither has
any feature. -/
theorem C86_finds_same_features (env : PyMinEnv) (ahash : (h : HashSize) → List h.T → UInt64) (a : PyMinArgs)
    (obj : PyMinObject) (h : PyMinObject.init env ahash a = .ok obj) (hg : GoodSizes a)
    (ht : a.jaccardThreshold ≠ .nan) (pops : List PyMinOp) (doc : PyText)
    (ha : AnalyzerReturns env a (doc :: pops.flatMap pyDocs))
    (id : Int64) (d : PyText) (hl : pyLive pops id = some d) (toks toks' : List PyTok)
    (h1 : pyFeatures env a d = .ok toks) (h2 : pyFeatures env a doc = .ok toks') (hx : ∀ x, x ∈ toks ↔ x ∈ toks')
    (o1 o2 : Order) :
    ∃ l, (obj.index.run env pops).query env o1 o2 doc false = .ok (.ids l) ∧ id ∈ l := by
  obtain ⟨b, r, hp, hrep, _⟩ := init_rep h
  obtain ⟨hb, hr, hn, hthr⟩ := init_good h hg ht hp
  obtain ⟨l, q, hq, e, _, _, hc, _⟩ := C80_query env ahash a obj h b r hp pops doc ha o1 o2
  have hql : q.length = b * r := PyMinIndex.sig_length hrep.hasher ((sigOf_iff h hp doc q).mpr hq)
  have h0 : 0 < b * r := Nat.mul_pos hb hr
  have hd : SigOf env a (b * r) d q := by
    obtain ⟨t, e1, e2⟩ := hq
    rw [h2, Except.ok.injEq] at e1
    subst e1
    exact ⟨toks, h1, (SetPyHasher.create_congr _ toks toks' hx).trans e2⟩
  exact ⟨l, e, hc id d q (.fin 1) hl hd ⟨0, hb, fun _ _ _ => rfl⟩ (self_similarity q (by omega) (by omega)) hthr⟩

/-- The hypotheses of C86 are met: "b, A! b" has the words of "a b"; "", "?!" have no features. -/
example : pyFeatures exPyMinEnv exArgs "a b".toList = .ok [.str (utf8 "a".toList), .str (utf8 "b".toList)] ∧
    pyFeatures exPyMinEnv exArgs "b, A! b".toList =
      .ok [.str (utf8 "b".toList), .str (utf8 "a".toList), .str (utf8 "b".toList)] ∧
    pyFeatures exPyMinEnv exArgs "?!".toList = .ok [] ∧ pyFeatures exPyMinEnv exArgs [] = .ok [] ∧
    GoodSizes exArgs ∧ exArgs.jaccardThreshold ≠ .nan ∧
    pyLive [.insertDocument 7 "b, A! b".toList] 7 = some "b, A! b".toList := by
  refine ⟨by rfl, by rfl, by rfl, by rfl, ?_, by decide, by decide⟩
  exact .inl ⟨4, 2, rfl, rfl, by decide, by decide, by decide⟩

end Verif.Props
