import Verif.Model.PyDefaults
import Verif.Props.PythonFeatures
import Verif.Props.PythonSimContent

/-!
# Property C123: arguments that are left out
-/
namespace Verif.Props
open Verif.Spec

/-- What `num_bands`, `band_size` and `num_hashes` mean according to the documentation (minhash.py 11-32): if bands and
rows are given they are used; otherwise `num_hashes`, if given, determines them; 25 and 5 are the defaults. -/
def DocumentedBands (env : PyMinEnv) (k : PyMinKw) (t : Fl) (b r : Nat) : Prop :=
  match k.numBands.getD none, k.bandSize.getD none, k.numHashes.getD none with
  | some nb, some bs, _ => (b : Int) = nb ∧ (r : Int) = bs
  | _, _, some n => ∀ fuel, n.toNat < fuel → calculateMinhashParams env.powf t n.toNat fuel = some (b, r)
  | nb, bs, none => (b : Int) = nb.getD 25 ∧ (r : Int) = bs.getD 5

theorem kw_checks {k : PyMinKw} (h1 : k.hashSize = none) (h2 : k.jaccardThreshold = none) (h3 : k.idContainer = none) :
    ChecksPass k.args := by
  have e1 : k.args.hashSize = 32 := by simp [PyMinKw.args, h1]
  have e2 : k.args.jaccardThreshold = rnd b64 (75 / 100) := by simp [PyMinKw.args, h2]
  have e3 : k.args.idContainer = "set" := by simp [PyMinKw.args, h3]
  unfold ChecksPass
  rw [e1, e2, e3]
  exact ⟨by decide, by decide +kernel, by decide +kernel, by decide⟩

/-- C123 is false of the code. `MinHashStringIndex(num_hashes=n)` ignores `n`: for every `n`, the index has 20 bands of 5
rows and signatures of length 100. With `n = 50` the documented parameters have at most 50 hashes. -/
theorem C123_num_hashes_false (env : PyMinEnv) (ahash : (h : HashSize) → List h.T → UInt64) (n : Int)
    (h0 : 0 ≤ n) (h1 : n < 2 ^ 64) :
    ∃ obj, PyMinObject.call env ahash { numHashes := some (some n) } = .ok obj ∧
      obj.index.native.inner.b = 20 ∧ obj.index.native.inner.r = 5 ∧
      (∀ toks, ∃ s, PyHasher.create obj.index.native.minHash toks = .ok s ∧ s.length = 100) ∧
      (n = 50 → ¬ DocumentedBands env { numHashes := some (some n) } obj.index.native.inner.threshold
        obj.index.native.inner.b obj.index.native.inner.r) := by
  have hfit : (PyMinKw.args { numHashes := some (some n) }).fit :=
    ⟨fun m h => by cases h; exact ⟨by decide, by decide⟩, fun m h => by cases h; exact ⟨by decide, by decide⟩,
      fun m h => by cases h; exact ⟨h0, h1⟩, fun p h => (nomatch h)⟩
  have hc : ChecksPass (PyMinKw.args { numHashes := some (some n) }) := kw_checks rfl rfl rfl
  rcases init_cases env ahash (PyMinKw.args { numHashes := some (some n) }) with
    ⟨h, _⟩ | ⟨_, h, _⟩ | ⟨_, _, h, _⟩ | ⟨_, _, _, hh, kk, b, r, _, _, hp, e⟩
  · exact absurd hc h
  · exact absurd hfit h
  · exact absurd (.inl ⟨by simp [PyMinKw.args], by simp [PyMinKw.args]⟩) h
  · obtain ⟨rfl, rfl⟩ := C68_params_unique env _ b r 20 5 hp (.inl ⟨20, 5, rfl, rfl, rfl, rfl⟩)
    refine ⟨_, e, rfl, rfl, fun toks => LawfulPyHasher.create_new _ _ _ toks, fun hn hd => ?_⟩
    subst hn
    obtain ⟨b', r', g, hb, hr, _, hle⟩ := C13_params_default env.powf (rnd b64 (75 / 100)) 50 (by decide)
    have hd' : calculateMinhashParams env.powf (rnd b64 (75 / 100)) 50 51 = some (20, 5) := hd 51 (by decide)
    rw [g 51 (by decide), Option.some.injEq, Prod.mk.injEq] at hd'
    obtain ⟨rfl, rfl⟩ := hd'
    omega

/-- C123 is false of the code also for the call without arguments: 20 bands where 25 are documented. -/
theorem C123_num_bands_false (env : PyMinEnv) (ahash : (h : HashSize) → List h.T → UInt64) :
    ∃ obj, PyMinObject.call env ahash {} = .ok obj ∧ obj.index.native.inner.b = 20 ∧
      ¬ DocumentedBands env {} obj.index.native.inner.threshold obj.index.native.inner.b obj.index.native.inner.r := by
  have hfit : (PyMinKw.args {}).fit :=
    ⟨fun m h => by cases h; exact ⟨by decide, by decide⟩, fun m h => by cases h; exact ⟨by decide, by decide⟩,
      fun m h => (nomatch h), fun p h => (nomatch h)⟩
  rcases init_cases env ahash (PyMinKw.args {}) with
    ⟨h, _⟩ | ⟨_, h, _⟩ | ⟨_, _, h, _⟩ | ⟨_, _, _, hh, kk, b, r, _, _, hp, e⟩
  · exact absurd (kw_checks rfl rfl rfl) h
  · exact absurd hfit h
  · exact absurd (.inl ⟨by simp [PyMinKw.args], by simp [PyMinKw.args]⟩) h
  · obtain ⟨rfl, rfl⟩ := C68_params_unique env _ b r 20 5 hp (.inl ⟨20, 5, rfl, rfl, rfl, rfl⟩)
    refine ⟨_, e, rfl, fun hd => ?_⟩
    have : ((20 : Nat) : Int) = 25 := hd.1
    exact absurd this (by decide)

/-- C123, the part that holds: bands and rows are as documented whenever `num_bands` and `band_size` both appear in the
call, be it as `None` (then `num_hashes` is used) or as numbers. -/
theorem C123_bands_partial (env : PyMinEnv) (ahash : (h : HashSize) → List h.T → UInt64) (k : PyMinKw) (obj : PyMinObject)
    (h : PyMinObject.call env ahash k = .ok obj) (h1 : k.numBands ≠ none) (h2 : k.bandSize ≠ none) :
    DocumentedBands env k obj.index.native.inner.threshold obj.index.native.inner.b obj.index.native.inner.r := by
  obtain ⟨_, _, _, b, r, hp, _, hb, hr, ht, _⟩ := C68_lengths env ahash k.args obj h
  obtain ⟨nb, hnb⟩ := Option.ne_none_iff_exists'.mp h1
  obtain ⟨bs, hbs⟩ := Option.ne_none_iff_exists'.mp h2
  have hfit : k.args.fit := by
    rcases init_cases env ahash k.args with ⟨_, e⟩ | ⟨_, _, e⟩ | ⟨_, _, _, e⟩ | ⟨_, hf, _⟩
    · rw [PyMinObject.call, e] at h; cases h
    · rw [PyMinObject.call, e] at h; cases h
    · rw [PyMinObject.call, e] at h; cases h
    · exact hf
  have e1 : k.args.numBands = nb := by simp [PyMinKw.args, hnb]
  have e2 : k.args.bandSize = bs := by simp [PyMinKw.args, hbs]
  have e3 : k.args.numHashes = k.numHashes.getD none := rfl
  rw [hb, hr, ht]
  unfold DocumentedBands
  rw [hnb, hbs]
  simp only [Option.getD_some]
  rcases hp with ⟨x, y, g1, g2, rfl, rfl⟩ | ⟨hn, n, g3, g4⟩
  · have f1 := hfit.1 x g1
    have f2 := hfit.2.1 y g2
    rw [e1] at g1
    rw [e2] at g2
    subst g1; subst g2
    exact ⟨Int.toNat_of_nonneg f1.1, Int.toNat_of_nonneg f2.1⟩
  · rw [e3] at g3
    rw [e1, e2] at hn
    rw [g3]
    have key : ∀ fuel, n.toNat < fuel → calculateMinhashParams env.powf k.args.jaccardThreshold n.toNat fuel = some (b, r) := by
      intro fuel hf
      by_cases h0 : 1 ≤ n.toNat
      · obtain ⟨b', r', g, _⟩ := C13_params_default env.powf k.args.jaccardThreshold n.toNat h0
        rw [g fuel (by omega), ← g (n.toNat + 1) (by omega), g4]
      · have h0 : n.toNat = 0 := by omega
        rw [h0] at g4 hf ⊢
        have z : ∀ f, 1 ≤ f → calculateMinhashParams env.powf k.args.jaccardThreshold 0 f = some (0, 1) :=
          fun f hf => C13_params_zero env.powf k.args.jaccardThreshold _ f hf
        rw [z fuel (by omega), ← g4, z _ (by omega)]
    cases nb <;> cases bs
    · exact key
    · exact key
    · exact key
    · rcases hn with hn | hn <;> cases hn

/-- C123 for the native classes: there `num_hashes` is ignored as well unless `None` is passed for the other two. -/
theorem C123_native_false {T C : Type} [PyHasher T] (env : PyMinEnv) (ahash : List T → UInt64) (n : Int)
    (h0 : 0 ≤ n) (h1 : n < 2 ^ 64) :
    (PyMinHash.call env ahash { numHashes := some (some n) } : Except PyExc (PyMinHash T C)) =
      PyMinHash.call env ahash {} ∧
    ∃ st : PyMinHash T C, PyMinHash.call env ahash {} = .ok st ∧ st.inner.b = 42 ∧ st.inner.r = 3 ∧
      st.inner.threshold = .fin (1 / 2) ∧ st.tokenizer = .whiteSpaceShingle 1 none := by
  have e : ∀ m : Int, 0 ≤ m → m < 2 ^ 64 →
      (PyMinHash.call env ahash { numHashes := some (some m) } : Except PyExc (PyMinHash T C)) =
      .ok (PyMinHash.build env ahash (rnd b64 (5 / 10)) 42 3 (some "word") (some false) (some (1, 1))) := by
    intro m h0 h1
    unfold PyMinHash.call PyMinHash.new
    simp only [Option.getD_some, Option.getD_none, pyOptUsize]
    rw [pyUsize_ok ⟨h0, h1⟩]
    rfl
  have ee : (PyMinHash.call env ahash {} : Except PyExc (PyMinHash T C)) =
      PyMinHash.call env ahash { numHashes := some (some 126) } := rfl
  rw [ee, e n h0 h1, e 126 (by decide) (by decide)]
  exact ⟨rfl, _, rfl, rfl, rfl, (by decide +kernel : rnd b64 (5 / 10) = .fin (1 / 2)), rfl⟩

/-- C123, defaults of `MinHashStringIndex` other than the bands: 32-bit hashes, sets of ids, threshold 0.75, no
lowercasing, and the words of the document as features. -/
theorem C123_minhash_defaults (env : PyMinEnv) (ahash : (h : HashSize) → List h.T → UInt64) :
    ∃ obj, PyMinObject.call env ahash {} = .ok obj ∧ obj.hashSize = .h32 ∧ obj.container = .set ∧
      obj.index.native.inner.threshold = .fin (3 / 4) ∧ obj.index.size = 0 ∧
      ∀ doc ws, MaximalRuns doc ws → pyFeatures env (PyMinKw.args {}) doc = .ok (ws.map fun w => .str (utf8 w)) := by
  obtain ⟨obj, e, _⟩ := C123_num_bands_false env ahash
  obtain ⟨g1, g2, g3, b, r, _, _, _, _, g4, _⟩ := C68_lengths env ahash _ obj e
  refine ⟨obj, e, (Option.some.inj g1).symm, (Option.some.inj g2).symm, g4.trans (by decide +kernel), g3, ?_⟩
  intro doc ws hws
  have hw := (C41_maximal_runs _ _).mp hws
  rw [pyFeatures_eq, hw]
  rfl

/-- Texts of at most two characters have no features for the character analyzer when `ngram_range` is left out. -/
theorem short_features (env : PyMinEnv) (a : PyMinArgs) (ha : a.analyzer = .named (some "char")) (hr : a.ngramRange = none)
    (hl : a.lowercase ≠ some true) (doc : PyText) (hd : doc.length < 3) : pyFeatures env a doc = .ok [] := by
  rw [pyFeatures_eq, C85_char_default env a ha hr,
    C85_char_exact env { a with ngramRange := some (3, 4) } ha 3 4 (by decide) (by decide) rfl doc]
  have e : analyzedText env { a with ngramRange := some (3, 4) } doc = doc := by
    unfold analyzedText
    exact if_neg hl
  rw [e]
  have : shinglesBeforeGap doc 3 4 = [] := by
    apply List.eq_nil_iff_forall_not_mem.mpr
    intro g hg
    obtain ⟨p, n, h1, _, h2, _⟩ := mem_shinglesBeforeGap (by decide) hg
    omega
  rw [this]
  rfl

/-- C123 is false of the code also for `ngram_range`: the documented default `(1, 1)` would make every character a
feature. With `MinHashStringIndex(analyzer='char')`, after every history, a query with any text of at most two characters
returns every stored text of at most two characters, whatever the texts are. -/
theorem C123_char_false (env : PyMinEnv) (ahash : (h : HashSize) → List h.T → UInt64) :
    ∃ obj, PyMinObject.call env ahash { analyzer := some (.named (some "char")) } = .ok obj ∧
      ∀ (pops : List PyMinOp) (id : Int64) (d doc : PyText), pyLive pops id = some d → d.length < 3 → doc.length < 3 →
        ∀ o1 o2, ∃ l, (obj.index.run env pops).query env o1 o2 doc false = .ok (.ids l) ∧ id ∈ l := by
  have hfit : (PyMinKw.args { analyzer := some (.named (some "char")) }).fit :=
    ⟨fun m h => by cases h; exact ⟨by decide, by decide⟩, fun m h => by cases h; exact ⟨by decide, by decide⟩,
      fun m h => (nomatch h), fun p h => (nomatch h)⟩
  rcases init_cases env ahash (PyMinKw.args { analyzer := some (.named (some "char")) }) with
    ⟨h, _⟩ | ⟨_, h, _⟩ | ⟨_, _, h, _⟩ | ⟨_, _, _, hh, kk, b, r, _, _, hp, e⟩
  · exact absurd (kw_checks rfl rfl rfl) h
  · exact absurd hfit h
  · exact absurd (.inl ⟨by simp [PyMinKw.args], by simp [PyMinKw.args]⟩) h
  · obtain ⟨rfl, rfl⟩ := C68_params_unique env _ b r 20 5 hp (.inl ⟨20, 5, rfl, rfl, rfl, rfl⟩)
    refine ⟨_, e, fun pops id d doc hl hd hdoc o1 o2 => ?_⟩
    obtain ⟨l, q, hq, el, _, _, hcomp, _⟩ := C80_query env ahash _ _ e 20 5 hp pops doc (by
      unfold AnalyzerReturns
      trivial) o1 o2
    refine ⟨l, el, ?_⟩
    have hsd : SigOf env (PyMinKw.args { analyzer := some (.named (some "char")) }) (20 * 5) d q := by
      obtain ⟨toks, t1, t2⟩ := hq
      rw [short_features env _ rfl rfl (by decide) doc hdoc, Except.ok.injEq] at t1
      subst t1
      exact ⟨[], short_features env _ rfl rfl (by decide) d hd, t2⟩
    have hql : q.length = 20 * 5 := by
      obtain ⟨toks, _, t2⟩ := hq
      obtain ⟨s, e1, e2⟩ := LawfulPyHasher.create_new (T := HashSize.T hh) env.rng (20 * 5) env.hash toks
      exact (Except.ok.inj (e1.symm.trans t2)) ▸ e2
    exact hcomp id d q (.fin 1) hl hsd ⟨0, by decide, fun _ _ _ => rfl⟩ (self_similarity q (by omega) (by omega))
      (by show Fl.ge (.fin 1) (rnd b64 (75 / 100)) = true; decide +kernel)

/-- C123 for `SimHashStringIndex`: the call without arguments makes a 64-bit index with 6 blocks and distance 5, the
documented values. -/
theorem C123_simhash_defaults : ∃ obj, PySimObject.call {} = .ok obj ∧ obj.width = 64 ∧
    obj.index.native.inner.numBlocks = 6 ∧ obj.index.native.inner.hammingDistance = 5 ∧
    obj.index.native.tokenizer = .whiteSpace ∧ obj.index.native.lowercase = false := by
  rcases simInit_cases (PySimKw.args {}) with ⟨h, _⟩ | ⟨_, _, _, e⟩
  · rcases h with h | h | h
    · exact absurd (.inl rfl) h
    · exact absurd h (by decide)
    · exact absurd h (by decide)
  · obtain ⟨idx, g1, g2⟩ := simNew_ok (w := 64) (nb := 6) (d := 5) (an := some "word") (lc := some false)
      (by decide) (by decide) (by decide) (by decide)
    have e' : PySimObject.init (PySimKw.args {}) = (PySimHash.new 64 6 5 (some "word") (some false) none).map
      fun native => ⟨64, .named (some "word"), native⟩ := e
    rw [g2] at e'
    refine ⟨_, e', rfl, ?_⟩
    unfold SimIndex.new at g1
    obtain ⟨ps, _, g1⟩ := bind_ok g1
    obtain ⟨_, _, g1⟩ := bind_ok g1
    cases g1
    exact ⟨rfl, rfl, rfl, rfl⟩

/-- Instances: the two spellings of "200 hashes". -/
example (env : PyMinEnv) (ahash : (h : HashSize) → List h.T → UInt64) :
    (∃ obj, PyMinObject.call env ahash { numHashes := some (some 200) } = .ok obj ∧ obj.index.native.inner.b = 20) ∧
    ∃ obj, PyMinObject.call env ahash { numBands := some none, bandSize := some none, numHashes := some (some 200) } = .ok obj := by
  obtain ⟨obj, e, h, _⟩ := C123_num_hashes_false env ahash 200 (by decide) (by decide)
  refine ⟨⟨obj, e, h⟩, ?_⟩
  refine (C68_accepts_partial env ahash _ (by decide +kernel)).mpr ⟨by decide, ⟨3 / 4, by norm_num, by norm_num, by decide +kernel⟩,
    by decide, ⟨fun m h => (nomatch h), fun m h => (nomatch h), fun m h => by cases h; exact ⟨by decide, by decide⟩,
      fun p h => (nomatch h)⟩, .inr (by simp [PyMinKw.args])⟩

end Verif.Props
