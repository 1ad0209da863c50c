import Verif.Lemmas.PyMinHash
import Verif.Props.Params

/-! # The constructor of the Python MinHash index -/
namespace Verif
open Verif.Spec Verif.Props

/-- A Python integer that fits `usize`. -/
def FitsUsize (n : Int) : Prop := 0 ≤ n ∧ n < 2 ^ 64

/-- All integer arguments fit `usize`. -/
def PyMinArgs.fit (a : PyMinArgs) : Prop :=
  (∀ n, a.numBands = some n → FitsUsize n) ∧ (∀ n, a.bandSize = some n → FitsUsize n) ∧
  (∀ n, a.numHashes = some n → FitsUsize n) ∧ ∀ p, a.ngramRange = some p → FitsUsize p.1 ∧ FitsUsize p.2

/-- The converted `ngram_range`. -/
def PyMinArgs.range (a : PyMinArgs) : Option (Nat × Nat) := a.ngramRange.map fun p => (p.1.toNat, p.2.toNat)

theorem pyUsize_ok {n : Int} (h : FitsUsize n) : pyUsize n = .ok n.toNat := by
  unfold pyUsize; exact if_pos h

theorem pyUsize_error {n : Int} (h : ¬ FitsUsize n) : pyUsize n = .error .overflowError := by
  unfold pyUsize; exact if_neg h

theorem pyOptUsize_cases (o : Option Int) :
    ((∀ n, o = some n → FitsUsize n) ∧ pyOptUsize o = .ok (o.map Int.toNat)) ∨
    (¬ (∀ n, o = some n → FitsUsize n) ∧ pyOptUsize o = .error .overflowError) := by
  cases o with
  | none => left; exact ⟨by simp, rfl⟩
  | some n =>
    by_cases h : FitsUsize n
    · left
      exact ⟨by intro m hm; cases hm; exact h, by unfold pyOptUsize; simp only; rw [pyUsize_ok h]; rfl⟩
    · right
      exact ⟨by intro hm; exact h (hm n rfl), by unfold pyOptUsize; simp only; rw [pyUsize_error h]; rfl⟩

theorem pyOptRange_cases (o : Option (Int × Int)) :
    ((∀ p, o = some p → FitsUsize p.1 ∧ FitsUsize p.2) ∧
      pyOptRange o = .ok (o.map fun p => (p.1.toNat, p.2.toNat))) ∨
    (¬ (∀ p, o = some p → FitsUsize p.1 ∧ FitsUsize p.2) ∧ pyOptRange o = .error .overflowError) := by
  cases o with
  | none => left; exact ⟨by simp, rfl⟩
  | some p =>
    by_cases h : FitsUsize p.1
    · by_cases h' : FitsUsize p.2
      · left
        refine ⟨by intro q hq; cases hq; exact ⟨h, h'⟩, ?_⟩
        unfold pyOptRange; simp only; rw [pyUsize_ok h, pyUsize_ok h']; rfl
      · right
        refine ⟨fun hq => h' (hq p rfl).2, ?_⟩
        unfold pyOptRange; simp only; rw [pyUsize_ok h, pyUsize_error h']; rfl
    · right
      refine ⟨fun hq => h (hq p rfl).1, ?_⟩
      unfold pyOptRange; simp only; rw [pyUsize_error h]; rfl

/-- What the native constructor does with arguments that fit. -/
def pyMinBuild {T C : Type} [PyHasher T] (env : PyMinEnv) (ah : List T → UInt64) (a : PyMinArgs) :
    Except PyExc (PyMinHash T C) :=
  match a.numBands.map Int.toNat, a.bandSize.map Int.toNat, a.numHashes.map Int.toNat with
  | some b, some r, _ => pure (PyMinHash.build env ah a.jaccardThreshold b r a.analyzer.nativeName a.lowercase
      a.range)
  | _, _, some n =>
    match calculateMinhashParams env.powf a.jaccardThreshold n (n + 1) with
    | some (b, r) => pure (PyMinHash.build env ah a.jaccardThreshold b r a.analyzer.nativeName a.lowercase
      a.range)
    | none => .error (.panic .outOfFuel)
  | _, _, none => .error .valueError

theorem new_cases {T C : Type} [PyHasher T] (env : PyMinEnv) (ah : List T → UInt64) (a : PyMinArgs) :
    (a.fit ∧ PyMinHash.new (T := T) (C := C) env ah a.jaccardThreshold a.numBands a.bandSize a.numHashes
      a.analyzer.nativeName a.lowercase a.ngramRange = pyMinBuild env ah a) ∨
    (¬ a.fit ∧ PyMinHash.new (T := T) (C := C) env ah a.jaccardThreshold a.numBands a.bandSize a.numHashes
      a.analyzer.nativeName a.lowercase a.ngramRange = .error .overflowError) := by
  unfold PyMinHash.new
  rcases pyOptUsize_cases a.numBands with ⟨h1, e1⟩ | ⟨h1, e1⟩
  · rcases pyOptUsize_cases a.bandSize with ⟨h2, e2⟩ | ⟨h2, e2⟩
    · rcases pyOptUsize_cases a.numHashes with ⟨h3, e3⟩ | ⟨h3, e3⟩
      · rcases pyOptRange_cases a.ngramRange with ⟨h4, e4⟩ | ⟨h4, e4⟩
        · left
          refine ⟨⟨h1, h2, h3, h4⟩, ?_⟩
          rw [e1, e2, e3, e4]
          rfl
        · right
          exact ⟨fun h => h4 h.2.2.2, by rw [e1, e2, e3, e4]; rfl⟩
      · right
        exact ⟨fun h => h3 h.2.2.1, by rw [e1, e2, e3]; rfl⟩
    · right
      exact ⟨fun h => h2 h.2.1, by rw [e1, e2]; rfl⟩
  · right
    exact ⟨fun h => h1 h.1, by rw [e1]; rfl⟩

/-- The band parameters that the constructor uses: the given ones if both are given, else those of
`calculate_minhash_params`. -/
def BandParams (env : PyMinEnv) (a : PyMinArgs) (b r : Nat) : Prop :=
  (∃ nb bs : Int, a.numBands = some nb ∧ a.bandSize = some bs ∧ b = nb.toNat ∧ r = bs.toNat) ∨
  ((a.numBands = none ∨ a.bandSize = none) ∧ ∃ nh : Int, a.numHashes = some nh ∧
    calculateMinhashParams env.powf a.jaccardThreshold nh.toNat (nh.toNat + 1) = some (b, r))

theorem params_total (powf : Fl → Fl → Fl) (s : Fl) (n : Nat) :
    ∃ b r, calculateMinhashParams powf s n (n + 1) = some (b, r) := by
  by_cases hn : 1 ≤ n
  · obtain ⟨b, r, h, _⟩ := C13_params_default powf s n hn
    exact ⟨b, r, h _ (by omega)⟩
  · have : n = 0 := by omega
    subst this
    exact ⟨0, 1, C13_params_zero powf s _ 1 le_rfl⟩

theorem build_cases {T C : Type} [PyHasher T] (env : PyMinEnv) (ah : List T → UInt64) (a : PyMinArgs) :
    (∃ b r, BandParams env a b r ∧ pyMinBuild (C := C) env ah a =
      .ok (PyMinHash.build env ah a.jaccardThreshold b r a.analyzer.nativeName a.lowercase
        a.range)) ∨
    ((a.numBands = none ∨ a.bandSize = none) ∧ a.numHashes = none ∧
      pyMinBuild (C := C) env ah a = .error .valueError) := by
  unfold pyMinBuild BandParams
  have hpar : ∀ nh : Int, a.numHashes = some nh → (a.numBands = none ∨ a.bandSize = none) →
      ∃ b r, ((∃ nb bs : Int, a.numBands = some nb ∧ a.bandSize = some bs ∧ b = nb.toNat ∧ r = bs.toNat) ∨
        ((a.numBands = none ∨ a.bandSize = none) ∧ ∃ nh : Int, a.numHashes = some nh ∧
          calculateMinhashParams env.powf a.jaccardThreshold nh.toNat (nh.toNat + 1) = some (b, r))) ∧
      (match calculateMinhashParams env.powf a.jaccardThreshold nh.toNat (nh.toNat + 1) with
        | some (b, r) => (pure (PyMinHash.build env ah a.jaccardThreshold b r a.analyzer.nativeName a.lowercase
            a.range) : Except PyExc (PyMinHash T C))
        | none => .error (.panic .outOfFuel)) =
        .ok (PyMinHash.build env ah a.jaccardThreshold b r a.analyzer.nativeName a.lowercase
          a.range) := by
    intro nh hnh hn
    obtain ⟨b, r, e⟩ := params_total env.powf a.jaccardThreshold nh.toNat
    exact ⟨b, r, Or.inr ⟨hn, nh, hnh, e⟩, by rw [e]; rfl⟩
  cases h1 : a.numBands with
  | none =>
    rw [h1] at hpar
    cases h3 : a.numHashes with
    | none => right; exact ⟨Or.inl rfl, rfl, rfl⟩
    | some nh =>
      left
      rw [h3] at hpar
      exact hpar nh rfl (Or.inl rfl)
  | some nb =>
    cases h2 : a.bandSize with
    | none =>
      rw [h1, h2] at hpar
      cases h3 : a.numHashes with
      | none => right; exact ⟨Or.inr rfl, rfl, rfl⟩
      | some nh =>
        left
        rw [h3] at hpar
        exact hpar nh rfl (Or.inr rfl)
    | some bs =>
      left
      exact ⟨nb.toNat, bs.toNat, Or.inl ⟨nb, bs, rfl, rfl, rfl, rfl⟩, rfl⟩

theorem hashSize_some {n : Int} {h : HashSize} (e : HashSize.ofInt n = some h) : n = 8 ∨ n = 16 ∨ n = 32 ∨ n = 64 := by
  unfold HashSize.ofInt at e
  split_ifs at e <;> simp_all

theorem hashSize_none {n : Int} (e : HashSize.ofInt n = none) : ¬ (n = 8 ∨ n = 16 ∨ n = 32 ∨ n = 64) := by
  unfold HashSize.ofInt at e
  split_ifs at e
  omega

theorem contKind_some {s : String} {k : ContKind} (e : ContKind.ofString s = some k) :
    s = "set" ∨ s = "vec" ∨ s = "smallvec" := by
  unfold ContKind.ofString at e
  split_ifs at e <;> simp_all

theorem contKind_none {s : String} (e : ContKind.ofString s = none) :
    ¬ (s = "set" ∨ s = "vec" ∨ s = "smallvec") := by
  unfold ContKind.ofString at e
  split_ifs at e
  simp_all

end Verif
