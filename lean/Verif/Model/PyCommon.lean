import Verif.Model.MinHasher
import Verif.Model.Text

/-!
# The Python bindings: what both index families share (`py-gaoya/src/lib.rs`)

* A Python `str` is its list of characters (`Text`).
* Python integers are `Int`; the conversion of an argument to `usize` fails with `OverflowError` out of range. Ids
  are converted to `i64` (`Int64`) by pyo3; calls with ids out of that range are not modelled.
* Code outside the repository is a parameter (`PyEnv`): `str::to_lowercase` and the crate `shingles`.
* A Rust panic inside a native method arrives in Python as `PanicException`.
-/
namespace Verif

/-- A text. py-gaoya/src/lib.rs 30-59 (`&str`). -/
abbrev PyText := List Char

/-- What a call from Python can raise. py-gaoya/gaoya/minhash.py 85-128, simhash.py 43-66 (raise). -/
inductive PyExc where
  | valueError
  | overflowError
  | attributeError
  | typeError
  | panic (p : Panic)
  | user            -- raised by a callable analyzer
deriving DecidableEq, Repr

/-- A call into Rust, seen from Python.
pyo3, for every `#[pymethods]` of py-gaoya/src/min_hash.rs and sim_hash.rs (lines 38-217, 30-164). -/
def fromRust {α : Type} : Except Panic α → Except PyExc α
  | .ok a => .ok a
  | .error p => .error (.panic p)

/-- pyo3's conversion of a Python integer to `usize`. Used for py-gaoya/src/min_hash.rs 41-50, sim_hash.rs 30-42. -/
def pyUsize (n : Int) : Except PyExc Nat :=
  if 0 ≤ n ∧ n < 2 ^ 64 then .ok n.toNat else .error .overflowError

/-- pyo3's conversion of an optional argument. Used for py-gaoya/src/min_hash.rs 41-50. -/
def pyOptUsize : Option Int → Except PyExc (Option Nat)
  | none => .ok none
  | some n => (pyUsize n).map some

/-- pyo3's conversion of an optional pair. Used for py-gaoya/src/min_hash.rs 41-50, sim_hash.rs 30-42. -/
def pyOptRange : Option (Int × Int) → Except PyExc (Option (Nat × Nat))
  | none => .ok none
  | some p => do
    let a ← pyUsize p.1
    let b ← pyUsize p.2
    pure (some (a, b))

/-- The features that are hashed: strings (`&str`, UTF-8 bytes) or slices of strings (`&[&str]`). The two hash
differently, hence are kept apart. py-gaoya/src/min_hash.rs 72-94, sim_hash.rs 44-66. -/
inductive PyTok where
  | str (bytes : List UInt8)
  | words (ws : List PyText)
deriving DecidableEq

/-- The UTF-8 bytes of a text. Std, for py-gaoya/src/lib.rs 30-59. -/
def toUtf8 (t : PyText) : List UInt8 := t.flatMap String.utf8EncodeChar

/-- External code: `str::to_lowercase` (std) and `Shingles` of the crate `shingles` over a string and over a slice.
Used in py-gaoya/src/lib.rs 23-59. -/
structure PyEnv where
  lower : PyText → PyText
  strShingles : PyText → Nat → Except Panic (List (List UInt8))
  sliceShingles : List PyText → Nat → Except Panic (List (List PyText))

/-- `TokenizerSpecification`, lib.rs 23-27. -/
inductive TokenizerSpec where
  | charShingle (lo : Nat) (hi : Option Nat)
  | whiteSpace
  | whiteSpaceShingle (lo : Nat) (hi : Option Nat)
deriving DecidableEq, Repr

/-- `TokenizerSpecification::new`, lib.rs 30-59. -/
def TokenizerSpec.new (name : String) (range : Option (Nat × Nat)) : TokenizerSpec :=
  if name = "char" then
    match range with
    | some range => if range.1 = range.2 then .charShingle range.1 none else .charShingle range.1 (some range.2)
    | none => .charShingle 3 (some 4)
  else
    match range with
    | some range =>
      if range.1 = range.2 then .whiteSpaceShingle range.1 none else .whiteSpaceShingle range.1 (some range.2)
    | none => .whiteSpace

/-- Enough calls of `next` for data of length `n` (see `collectFuel_enough`).
Bound for the iterators of py-gaoya/src/lib.rs 30-59. -/
def collectFuel (n lo hi : Nat) : Nat := (n + 1) * (max lo hi + 2)

/-- Exhausting an iterator. The consumers of py-gaoya/src/lib.rs 30-59. -/
def exhaust {ι : Type} : Option (Except Panic (List ι)) → Except Panic (List ι)
  | some r => r
  | none => .error .outOfFuel

/-- The token iterators built by `tokenize_and_minhash` (min_hash.rs 73-93) and `tokenize_and_simhash`
(sim_hash.rs 45-65). -/
def tokenize (env : PyEnv) (spec : TokenizerSpec) (doc : PyText) : Except Panic (List PyTok) :=
  match spec with
  | .charShingle lo none => (env.strShingles doc lo).map fun l => l.map .str
  | .charShingle lo (some hi) =>
    (exhaust (collect MultiShingles.nextStr (collectFuel (toUtf8 doc).length lo hi)
      (MultiShingles.new (toUtf8 doc) lo hi))).map fun l => l.map .str
  | .whiteSpace => .ok ((whitespaceSplit doc).map fun t => .str (toUtf8 t))
  | .whiteSpaceShingle lo none => (env.sliceShingles (whitespaceSplit doc) lo).map fun l => l.map .words
  | .whiteSpaceShingle lo (some hi) =>
    (exhaust (collect MultiShingles.nextSlice (collectFuel (whitespaceSplit doc).length lo hi)
      (MultiShingles.new (whitespaceSplit doc) lo hi))).map fun l => l.map .words

/-- Tokens that come from Python (`Vec<&str>`). py-gaoya/src/min_hash.rs 107-110, sim_hash.rs 77-81. -/
def pyTokens (toks : List PyText) : List PyTok := toks.map fun t => .str (toUtf8 t)

/-- The `analyzer` argument of the Python classes: a name or `None`, or a callable. A callable is taken to be a
function of the text (it may raise). py-gaoya/gaoya/minhash.py 94-128, simhash.py 43-66. -/
inductive Analyzer where
  | named (name : Option String)
  | callable (f : PyText → Except PyExc (List PyText))

/-- `analyzer = 'word' if callable(self.analyzer) else analyzer`, minhash.py 102 and simhash.py 62. -/
def Analyzer.nativeName : Analyzer → Option String
  | .named n => n
  | .callable _ => some "word"

end Verif
