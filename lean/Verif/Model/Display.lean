import Verif.Model.StringIndex
import Verif.Model.PyMinHash

/-!
# Printed forms (`Display` of the indexes, `__str__` and `__repr__` in Python)

* How `f64` is printed (`{}` of `threshold`) and `type_name::<T>()` are parameters.
* Writing to the formatter does not fail (`String` never does); string_index.rs 23-25 ignores the results anyway.
-/
namespace Verif

/-- `{}` of a `usize`. minhash_index.rs 337-339. -/
def showUsize (n : Nat) : Text := Nat.toDigits 10 n

namespace MinHashIndex
variable {T Id C : Type} [DecidableEq Id]

/-- `num_hashes`, minhash_index.rs lines 723-725. -/
def getNumHashes (idx : MinHashIndex T Id C) : Nat := idx.numHashes

/-- `Display::fmt`, minhash_index.rs lines 336-340. `b * r` is not reduced modulo 2^64. -/
def display (showFloat : Fl → Text) (typeName : Text) (idx : MinHashIndex T Id C) : Text :=
  "MinHashIndex<".toList ++ typeName ++ "> { threshold = ".toList ++ showFloat idx.threshold ++
    ", num_hashes = ".toList ++ showUsize (idx.b * idx.r) ++ ", bands = ".toList ++ showUsize idx.b ++
    ", rows_per_band = ".toList ++ showUsize idx.r ++ ", size = ".toList ++ showUsize idx.size ++ " }".toList

end MinHashIndex

/-- `Display::fmt`, string_index.rs lines 22-26. -/
def StringIndex.display (showFloat : Fl → Text) (st : StringIndex) : Text :=
  "MinHashStringIndex { ".toList ++ st.lshIndex.display showFloat "u64".toList ++ " } ".toList

/-- `{:?}` of an `Option<usize>`. py-gaoya/src/lib.rs 24, 26. -/
def debugOption : Option Nat → Text
  | none => "None".toList
  | some n => "Some(".toList ++ showUsize n ++ ")".toList

/-- `{:?}` of a variant with a pair (derived). py-gaoya/src/lib.rs 24, 26. -/
def debugPair (name : Text) (lo : Nat) (hi : Option Nat) : Text :=
  name ++ ("((".toList ++ (showUsize lo ++ (", ".toList ++ (debugOption hi ++ "))".toList))))

/-- `{:?}` of `TokenizerSpecification` (derived), py-gaoya/src/lib.rs lines 22-27. A variant with an empty list of fields
is printed without parentheses. -/
def TokenizerSpec.debug (s : TokenizerSpec) : Text :=
  match s with
  | .charShingle lo hi => debugPair "CharShingle".toList lo hi
  | .whiteSpace => "WhiteSpace".toList
  | .whiteSpaceShingle lo hi => debugPair "WhiteSpaceShingle".toList lo hi

/-- `type_name::<T>()` of the hash types of py-gaoya/src/min_hash.rs 236-251. -/
def HashSize.typeName : HashSize → Text
  | .h8 => "u8".toList
  | .h16 => "u16".toList
  | .h32 => "u32".toList
  | .h64 => "u64".toList

/-- `__str__` and `__repr__`, py-gaoya/src/min_hash.rs lines 218-224. -/
def PyMinHash.str {T C : Type} [PyHasher T] (showFloat : Fl → Text) (typeName : Text) (st : PyMinHash T C) : Text :=
  st.inner.display showFloat typeName ++ " ".toList ++ st.tokenizer.debug

/-- `__str__` and `__repr__`, py-gaoya/gaoya/minhash.py lines 243-247. -/
def PyMinIndex.str {T C : Type} [PyHasher T] (showFloat : Fl → Text) (typeName : Text) (st : PyMinIndex T C) : Text :=
  st.native.str showFloat typeName

end Verif
