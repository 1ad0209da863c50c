import Verif.Model.PyMinHash
import Verif.Model.PySimHash

/-!
# Calls that leave arguments out (`py-gaoya/gaoya/minhash.py`, `simhash.py`, `py-gaoya/src/min_hash.rs`, `sim_hash.rs`)

A field `none` is an argument that is left out; `some none` is an explicit `None`.
-/
namespace Verif

/-- A call of `MinHashStringIndex`, minhash.py 85-93. -/
structure PyMinKw where
  hashSize : Option Int := none
  jaccardThreshold : Option Fl := none
  numBands : Option (Option Int) := none
  bandSize : Option (Option Int) := none
  numHashes : Option (Option Int) := none
  analyzer : Option Analyzer := none
  lowercase : Option (Option Bool) := none
  ngramRange : Option (Option (Int × Int)) := none
  idContainer : Option String := none

/-- The default values, minhash.py 85-93. -/
def PyMinKw.args (k : PyMinKw) : PyMinArgs :=
  { hashSize := k.hashSize.getD 32
    jaccardThreshold := k.jaccardThreshold.getD (rnd b64 (75 / 100))
    numBands := k.numBands.getD (some 20)
    bandSize := k.bandSize.getD (some 5)
    numHashes := k.numHashes.getD none
    analyzer := k.analyzer.getD (.named (some "word"))
    lowercase := k.lowercase.getD (some false)
    ngramRange := k.ngramRange.getD none
    idContainer := k.idContainer.getD "set" }

/-- The call, minhash.py 85-128. -/
def PyMinObject.call (env : PyMinEnv) (ahash : (h : HashSize) → List h.T → UInt64) (k : PyMinKw) : Except PyExc PyMinObject :=
  PyMinObject.init env ahash k.args

/-- A call of a native MinHash class, py-gaoya/src/min_hash.rs lines 31-49. -/
structure NatMinKw where
  jaccardThreshold : Option Fl := none
  numBands : Option (Option Int) := none
  bandWidth : Option (Option Int) := none
  numHashes : Option (Option Int) := none
  analyzer : Option (Option String) := none
  lowercase : Option (Option Bool) := none
  ngramRange : Option (Option (Int × Int)) := none

/-- The call with the default values of py-gaoya/src/min_hash.rs lines 31-39. -/
def PyMinHash.call {T C : Type} [PyHasher T] (env : PyMinEnv) (ahash : List T → UInt64) (k : NatMinKw) :
    Except PyExc (PyMinHash T C) :=
  PyMinHash.new env ahash (k.jaccardThreshold.getD (rnd b64 (5 / 10))) (k.numBands.getD (some 42))
    (k.bandWidth.getD (some 3)) (k.numHashes.getD (some 126)) (k.analyzer.getD (some "word"))
    (k.lowercase.getD (some false)) (k.ngramRange.getD (some (1, 1)))

/-- A call of `SimHashStringIndex`, simhash.py 43-49. -/
structure PySimKw where
  hashSize : Option Int := none
  numBlocks : Option Int := none
  hammingDistance : Option Int := none
  analyzer : Option Analyzer := none
  lowercase : Option (Option Bool) := none
  ngramRange : Option (Option (Int × Int)) := none

/-- The default values, simhash.py 43-49. -/
def PySimKw.args (k : PySimKw) : PySimArgs :=
  { hashSize := k.hashSize.getD 64
    numBlocks := k.numBlocks.getD 6
    hammingDistance := k.hammingDistance.getD 5
    analyzer := k.analyzer.getD (.named (some "word"))
    lowercase := k.lowercase.getD (some false)
    ngramRange := k.ngramRange.getD none }

/-- The call, simhash.py 43-66. -/
def PySimObject.call (k : PySimKw) : Except PyExc PySimObject := PySimObject.init k.args

end Verif
