import Verif.Model.SimHash
import Verif.Model.Fl

/-! # The remaining methods of `SimHashBits` (`gaoya/src/simhash/mod.rs`) -/
namespace Verif
variable {w : Nat}

/-- `std::f64::consts::PI`, used in simhash/mod.rs line 15: the `f64` literal 3.14159265358979323846264338327950288. -/
def pi64 : Fl := .fin (884279719003555 / 281474976710656)

/-- `hamming_angle`, simhash/mod.rs lines 51-53. -/
def hammingAngle (x y : BitVec w) : Fl :=
  Fl.mul b64 (Fl.ofNat b64 (hammingDistance x y)) (Fl.div b64 pi64 (Fl.ofNat b64 (bitLength x)))

/-- `to_u32_high_bits`, simhash/mod.rs lines 66-69: `(self >> (bits - 32)) as u32`. -/
def toU32HighBits (x : BitVec w) : BitVec 32 := (shr x (w - 32)).setWidth 32

/-- `to_u64_high_bits`, simhash/mod.rs lines 71-74: `(self >> (bits - 64)) as u64`. -/
def toU64HighBits (x : BitVec w) : BitVec 64 := (shr x (w - 64)).setWidth 64

end Verif
