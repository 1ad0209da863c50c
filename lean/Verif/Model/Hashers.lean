import Mathlib.Data.List.Basic

/-! # `Sha1Hasher` (`gaoya/src/minhash/hashers.rs`) -/
namespace Verif

/-- `Sha1Hasher`, hashers.rs 17-19: the bytes written so far. -/
structure Sha1Hasher where
  bytes : List UInt8

namespace Sha1Hasher

/-- `new`, hashers.rs 22-24. -/
def new : Sha1Hasher := ⟨[]⟩

/-- `default`, hashers.rs 41-44. -/
def default : Sha1Hasher := new

/-- `write`, hashers.rs 35-37. -/
def write (h : Sha1Hasher) (bytes : List UInt8) : Sha1Hasher := ⟨h.bytes ++ bytes⟩

/-- `Hasher::write_u8` (std): writes the one byte. Used by hashers.rs 35-37. -/
def writeU8 (h : Sha1Hasher) (b : UInt8) : Sha1Hasher := h.write [b]

/-- `u64::from_be_bytes` (std): the first byte is the most significant one. Used in hashers.rs 28-33. -/
def fromBeBytes (bs : List UInt8) : UInt64 := UInt64.ofNat (bs.foldl (fun acc b => acc * 256 + b.toNat) 0)

/-- `finish`, hashers.rs 28-33. `sha1` is the digest function of the crate `sha1` (20 bytes; arbitrary here). The
hasher keeps its bytes. -/
def finish (sha1 : List UInt8 → Vector UInt8 20) (h : Sha1Hasher) : UInt64 :=
  fromBeBytes ((sha1 h.bytes).toList.take 8)

end Sha1Hasher
end Verif
