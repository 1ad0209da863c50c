import Verif.Model.Hashers
import Verif.Model.PyCommon
import Verif.Model.SimHash

/-!
# How tokens are hashed

`item.hash(&mut hasher)` writes bytes to the hasher, and `finish` makes the hash of them: min_hasher.rs 72-78,
min_hasher64.rs 59-65, sim_hasher.rs 28-89. The bytes are those written by the standard library for `str` and slices, on
a 64-bit little-endian machine. The default hasher is `FnvHasher` of the crate `fnv` (min_hasher.rs 32, min_hasher64.rs 26,
py-gaoya/src/min_hash.rs 236-251), which is short enough to be modelled.
-/
namespace Verif

/-- `impl Hash for str` (std): the bytes, then `0xff`. Used in min_hasher.rs 75, sim_hasher.rs 37 and 58. -/
def strFeed (bytes : List UInt8) : List UInt8 := bytes ++ [0xff]

/-- `usize::to_ne_bytes` (std), on a 64-bit little-endian machine. Used in min_hasher.rs 75 for slices. -/
def lenBytes (n : Nat) : List UInt8 := (List.range 8).map fun i => UInt8.ofNat (n / 256 ^ i % 256)

/-- `impl Hash for [T]` (std) on a slice of strings: the number of elements, then every element. Used in
min_hasher.rs 75. -/
def wordsFeed (ws : List PyText) : List UInt8 := lenBytes ws.length ++ ws.flatMap fun t => strFeed (toUtf8 t)

/-- The bytes which a feature writes, min_hasher.rs 75, sim_hasher.rs 37 and 58. -/
def tokFeed : PyTok → List UInt8
  | .str bytes => strFeed bytes
  | .words ws => wordsFeed ws

/-- One byte of `FnvHasher::write` (crate `fnv`): xor, then multiply. Used in min_hasher.rs 32. -/
def fnvStep (h : UInt64) (b : UInt8) : UInt64 := (h ^^^ b.toUInt64) * 0x100000001b3

/-- `FnvHasher::default`, `write` and `finish` (crate `fnv`). Used in min_hasher.rs 32 and 74-76. -/
def fnv (bytes : List UInt8) : UInt64 := bytes.foldl fnvStep 0xcbf29ce484222325

/-- The hash of a feature by the default hasher, min_hasher.rs 73-76 (before `as u32`), min_hasher64.rs 60-64. -/
def fnvTok (t : PyTok) : UInt64 := fnv (tokFeed t)

/-- `ShaHasher64::hash`, sim_hasher.rs 50-62. -/
def shaTok (sha1 : List UInt8 → Vector UInt8 20) (t : PyTok) : UInt64 :=
  (Sha1Hasher.new.write (tokFeed t)).finish sha1

/-- `SimSipHasher64::hash`, sim_hasher.rs 28-40: `sip` is SipHash (crate `siphasher`; arbitrary here). -/
def sipTok64 (sip : UInt64 → UInt64 → List UInt8 → UInt64) (key1 key2 : UInt64) (t : PyTok) : BitVec 64 :=
  (sip key1 key2 (tokFeed t)).toBitVec

/-- `SimSipHasher128::hash`, sim_hasher.rs 78-89: `sip` is SipHash with 128 bits (crate `siphasher`; arbitrary here). -/
def sipTok128 (sip : UInt64 → UInt64 → List UInt8 → BitVec 128) (key1 key2 : UInt64) (t : PyTok) : BitVec 128 :=
  sip key1 key2 (tokFeed t)

end Verif
