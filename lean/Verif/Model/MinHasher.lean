import Verif.Model.Similarity

/-!
# MinHash signature generators (`min_hasher.rs`, `min_hasher64.rs`, trait `MinHasher` in `mod.rs`)

The item hash (`build_hasher.build_hasher()`, `item.hash(..)`, `finish()`) is an arbitrary function
`hash : Tok → UInt64`: any `BuildHasher` (FNV, SipHash24, Sha1, ...) is covered and no quality of the hash is
assumed. The random number generator is an arbitrary state machine that respects its ranges.
-/
namespace Verif

/-- `StdRng` + `Uniform`: any seeded generator whose samples lie in the requested half-open range
(the documented contract of `rand::distributions::Uniform`).
Rand, used in min_hasher.rs 41-55, min_hasher64.rs 40-54. -/
structure Rng where
  State : Type
  seedFromU64 : UInt64 → State
  uniform : Nat → Nat → State → Nat × State
  uniform_range : ∀ lo hi s, lo < hi → lo ≤ (uniform lo hi s).1 ∧ (uniform lo hi s).1 < hi

/-- `(0..n).map(|_| range.sample(&mut rng)).collect()` (min_hasher.rs 47-49, min_hasher64.rs 46-48). -/
def Rng.sampleN (g : Rng) (lo hi : Nat) : Nat → g.State → List Nat × g.State
  | 0, s => ([], s)
  | n + 1, s =>
    let (x, s1) := g.uniform lo hi s
    let (xs, s2) := Rng.sampleN g lo hi n s1
    (x :: xs, s2)

/-- `MERSENNE_PRIME_31`, min_hasher.rs 104. -/
def mersenne31 : Nat := 2 ^ 31 - 1
/-- `MERSENNE_PRIME`, min_hasher64.rs 20. -/
def mersenne61 : Nat := 2 ^ 61 - 1

/-- The struct made by `make_min_hasher!`, min_hasher.rs 23-28 (`hash` stands for `build_hasher`). -/
structure MinHasherN (Tok : Type) where
  hash : Tok → UInt64
  a : List UInt32
  b : List UInt32
  numHashes : Nat

/-- `new_with_hasher_and_seed`, min_hasher.rs 41-55. -/
def MinHasherN.newWithHasherAndSeed {Tok : Type} (g : Rng) (numHashes : Nat) (hash : Tok → UInt64)
    (seed : UInt64) : MinHasherN Tok :=
  let rng := g.seedFromU64 seed
  let (a, rng1) := g.sampleN 1 mersenne31 numHashes rng
  let (b, _) := g.sampleN 0 mersenne31 numHashes rng1
  { hash, a := a.map UInt32.ofNat, b := b.map UInt32.ofNat, numHashes }

/-- `new_with_hasher`, min_hasher.rs 37-39 (seed 3); `new` (31-33) is the same with the FNV hasher. -/
def MinHasherN.newWithHasher {Tok : Type} (g : Rng) (numHashes : Nat) (hash : Tok → UInt64) :
    MinHasherN Tok := .newWithHasherAndSeed g numHashes hash 3

/-- The affine hash, min_hasher.rs 89: `hash.wrapping_mul(a).wrapping_add(b) % MERSENNE_PRIME_31`. -/
def affine32 (a b h : UInt32) : UInt32 := (h * a + b) % (UInt32.ofNat mersenne31)

/-- `iter.min()` on `u32`. Std, used in min_hasher.rs 89. -/
def min32 (l : List UInt32) : Option UInt32 := minBy (fun x y => compare x.toNat y.toNat) l

/-- `create_signature`, min_hasher.rs 67-98. `cast` is `h as $type` (line 93). -/
def MinHasherN.createSignature {Tok V : Type} (cast : UInt32 → V) (zero : V) (m : MinHasherN Tok)
    (iter : List Tok) : Except Panic (List V) :=
  let hashes : List UInt32 := iter.map fun item => (m.hash item).toUInt32
  if hashes.length > 0 then
    (m.a.zip m.b).mapM fun ab => do
      let h ← unwrap (min32 (hashes.map fun hash => affine32 ab.1 ab.2 hash))
      pure (cast h)
  else .ok (List.replicate m.numHashes zero)

/-- `MinHasher32::create_signature` (min_hasher.rs 108). -/
def MinHasherN.sig32 {Tok : Type} (m : MinHasherN Tok) (iter : List Tok) : Except Panic (List UInt32) :=
  m.createSignature (fun h => h) 0 iter
/-- `MinHasher16::create_signature` (min_hasher.rs 109). -/
def MinHasherN.sig16 {Tok : Type} (m : MinHasherN Tok) (iter : List Tok) : Except Panic (List UInt16) :=
  m.createSignature UInt32.toUInt16 0 iter
/-- `MinHasher8::create_signature` (min_hasher.rs 110). -/
def MinHasherN.sig8 {Tok : Type} (m : MinHasherN Tok) (iter : List Tok) : Except Panic (List UInt8) :=
  m.createSignature UInt32.toUInt8 0 iter

/-- `MinHasher64V1`, min_hasher64.rs 13-18. -/
structure MinHasher64 (Tok : Type) where
  hash : Tok → UInt64
  a : List UInt64
  b : List UInt64
  numHashes : Nat

/-- `new_with_hasher_and_seed`, min_hasher64.rs 40-54. -/
def MinHasher64.newWithHasherAndSeed {Tok : Type} (g : Rng) (numHashes : Nat) (hash : Tok → UInt64)
    (seed : UInt64) : MinHasher64 Tok :=
  let rng := g.seedFromU64 seed
  let (a, rng1) := g.sampleN 1 mersenne61 numHashes rng
  let (b, _) := g.sampleN 0 mersenne61 numHashes rng1
  { hash, a := a.map UInt64.ofNat, b := b.map UInt64.ofNat, numHashes }

/-- `new_with_hasher`, min_hasher64.rs 36-38 (seed 3); `new` (29-31) is the same with the FNV hasher. -/
def MinHasher64.newWithHasher {Tok : Type} (g : Rng) (numHashes : Nat) (hash : Tok → UInt64) :
    MinHasher64 Tok := .newWithHasherAndSeed g numHashes hash 3

/-- The affine hash, min_hasher64.rs 80-81 and 112. -/
def affine64 (a b h : UInt64) : UInt64 := (h * a + b) % (UInt64.ofNat mersenne61)

/-- `iter.min()` on `u64`. Std, used in min_hasher64.rs 83. -/
def min64 (l : List UInt64) : Option UInt64 := minBy (fun x y => compare x.toNat y.toNat) l

/-- `create_signature`, min_hasher64.rs 92-119. -/
def MinHasher64.createSignature {Tok : Type} (m : MinHasher64 Tok) (iter : List Tok) :
    Except Panic (List UInt64) :=
  let hashes : List UInt64 := iter.map m.hash
  if hashes.length > 0 then
    (m.a.zip m.b).mapM fun ab => unwrap (min64 (hashes.map fun hash => affine64 ab.1 ab.2 hash))
  else .ok (List.replicate m.numHashes 0)

/-- `vec[i]`. Used in min_hasher64.rs 104-116. -/
def indexE {α : Type} (l : List α) (i : Nat) : Except Panic α :=
  match l[i]? with
  | some a => .ok a
  | none => .error .index

/-- The `for (index, hash) in ret.iter_mut().enumerate()` loop of `get_min_hashes_into_vec`,
min_hasher64.rs 76-85: writes slot after slot (`n` slots are already written). -/
def MinHasher64.intoVecLoop {Tok : Type} (m : MinHasher64 Tok) (hashes : List UInt64) :
    Nat → List UInt64 → Except Panic (List UInt64)
  | _, [] => .ok []
  | i, _ :: rest => do
    let vals ← hashes.mapM fun hash => do
      let a ← indexE m.a i
      let b ← indexE m.b i
      pure (affine64 a b hash)
    let h ← unwrap (min64 vals)
    let tl ← MinHasher64.intoVecLoop m hashes (i + 1) rest
    pure (h :: tl)

/-- `get_min_hashes_into_vec`, min_hasher64.rs 61-87: the new content of the buffer. -/
def MinHasher64.getMinHashesIntoVec {Tok : Type} (m : MinHasher64 Tok) (iter : List Tok)
    (ret : List UInt64) : Except Panic (List UInt64) :=
  if m.numHashes = ret.length then
    let hashes := iter.map m.hash
    if hashes.isEmpty then .ok ret else m.intoVecLoop hashes 0 ret
  else .error .assert

/-- `bulk_create_signature` and `bulk_create_signature_refs`, mod.rs 54-72: rayon parallel map of
`create_signature`; a panic in one of the tasks is a panic of the call. -/
def bulkCreateSignature {Tok V : Type} (create : List Tok → Except Panic (List V))
    (batch : List (List Tok)) (sched : List Nat) : Except Panic (List (List V)) :=
  (parMap create batch sched).mapM fun r => r

/-- `compute_similarity`, mod.rs 75-83. -/
def computeSimilarity {Tok V : Type} [DecidableEq V] (create : List Tok → Except Panic (List V))
    (l1 l2 : List Tok) : Except Panic Fl := do
  let s1 ← create l1
  let s2 ← create l2
  minhashSimilarity s1 s2

end Verif
