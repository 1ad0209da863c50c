import Verif.Model.MinHasher

/-!
# SuperMinHash (`super_min_hash.rs`)

The two experimental signature generators. The module is private in `minhash/mod.rs`; its types implement the trait
`MinHasher`.
-/
namespace Verif

namespace Fl

/-- Rust `a + b`. super_min_hash.rs 53, 119. -/
def add (f : Fmt) : Fl → Fl → Fl
  | fin a, fin b => rnd f (a + b)
  | pinf, ninf => nan
  | ninf, pinf => nan
  | nan, _ => nan
  | _, nan => nan
  | pinf, _ => pinf
  | _, pinf => pinf
  | ninf, _ => ninf
  | _, ninf => ninf

/-- Rust `a.min(b)` on floats: a NaN is ignored. super_min_hash.rs 53. -/
def fmin : Fl → Fl → Fl
  | nan, b => b
  | a, nan => a
  | a, b => if lt b a then b else a

end Fl

/-- `StdRng` with `Uniform::<usize>`, `SliceRandom::shuffle` and `Uniform::<f32>` on `0..1`: a generator whose shuffles
are permutations and whose unit samples are `f32` values in the half-open unit interval.
Rand, used in super_min_hash.rs 47-52, 93, 102-107. -/
structure SuperRng extends Rng where
  shuffle : List Nat → State → List Nat × State
  unit : State → ℚ × State
  shuffle_perm : ∀ l s, (shuffle l s).1.Perm l
  unit_range : ∀ s, 0 ≤ (unit s).1 ∧ (unit s).1 < 1
  unit_single : ∀ s, rnd b32 (unit s).1 = .fin (unit s).1

/-- `99999999f32`, super_min_hash.rs 42 and 90. -/
def superInit : Fl := Fl.ofNat b32 99999999

/-- `h as u32`, super_min_hash.rs 57 and 134. -/
def superCast (h : Fl) : UInt32 := UInt32.ofNat (h.toUnsigned (2 ^ 32 - 1))

/-- `SuperMinHasher32V1` and `SuperMinHash32V2`, super_min_hash.rs 13-16 and 61-64 (`hash` stands for `build_hasher`). -/
structure SuperMinHasher (Tok : Type) where
  hash : Tok → UInt64
  numHashes : Nat

namespace SuperMinHasher
variable {Tok : Type}

/-! ### V1 -/

/-- The loop over `j`, super_min_hash.rs 51-55, on the rest of `p` and of `minhash`; `p[j]` panics when `p` is shorter. -/
def row1 (g : SuperRng) : List Nat → List Fl → g.State → Except Panic (List Fl)
  | _, [], _ => .ok []
  | [], _ :: _, _ => .error .index
  | p :: ps, m :: ms, s => do
    let rest ← row1 g ps ms (g.unit s).2
    pure (Fl.fmin m (Fl.add b32 (.fin (g.unit s).1) (Fl.ofNat b32 p)) :: rest)

/-- The body of the loop over the items, super_min_hash.rs 43-56. -/
def item1 (g : SuperRng) (m : SuperMinHasher Tok) (minhash : List Fl) (item : Tok) : Except Panic (List Fl) :=
  let p := g.shuffle (List.range (m.numHashes % 2 ^ 32)) (g.seedFromU64 (m.hash item))
  row1 g p.1 minhash p.2

/-- `create_signature` of `SuperMinHasher32V1`, super_min_hash.rs 37-58. -/
def createSignature1 (g : SuperRng) (m : SuperMinHasher Tok) (iter : List Tok) : Except Panic (List UInt32) := do
  let minhash ← iter.foldlM (item1 g m) (List.replicate m.numHashes superInit)
  pure (minhash.map superCast)

/-! ### V2 -/

/-- The local variables of `create_signature`, super_min_hash.rs 90-97. -/
structure Locals where
  h : List Fl
  a : Nat
  q : List Nat
  p : List Nat
  b : List Int

/-- `vec[i] = x`. super_min_hash.rs 97-125. -/
def setE {α : Type} (l : List α) (i : Nat) (x : α) : Except Panic (List α) :=
  if i < l.length then .ok (l.set i x) else .error .index

/-- `while b[a] == 0 { a -= 1; }`, super_min_hash.rs 126-128. At 0 the subtraction wraps and the next access is out of
range. -/
def lowerA (b : List Int) : Nat → Except Panic Nat
  | 0 => do
    let x ← indexE b 0
    if x = 0 then .error .index else pure 0
  | a + 1 => do
    let x ← indexE b (a + 1)
    if x = 0 then lowerA b a else pure (a + 1)

/-- `if q[j] != i { q[j] = i; p[j] = j; }`, super_min_hash.rs 108-111 and 112-115. -/
def resetP (i j : Nat) (l : Locals) : Except Panic Locals := do
  let x ← indexE l.q j
  if x ≠ i then
    let q ← setE l.q j i
    let p ← setE l.p j j
    pure { l with q := q, p := p }
  else pure l

/-- The swap of `p[j]` and `p[k]`, super_min_hash.rs 116-118. -/
def swapP (j k : Nat) (l : Locals) : Except Panic Locals := do
  let x ← indexE l.p j
  let y ← indexE l.p k
  let p ← setE l.p j y
  let p ← setE p k x
  pure { l with p := p }

/-- The update of `h`, `b` and `a`, super_min_hash.rs 119-130. -/
def update (m j : Nat) (r : ℚ) (l : Locals) : Except Panic Locals := do
  let rpj := Fl.add b32 (.fin r) (Fl.ofNat b32 j)
  let pj ← indexE l.p j
  let old ← indexE l.h pj
  if Fl.lt rpj old then
    let j2 := min (old.toUnsigned (2 ^ 64 - 1)) (m - 1)
    let h ← setE l.h pj rpj
    if j < j2 then
      let x ← indexE l.b j2
      let b ← setE l.b j2 (x - 1)
      let y ← indexE b j
      let b ← setE b j (y + 1)
      let a ← lowerA b l.a
      pure { l with h := h, b := b, a := a }
    else pure { l with h := h }
  else pure l

/-- The `while j <= a` loop, super_min_hash.rs 105-132. `Uniform::new` panics on an empty range. -/
def loop2 (g : SuperRng) (m i : Nat) : Nat → Nat → g.State → Locals → Except Panic Locals
  | 0, _, _, _ => .error .outOfFuel
  | fuel + 1, j, s, l =>
    if j ≤ l.a then
      let r := g.unit s
      if j < m then
        let k := g.uniform j m r.2
        do
          let l ← resetP i j l
          let l ← resetP i k.1 l
          let l ← swapP j k.1 l
          let l ← update m j r.1 l
          loop2 g m i fuel (j + 1) k.2 l
      else .error .invalidArg
    else .ok l

/-- The body of the loop over the items, super_min_hash.rs 99-133; `x` is the item with its number. -/
def item2 (g : SuperRng) (m : SuperMinHasher Tok) (l : Locals) (x : Tok × Nat) : Except Panic Locals :=
  loop2 g m.numHashes x.2 (m.numHashes + 1) 0 (g.seedFromU64 (m.hash x.1)) l

/-- `create_signature` of `SuperMinHash32V2`, super_min_hash.rs 85-135. `b[m - 1]` panics for `m = 0` (the subtraction
wraps). -/
def createSignature2 (g : SuperRng) (m : SuperMinHasher Tok) (iter : List Tok) : Except Panic (List UInt32) :=
  let n := m.numHashes
  if n = 0 then .error .index
  else do
    let l ← iter.zipIdx.foldlM (item2 g m)
      { h := List.replicate n superInit, a := n - 1, q := List.replicate n 0, p := List.replicate n 0,
        b := (List.replicate n (-1)).set (n - 1) n }
    pure (l.h.map superCast)

end SuperMinHasher
end Verif
