import Verif.Model.Prelude
import Mathlib.Data.Int.Basic

/-!
# SimHash (`gaoya/src/simhash/mod.rs`, `sim_hash.rs`, `permutation.rs`)

`S: SimHashBits` is implemented for `u64` and `u128`; here `S` is `BitVec w` for any width `w`. Release
semantics: a shift amount is reduced modulo the width. The token hash (`SimHasher::hash`) is an arbitrary
function; `create_signature` is modelled on the sequence of token hashes.
-/
namespace Verif
variable {w : Nat}

/-- `x << i` on a primitive integer (release build). Used in sim_hash.rs 31-82, permutation.rs 116. -/
def shl (x : BitVec w) (i : Nat) : BitVec w := x <<< (i % w)
/-- `x >> i` on a primitive integer (release build). Used in simhash/mod.rs 68-73, permutation.rs 118. -/
def shr (x : BitVec w) (i : Nat) : BitVec w := x >>> (i % w)

/-- `count_ones`, mod.rs 62-64 (std). -/
def countOnes (x : BitVec w) : Nat := (List.range w).countP fun i => x.getLsbD i

/-- `hamming_distance`, mod.rs 77-79. -/
def hammingDistance (x y : BitVec w) : Nat := countOnes (x ^^^ y)

/-- `bit_length`, mod.rs 82-84. -/
def bitLength (_ : BitVec w) : Nat := w

/-- The inner loop of `create_signature`, sim_hash.rs 38-45, over the counters (an `i64` counter cannot overflow
before 2^63 tokens; integers here). -/
def voteLoop : List Int → BitVec w → List Int
  | [], _ => []
  | c :: cs, hash => (if hash &&& 1#w = 0#w then c + 1 else c - 1) :: voteLoop cs (shr hash 1)

/-- `create_signature`, sim_hash.rs 30-55, on the hashes of the items. -/
def simSignature (L : Nat) (hashes : List (BitVec w)) : BitVec w :=
  let counts := hashes.foldl voteLoop (List.replicate L 0)
  (counts.zipIdx).foldl (fun result p => if p.1 > 0 then result ||| shl 1#w p.2 else result) 0#w

/-- The loop 64-68 of `create_centroid`: one signature is counted. File sim_hash.rs. -/
def countBits (counts : List Nat) (signature : BitVec w) : List Nat :=
  counts.zipIdx.map fun p => if shr signature p.2 &&& 1#w = 1#w then p.1 + 1 else p.1

/-- `create_centroid`, sim_hash.rs 57-78 (`u64` counters as natural numbers). -/
def simCentroid (L : Nat) (signatures : List (BitVec w)) : BitVec w :=
  let counts := signatures.foldl countBits (List.replicate L 0)
  let len := signatures.length
  counts.zipIdx.foldl (fun c p => if p.1 > len / 2 then c ||| shl 1#w p.2 else c) 0#w

/-! ### Permutations -/

/-- `Permutation`, permutation.rs 7-16. -/
structure Permutation (w : Nat) where
  offsetsMasks : List (BitVec w × Int)
  searchMask : BitVec w
  simpleMask : BitVec w
  width : Nat

/-- `while (S::one() << i) & mask == S::zero() { i += 1 }`, permutation.rs 42-44: does not end for a zero mask. -/
def lowLoop (mask : BitVec w) : Nat → Nat → Except Panic Nat
  | 0, _ => .error .outOfFuel
  | fuel + 1, i => if shl 1#w i &&& mask = 0#w then lowLoop mask fuel (i + 1) else .ok i

/-- `while j < type_width && ((S::one() << j) & mask != S::zero()) { j += 1 }`, permutation.rs 46-49; the first
argument is `type_width - j`. -/
def highLoop (mask : BitVec w) : Nat → Nat → Nat
  | 0, j => j
  | n + 1, j => if shl 1#w j &&& mask ≠ 0#w then highLoop mask n (j + 1) else j

/-- The loop 36-56: width and offset of every mask; the argument is `width` so far. File permutation.rs. -/
def measure (fuel : Nat) : Nat → List (BitVec w) → Except Panic (List (Nat × Int))
  | _, [] => .ok []
  | width, mask :: masks => do
    let i ← lowLoop mask fuel 0
    let j := highLoop mask (w - i) i
    let width' := width + (j - i)
    let rest ← measure fuel width' masks
    pure ((j - i, (w : Int) - (width' : Int) - (i : Int)) :: rest)

/-- permutation.rs lines 66-71: `width` ones from the top. -/
def topMask (w width : Nat) : BitVec w :=
  let m := (List.range width).foldl (fun m _ => shl m 1 ||| 1#w) 0#w
  (List.range (w - width)).foldl (fun m _ => shl m 1) m

/-- `Permutation::new`, permutation.rs 22-76. In a release build `widths.len() - diff_bits` wraps, and the loop then
indexes out of bounds. -/
def Permutation.new (fuel diffBits : Nat) (masks choice : List (BitVec w)) : Except Panic (Permutation w) := do
  let ms ← measure fuel 0 masks
  if ms.length < diffBits then .error .index
  else
    let n := ms.length - diffBits
    let width := ((ms.take n).map Prod.fst).sum
    pure { offsetsMasks := (masks.zip (ms.map Prod.snd)).take n
           searchMask := topMask w width
           simpleMask := choice.foldl (fun m c => m ||| c) 0#w
           width := width }

/-- The mask of block `i`, permutation.rs 86-91. -/
def blockMask (w numBlocks i : Nat) : BitVec w :=
  let start := (i * w) / numBlocks
  let stop := ((i + 1) * w) / numBlocks
  (List.range' start (stop - start)).foldl (fun mask j => mask ||| shl 1#w j) 0#w

/-- `Itertools::combinations`: choices of `k` elements, in lexicographic order of positions.
Itertools, used in permutation.rs 96. -/
def combinations {α : Type} : Nat → List α → List (List α)
  | 0, _ => [[]]
  | _ + 1, [] => []
  | k + 1, x :: xs => (combinations k xs).map (fun c => x :: c) ++ combinations (k + 1) xs

/-- permutation.rs lines 97-102: the other blocks follow the chosen ones. -/
def allBlocks (blocks combination : List (BitVec w)) : List (BitVec w) :=
  blocks.foldl (fun all v => if v ∈ all then all else all ++ [v]) combination

/-- `Permutation::create`, permutation.rs 78-106. `num_blocks - diff_bits` wraps in a release build, and
`combinations` of such a number panics (capacity overflow). -/
def Permutation.create (fuel w numBlocks diffBits : Nat) : Except Panic (List (Permutation w)) :=
  let blocks := (List.range numBlocks).map (blockMask w numBlocks)
  if numBlocks < diffBits then .error .overflow
  else
    (combinations (numBlocks - diffBits) blocks).mapM fun combination =>
      Permutation.new fuel diffBits (allBlocks blocks combination) combination

/-- `permute`, permutation.rs 108-122. -/
def Permutation.permute (p : Permutation w) (simHash : BitVec w) : BitVec w :=
  let result := p.offsetsMasks.foldl (fun result pair =>
    if pair.2 > 0 then result ||| shl (simHash &&& pair.1) pair.2.toNat
    else result ||| shr (simHash &&& pair.1) (0 - pair.2).toNat) 0#w
  result &&& p.searchMask

end Verif
