import Verif.Model.Fl
import Verif.Model.Prelude

/-! # Similarity measures (`gaoya/src/minhash/mod.rs`) -/
namespace Verif

variable {T : Type} [DecidableEq T]

/-- mod.rs 124-128: `zip(..).map(|(a, b)| (a == b) as u64).sum()`. The `u64` sum cannot overflow because a
slice has fewer than 2^64 elements. -/
def simMatches (a b : List T) : Nat :=
  ((a.zip b).map fun p => if p.1 = p.2 then 1 else 0).sum

/-- `compute_minhash_similarity`, mod.rs 118-130. -/
def minhashSimilarity (a b : List T) : Except Panic Fl :=
  if a.length = b.length then
    .ok (Fl.div b64 (Fl.ofNat b64 (simMatches a b)) (Fl.ofNat b64 a.length))
  else .error .assert

/-- `compute_minhash_distance`, mod.rs 132-138. -/
def minhashDistance (a b : List T) : Except Panic Fl :=
  (minhashSimilarity a b).map fun s => Fl.sub b64 (.fin 1) s

/-- `u32::MAX`. mod.rs 150. -/
def u32Max : Nat := 2 ^ 32 - 1

/-- The loop of `similarity_greater_than_threshold`, mod.rs 152-159. `num_matches += 1` on a `u32` is
modelled with the overflow check of a debug build. -/
def gtThresholdLoop (expected : Nat) : List (T × T) → Nat → Except Panic Bool
  | [], _ => .ok false
  | p :: ps, num =>
    if p.1 = p.2 then
      if num = u32Max then .error .overflow
      else if expected ≤ num + 1 then .ok true
      else gtThresholdLoop expected ps (num + 1)
    else if expected ≤ num then .ok true
    else gtThresholdLoop expected ps num

/-- `similarity_greater_than_threshold`, mod.rs 140-161. -/
def similarityGreaterThanThreshold (a b : List T) (threshold : Fl) : Except Panic Bool :=
  if a.length = b.length then
    gtThresholdLoop
      (Fl.toUnsigned u32Max (Fl.mul b64 (Fl.ofNat b64 a.length) threshold)) (a.zip b) 0
  else .error .assert

/-- `compute_jaccard_similarity`, mod.rs 86-95. -/
def jaccardSimilarity (l1 l2 : List T) : Fl :=
  let h1 := HSet.empty.extend l1
  let h2 := HSet.empty.extend l2
  let inter := (h1.elems.filter fun x => h2.contains x).length
  Fl.div b32 (Fl.ofNat b32 inter) (Fl.ofNat b32 (h1.len + h2.len - inter))

/-- `compute_jaccard_distance`, mod.rs 97-103. -/
def jaccardDistance (l1 l2 : List T) : Fl := Fl.sub b32 (.fin 1) (jaccardSimilarity l1 l2)

end Verif
