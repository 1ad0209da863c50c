import Verif.Model.Hashers
import Mathlib.Tactic.Ring

/-! # Property C71: the SHA-1 hasher -/
namespace Verif.Props

/-- The number whose base-256 digits, most significant first, are the given bytes. -/
def beNat (bs : List UInt8) : Nat := (bs.reverse.zipIdx.map fun p => p.1.toNat * 256 ^ p.2).sum

/-- A hasher after a sequence of writes. -/
def writes (chunks : List (List UInt8)) : Sha1Hasher := chunks.foldl Sha1Hasher.write Sha1Hasher.new

theorem foldl_write_bytes (h : Sha1Hasher) (chunks : List (List UInt8)) :
    (chunks.foldl Sha1Hasher.write h).bytes = h.bytes ++ chunks.flatten := by
  induction chunks generalizing h with
  | nil => simp
  | cons c cs ih =>
    rw [List.foldl_cons, ih]
    simp [Sha1Hasher.write]

/-- C71: after any sequence of writes, the hash is a function of the concatenation of the chunks. -/
theorem C71_chunking (sha1 : List UInt8 → Vector UInt8 20) (chunks chunks' : List (List UInt8))
    (h : chunks.flatten = chunks'.flatten) : (writes chunks).finish sha1 = (writes chunks').finish sha1 := by
  unfold Sha1Hasher.finish writes
  rw [foldl_write_bytes, foldl_write_bytes, h]

theorem foldl_be (bs : List UInt8) (a : Nat) :
    bs.foldl (fun acc b => acc * 256 + b.toNat) a = a * 256 ^ bs.length + beNat bs := by
  induction bs generalizing a with
  | nil => simp [beNat]
  | cons b bs ih =>
    rw [List.foldl_cons, ih]
    unfold beNat
    rw [List.reverse_cons, List.zipIdx_append, List.map_append, List.sum_append, List.length_cons]
    simp
    ring

theorem beNat_lt (bs : List UInt8) : beNat bs < 256 ^ bs.length := by
  have : ∀ bs : List UInt8, ∀ a : Nat, bs.foldl (fun acc b => acc * 256 + b.toNat) a < (a + 1) * 256 ^ bs.length := by
    intro bs
    induction bs with
    | nil => intro a; simp
    | cons b bs ih =>
      intro a
      rw [List.foldl_cons, List.length_cons, pow_succ]
      refine lt_of_lt_of_le (ih _) ?_
      have hb := b.toNat_lt
      have : a * 256 + b.toNat + 1 ≤ (a + 1) * 256 := by omega
      calc _ ≤ ((a + 1) * 256) * 256 ^ bs.length := Nat.mul_le_mul_right _ this
        _ = _ := by ring
  have h := this bs 0
  rw [foldl_be] at h
  simpa using h

/-- C71: the hash is the first eight bytes of the SHA-1 digest of everything written, read as a big-endian
number. -/
theorem C71_value (sha1 : List UInt8 → Vector UInt8 20) (chunks : List (List UInt8)) :
    ((writes chunks).finish sha1).toNat = beNat ((sha1 chunks.flatten).toList.take 8) := by
  unfold Sha1Hasher.finish writes Sha1Hasher.fromBeBytes
  rw [foldl_write_bytes, foldl_be]
  simp only [Nat.zero_mul, Nat.zero_add, Sha1Hasher.new, List.nil_append]
  rw [UInt64.toNat_ofNat_of_lt']
  have h := beNat_lt ((sha1 chunks.flatten).toList.take 8)
  have hl : ((sha1 chunks.flatten).toList.take 8).length = 8 := by simp
  rw [hl] at h
  exact h

/-- C71: `finish` does not reset: writing may go on, and a hasher made by `default` is a new one. -/
theorem C71_continue (sha1 : List UInt8 → Vector UInt8 20) (chunks more : List (List UInt8)) (b : UInt8) :
    ((more.foldl Sha1Hasher.write (writes chunks)).finish sha1 = (writes (chunks ++ more)).finish sha1) ∧
    ((writes chunks).writeU8 b).finish sha1 = (writes (chunks ++ [[b]])).finish sha1 ∧
    (chunks.foldl Sha1Hasher.write Sha1Hasher.default).finish sha1 = (writes chunks).finish sha1 := by
  refine ⟨?_, ?_, rfl⟩
  · unfold writes; rw [List.foldl_append]
  · unfold writes; rw [List.foldl_append]; rfl

/-- A digest for the example: the length and the sum of the bytes. -/
def exSha (bs : List UInt8) : Vector UInt8 20 :=
  #v[UInt8.ofNat bs.length, bs.sum, 3, 4, 5, 6, 7, 8, 9, 10, 11, 12, 13, 14, 15, 16, 17, 18, 19, 20]

/-- Two splittings of the same bytes, and one of other bytes. -/
example : [[1, 2], [], [3]].flatten = ([[1], [2, 3]] : List (List UInt8)).flatten ∧
    (writes [[1, 2], [], [3]]).finish exSha = 0x0306030405060708 ∧
    (writes [[1], [2, 3]]).finish exSha = 0x0306030405060708 ∧
    (writes [[1], [2]]).finish exSha = 0x0203030405060708 := by
  decide +kernel

end Verif.Props
