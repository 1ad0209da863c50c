import Verif.Lemmas.Permutation
import Mathlib.Order.Interval.Finset.Nat

/-!
# SimHash: properties C46 – C49, C56

All theorems hold for every width `w ≥ 2`; the code uses `w = 64` (`u64`) and `w = 128` (`u128`).
-/
namespace Verif.Props
open Verif Verif.Spec
variable {w : Nat}

/-! ### C46 -/

/-- C46: `hamming_distance` is the number of positions where two values differ. -/
theorem C46_counts_differing_bits (x y : BitVec w) : hammingDistance x y = (diffBits x y).card := hamming_card x y

/-- C46: it is a metric bounded by the number of bits. -/
theorem C46_metric (x y z : BitVec w) :
    hammingDistance x y = hammingDistance y x ∧ (hammingDistance x y = 0 ↔ x = y) ∧
      hammingDistance x z ≤ hammingDistance x y + hammingDistance y z ∧ hammingDistance x y ≤ bitLength x := by
  simp only [hamming_card]
  refine ⟨?_, ?_, ?_, ?_⟩
  · congr 1
    unfold diffBits
    apply Finset.filter_congr
    intro i _
    exact ne_comm
  · rw [Finset.card_eq_zero]
    constructor
    · intro h
      apply BitVec.eq_of_getLsbD_eq
      intro i hi
      by_contra hne
      have : (⟨i, hi⟩ : Fin w) ∈ diffBits x y := Finset.mem_filter.mpr ⟨Finset.mem_univ _, hne⟩
      rw [h] at this
      cases this
    · rintro rfl
      unfold diffBits
      simp
  · refine (Finset.card_le_card ?_).trans (Finset.card_union_le _ _)
    intro i hi
    rw [Finset.mem_union]
    have hi := (Finset.mem_filter.mp hi).2
    by_cases h : x.getLsbD i = y.getLsbD i
    · exact Or.inr (Finset.mem_filter.mpr ⟨Finset.mem_univ _, by rwa [← h]⟩)
    · exact Or.inl (Finset.mem_filter.mpr ⟨Finset.mem_univ _, h⟩)
  · exact (Finset.card_le_univ _).trans (by simp [bitLength])

example : hammingDistance (0b1011#64) (0b0110#64) ≤
    hammingDistance (0b1011#64) (0b1111#64) + hammingDistance (0b1111#64) (0b0110#64) := by decide +kernel

/-- C46 is not degenerate: the distance takes the value `w` (at complements) and every smaller one. -/
theorem C46_all_values (k : Nat) (hk : k ≤ w) : ∃ x y : BitVec w, hammingDistance x y = k := by
  obtain ⟨y, hy⟩ := exists_bits (w := w) fun j => decide (j < k)
  refine ⟨0#w, y, ?_⟩
  rw [hamming_card]
  have : diffBits (0#w) y = (Finset.univ : Finset (Fin k)).map (Fin.castLEEmb hk) := by
    ext i
    rw [Finset.mem_map]
    unfold diffBits
    rw [Finset.mem_filter, hy i.val i.isLt, BitVec.getLsbD_zero]
    constructor
    · rintro ⟨_, h⟩
      have : i.val < k := by
        by_contra hc
        apply h
        simp [hc]
      exact ⟨⟨i.val, this⟩, Finset.mem_univ _, rfl⟩
    · rintro ⟨a, _, rfl⟩
      exact ⟨Finset.mem_univ _, by simp⟩
  rw [this, Finset.card_map]
  simp

example : hammingDistance (0b1011#64) (0b0110#64) = 3 := by decide +kernel

/-! ### C47 -/

/-- C47: a bit of the signature of a token sequence is set exactly when strictly more token hashes have that bit
clear than set. -/
theorem C47_majority {T : Type} (hw : 2 ≤ w) (L : Nat) (hL : L ≤ w) (hash : T → BitVec w) (tokens : List T) (i : Nat) :
    (simSignature L (tokens.map hash)).getLsbD i = true ↔
      i < L ∧ tokens.countP (fun t => (hash t).getLsbD i) < tokens.countP (fun t => !(hash t).getLsbD i) := by
  rw [simSignature_bit hw L hL, decide_eq_true_eq]
  unfold ones zeros
  rw [List.countP_map, List.countP_map]
  rfl

/-- Three tokens: bit 2 is set in all hashes, bit 1 in two, bit 0 in one. -/
example : simSignature 8 ([1, 2, 3].map fun t : Nat => if t = 1 then 0b110#8 else if t = 2 then 0b110#8 else 0b101#8) =
    0b11111001#8 := by decide +kernel

/-- C47: the order of the tokens is irrelevant. -/
theorem C47_order {T : Type} (hw : 2 ≤ w) (L : Nat) (hL : L ≤ w) (hash : T → BitVec w) (s t : List T)
    (h : s.Perm t) : simSignature L (s.map hash) = simSignature L (t.map hash) := by
  apply BitVec.eq_of_getLsbD_eq
  intro i _
  rw [Bool.eq_iff_iff, C47_majority hw L hL, C47_majority hw L hL, h.countP_eq, h.countP_eq]

/-- C47: no tokens give zero. -/
theorem C47_empty (hw : 2 ≤ w) (L : Nat) (hL : L ≤ w) : simSignature L ([] : List (BitVec w)) = 0#w := by
  apply BitVec.eq_of_getLsbD_eq
  intro i _
  rw [simSignature_bit hw L hL]
  simp [ones, zeros]

/-- C47: one token (any number of times) gives the complement of its hash. -/
theorem C47_single (hw : 2 ≤ w) (h : BitVec w) (n : Nat) : simSignature w (List.replicate (n + 1) h) = ~~~h := by
  apply BitVec.eq_of_getLsbD_eq
  intro i hi
  rw [simSignature_bit hw w (Nat.le_refl _), BitVec.getLsbD_not]
  unfold ones zeros
  rw [List.countP_replicate, List.countP_replicate]
  cases h.getLsbD i <;> simp [hi]

/-- C47: doubling a token sequence does not change the signature. -/
theorem C47_repeat (hw : 2 ≤ w) (L : Nat) (hL : L ≤ w) (hashes : List (BitVec w)) :
    simSignature L (hashes ++ hashes) = simSignature L hashes := by
  apply BitVec.eq_of_getLsbD_eq
  intro i _
  rw [simSignature_bit hw L hL, simSignature_bit hw L hL]
  unfold ones zeros
  rw [List.countP_append, List.countP_append]
  congr 1
  apply propext
  constructor <;> (rintro ⟨a, b⟩; exact ⟨a, by omega⟩)

example : simSignature 64 [0b110#64, 0b100#64, 0b101#64] = ~~~0b100#64 := by decide +kernel

/-! ### C48 -/

/-- C48: a bit of the centroid is set exactly when more than half of the signatures have it. -/
theorem C48_majority (L : Nat) (hL : L ≤ w) (signatures : List (BitVec w)) (i : Nat) :
    (simCentroid L signatures).getLsbD i = true ↔
      i < L ∧ signatures.length < 2 * signatures.countP (fun s => s.getLsbD i) := by
  rw [simCentroid_bit L hL, decide_eq_true_eq]
  rfl

/-- C48: no value has a smaller total distance to the signatures than the centroid. -/
theorem C48_median (signatures : List (BitVec w)) (c : BitVec w) :
    (signatures.map fun s => hammingDistance (simCentroid w signatures) s).sum ≤
      (signatures.map fun s => hammingDistance c s).sum := by
  simp only [hamming_card]
  change totalDistance _ _ ≤ totalDistance _ _
  rw [totalDistance_eq, totalDistance_eq]
  apply Finset.sum_le_sum
  intro i _
  have hadd := ones_add_zeros signatures i.val
  by_cases h : signatures.length < 2 * ones signatures i.val
  · have : (simCentroid w signatures).getLsbD i = true := by
      rw [simCentroid_bit w (Nat.le_refl _)]
      simp [h]
    rw [if_pos this]
    split_ifs <;> omega
  · have : (simCentroid w signatures).getLsbD i = false := by
      rw [simCentroid_bit w (Nat.le_refl _)]
      simp
      omega
    rw [if_neg (by rw [this]; simp)]
    split_ifs <;> omega

example : simCentroid 8 [0b1100#8, 0b1010#8, 0b1001#8] = 0b1000#8 := by decide +kernel

/-- C48: the order of the signatures is irrelevant. -/
theorem C48_order (L : Nat) (hL : L ≤ w) (s t : List (BitVec w)) (h : s.Perm t) :
    simCentroid L s = simCentroid L t := by
  apply BitVec.eq_of_getLsbD_eq
  intro i _
  rw [Bool.eq_iff_iff, C48_majority L hL, C48_majority L hL, h.countP_eq, h.length_eq]

/-- C48: the centroid of copies of one signature is that signature. -/
theorem C48_same (s : BitVec w) (n : Nat) : simCentroid w (List.replicate (n + 1) s) = s := by
  apply BitVec.eq_of_getLsbD_eq
  intro i hi
  rw [Bool.eq_iff_iff, C48_majority w (Nat.le_refl _), List.countP_replicate, List.length_replicate]
  cases s.getLsbD i <;> simp [hi]

example : simCentroid 64 [0b110#64, 0b100#64, 0b001#64] = 0b100#64 := by decide +kernel

/-! ### C49 -/

/-- C49: with `1 ≤ num_blocks ≤ w` the bits are split in `num_blocks` non-empty contiguous blocks of (almost) equal
size, every bit in exactly one, and there is one table for each choice of `num_blocks - hamming_distance` blocks,
`binomial(num_blocks, hamming_distance)` in all. -/
theorem C49_partition (nb d : Nat) (h1 : 1 ≤ nb) (hn : nb ≤ w) (hd : d ≤ nb) (fuel : Nat) (hf : w ≤ fuel) :
    ∃ (blocks : Nat → BitVec w) (tables : List (Permutation w)),
      (∀ j < w, ∃! k, k < nb ∧ (blocks k).getLsbD j = true) ∧
      (∀ k < nb, ∃ start stop, start < stop ∧ stop ≤ w ∧ stop - start ≤ w / nb + 1 ∧ w / nb ≤ stop - start ∧
        ∀ j, (blocks k).getLsbD j = true ↔ start ≤ j ∧ j < stop) ∧
      Permutation.create fuel w nb d = .ok tables ∧ tables.length = nb.choose d ∧
      (tables.map fun t => t.simpleMask).Nodup ∧
      ∀ m, m ∈ (tables.map fun t => t.simpleMask) ↔ ∃ S : Finset Nat, S ⊆ Finset.range nb ∧ S.card = nb - d ∧
        ∀ j, m.getLsbD j = true ↔ ∃ k ∈ S, (blocks k).getLsbD j = true := by
  have hw : 1 ≤ w := by omega
  have hsub : ∀ ks ∈ combinations (nb - d) (List.range nb), ∀ k ∈ ks, k < nb := by
    intro ks hks k hk
    exact List.mem_range.mp (((mem_combinations _ _ _).mp hks).1.subset hk)
  refine ⟨blockMask w nb, _, ?_, ?_, create_eq hn hd hf, ?_, ?_, ?_⟩
  · intro j hj
    refine ⟨blockOf w nb j, ⟨blockOf_lt h1 hj, ?_⟩, ?_⟩
    · rw [blockMask_bit' (blockOf_lt h1 hj) hw]; simp
    · rintro k ⟨hk, hb⟩
      rw [blockMask_bit' hk hw, decide_eq_true_eq] at hb
      exact hb.symm
  · intro k hk
    refine ⟨st w nb k, st w nb (k + 1), st_lt k h1 hn, st_le (by omega) h1, ?_, ?_, ?_⟩
    · unfold st
      have e : (k + 1) * w = k * w + w := by ring
      have : (k * w + w) / nb ≤ k * w / nb + w / nb + 1 := by
        rw [Nat.add_div (by omega)]
        split_ifs <;> omega
      rw [e]
      generalize (k * w + w) / nb = A at *
      generalize k * w / nb = B at *
      generalize w / nb = C at *
      omega
    · unfold st
      have e : (k + 1) * w = k * w + w := by ring
      have : k * w / nb + w / nb ≤ (k * w + w) / nb := by
        rw [Nat.add_div (by omega)]
        split_ifs <;> omega
      rw [e]
      generalize (k * w + w) / nb = A at *
      generalize k * w / nb = B at *
      generalize w / nb = C at *
      omega
    · intro j
      rw [blockMask_bit hk, decide_eq_true_eq]
  · rw [List.length_map, combinations_length, List.length_range, Nat.choose_symm hd]
  · rw [List.map_map, List.nodup_map_iff_inj_on (combinations_nodup _ _ List.nodup_range)]
    intro a ha b hb e
    obtain ⟨sa, _⟩ := (mem_combinations _ _ _).mp ha
    obtain ⟨sb, _⟩ := (mem_combinations _ _ _).mp hb
    have mem : ∀ k, k ∈ a ↔ k ∈ b := by
      intro k
      by_cases hk : k < nb
      · have := congrArg (fun m : BitVec w => m.getLsbD (st w nb k)) e
        simp only [Function.comp] at this
        rw [simpleMask_bit (hsub a ha) hw, simpleMask_bit (hsub b hb) hw] at this
        have hblk : blockOf w nb (st w nb k) = k :=
          (in_block_iff h1 hw).mp ⟨Nat.le_refl _, st_lt k h1 hn⟩
        rw [hblk] at this
        simpa using this
      · exact ⟨fun h => absurd (hsub a ha k h) hk, fun h => absurd (hsub b hb k h) hk⟩
    have hp : a.Perm b := (List.perm_ext_iff_of_nodup (sa.nodup List.nodup_range) (sb.nodup List.nodup_range)).mpr mem
    have ra : a.Pairwise (· < ·) := List.pairwise_lt_range.sublist sa
    have rb : b.Pairwise (· < ·) := List.pairwise_lt_range.sublist sb
    exact hp.eq_of_pairwise (fun x y _ _ h1 h2 => absurd h1 (by omega)) ra rb
  · intro m
    rw [List.map_map, List.mem_map]
    constructor
    · rintro ⟨ks, hks, rfl⟩
      obtain ⟨sk, hl⟩ := (mem_combinations _ _ _).mp hks
      refine ⟨ks.toFinset, ?_, ?_, ?_⟩
      · intro k hk
        exact Finset.mem_range.mpr (hsub ks hks k (List.mem_toFinset.mp hk))
      · rw [List.toFinset_card_of_nodup (sk.nodup List.nodup_range), hl]
      · intro j
        simp only [Function.comp]
        rw [simpleMask_bit (hsub ks hks) hw, decide_eq_true_eq]
        constructor
        · intro h
          exact ⟨_, List.mem_toFinset.mpr h, by rw [blockMask_bit' (hsub ks hks _ h) hw]; simp⟩
        · rintro ⟨k, hk, hb⟩
          have hk := List.mem_toFinset.mp hk
          rw [blockMask_bit' (hsub ks hks k hk) hw, decide_eq_true_eq] at hb
          rwa [hb]
    · rintro ⟨S, hS, hc, hm⟩
      have hmem : ∀ k, k ∈ (List.range nb).filter (fun k => decide (k ∈ S)) ↔ k ∈ S := by
        intro k
        simp only [List.mem_filter, List.mem_range, decide_eq_true_eq]
        exact ⟨fun h => h.2, fun h => ⟨Finset.mem_range.mp (hS h), h⟩⟩
      have hcomb : (List.range nb).filter (fun k => decide (k ∈ S)) ∈ combinations (nb - d) (List.range nb) := by
        refine (mem_combinations _ _ _).mpr ⟨List.filter_sublist, ?_⟩
        rw [← hc, ← List.toFinset_card_of_nodup (List.nodup_range.filter _)]
        congr 1
        ext k
        rw [List.mem_toFinset, hmem]
      refine ⟨_, hcomb, ?_⟩
      apply BitVec.eq_of_getLsbD_eq
      intro j hj
      simp only [Function.comp]
      rw [simpleMask_bit (hsub _ hcomb) hw, Bool.eq_iff_iff, decide_eq_true_eq, hmem, hm]
      constructor
      · intro h
        exact ⟨_, h, by rw [blockMask_bit' (blockOf_lt h1 hj) hw]; simp⟩
      · rintro ⟨k, hk, hb⟩
        rw [blockMask_bit' (Finset.mem_range.mp (hS hk)) hw, decide_eq_true_eq] at hb
        rwa [hb]

/-- More blocks than bits: some block is empty and (in a release build) the constructor never returns, whatever the
number of loop iterations it is given. -/
theorem C49_too_many_blocks (nb d : Nat) (hn : w < nb) (hd : d ≤ nb) (fuel : Nat) :
    Permutation.create fuel w nb d = .error .outOfFuel := create_diverges hn hd fuel

/-- Fewer blocks than the distance: the constructor panics. -/
theorem C49_too_few_blocks (nb d : Nat) (hd : nb < d) (fuel : Nat) :
    Permutation.create fuel w nb d = .error .overflow := by
  unfold Permutation.create
  simp [hd]

example : Permutation.create 64 64 4 5 = .error .overflow ∧ Permutation.create 64 8 9 4 = .error .outOfFuel :=
  ⟨C49_too_few_blocks 4 5 (by decide) 64, C49_too_many_blocks 9 4 (by decide) (by decide) 64⟩

/-- The six tables of `SimHashIndex::<u64>::new(4, 2)`; the first keeps the lower half. -/
example : ((Permutation.create 64 64 4 2).map fun ts => ts.map fun t => t.simpleMask) =
    .ok [0x00000000FFFFFFFF#64, 0x0000FFFF0000FFFF#64, 0xFFFF00000000FFFF#64, 0x0000FFFFFFFF0000#64,
      0xFFFF0000FFFF0000#64, 0xFFFFFFFF00000000#64] := by decide +kernel

/-! ### C56 -/

/-- C56: `permute` maps two values to the same result exactly when they agree on the bits of the table's mask; the
result uses only the top `width` bits, and `width` is the number of those bits. -/
theorem C56_permute (nb d : Nat) (hw : 2 ≤ w) (hn : nb ≤ w) (hd : d ≤ nb) (fuel : Nat) (hf : w ≤ fuel)
    (tables : List (Permutation w)) (hc : Permutation.create fuel w nb d = .ok tables) (t : Permutation w)
    (ht : t ∈ tables) (x y : BitVec w) :
    (t.permute x = t.permute y ↔ ∀ j < w, t.simpleMask.getLsbD j = true → x.getLsbD j = y.getLsbD j) ∧
      (∀ p, (t.permute x).getLsbD p = true → w - t.width ≤ p) := by
  rw [create_eq hn hd hf] at hc
  injection hc with hc
  subst hc
  obtain ⟨ks, hks, rfl⟩ := List.mem_map.mp ht
  have sk := ((mem_combinations _ _ _).mp hks).1
  have hlt : ∀ k ∈ ks, k < nb := fun k hk => List.mem_range.mp (sk.subset hk)
  have htot : totalWidth w nb ks ≤ w := by
    by_cases h1 : 1 ≤ nb
    · exact totalWidth_le h1 sk
    · have : nb = 0 := by omega
      subst this
      have : ks = [] := by simpa using sk
      subst this
      simp [totalWidth]
  have bit : ∀ (z : BitVec w) p, ((permOf w nb ks).permute z).getLsbD p =
      (((pairsFrom w nb 0 ks).any fun pair => (contribution z pair).getLsbD p) &&
        decide (w - totalWidth w nb ks ≤ p ∧ p < w)) := by
    intro z p
    rw [permute_eq, BitVec.getLsbD_and, foldl_or_bit' (contribution z), BitVec.getLsbD_zero, Bool.false_or]
    change (_ && (topMask w (totalWidth w nb ks)).getLsbD p) = _
    rw [topMask_bit hw htot]
    rfl
  -- the final mask removes nothing
  have bit' : ∀ (z : BitVec w) p, ((permOf w nb ks).permute z).getLsbD p =
      ((pairsFrom w nb 0 ks).any fun pair => (contribution z pair).getLsbD p) := by
    intro z p
    rw [bit]
    cases hp : (pairsFrom w nb 0 ks).any fun pair => (contribution z pair).getLsbD p with
    | false => rfl
    | true =>
      have := contributions_range hn ks hlt z 0 (by omega) p hp
      rw [Bool.true_and, decide_eq_true_eq]
      omega
  refine ⟨?_, ?_⟩
  · have hmask : (∀ j < w, (permOf w nb ks).simpleMask.getLsbD j = true → x.getLsbD j = y.getLsbD j) ↔
        ∀ j < w, blockOf w nb j ∈ ks → x.getLsbD j = y.getLsbD j := by
      constructor
      · intro h j hj hb; exact h j hj (by rw [simpleMask_bit hlt (by omega)]; simpa using hb)
      · intro h j hj hb
        rw [simpleMask_bit hlt (by omega), decide_eq_true_eq] at hb
        exact h j hj hb
    rw [hmask]
    constructor
    · intro e j hj hb
      have := contributions_inj hn ks hlt x y 0 (by omega) (fun p => by rw [← bit', ← bit', e])
        (blockOf w nb j) hb j
      have h1 : 1 ≤ nb := by have := hlt _ hb; omega
      have hin := (in_block_iff (w := w) (nb := nb) (k := blockOf w nb j) (j := j) h1 (by omega)).mpr rfl
      exact this hin.1 hin.2
    · intro h
      apply BitVec.eq_of_getLsbD_eq
      intro p _
      rw [bit', bit']
      -- each block contributes the same
      have : ∀ k ∈ ks, x &&& blockMask w nb k = y &&& blockMask w nb k := by
        intro k hk
        apply BitVec.eq_of_getLsbD_eq
        intro j hj
        rw [BitVec.getLsbD_and, BitVec.getLsbD_and, blockMask_bit' (hlt k hk) (by omega)]
        by_cases hb : blockOf w nb j = k
        · rw [h j hj (hb ▸ hk)]
        · simp [hb]
      rw [Bool.eq_iff_iff, List.any_eq_true, List.any_eq_true]
      have same : ∀ pair ∈ pairsFrom w nb 0 ks, contribution x pair = contribution y pair := by
        intro pair hp
        obtain ⟨k, hk, e⟩ := List.mem_map.mp (List.of_mem_zip (show (pair.1, pair.2) ∈ _ from hp)).1
        unfold contribution
        rw [← e, this k hk]
      constructor
      · rintro ⟨pair, hp, hb⟩; exact ⟨pair, hp, by rw [← same pair hp]; exact hb⟩
      · rintro ⟨pair, hp, hb⟩; exact ⟨pair, hp, by rw [same pair hp]; exact hb⟩
  · intro p hp
    rw [bit, Bool.and_eq_true, decide_eq_true_eq] at hp
    exact hp.2.1

/-- The hypotheses are met by every distance up to the number of blocks. -/
example : ∃ tables, Permutation.create 64 64 6 3 = .ok tables ∧ tables.length = 20 := by
  obtain ⟨_, t, _, _, h, hl, _⟩ := C49_partition (w := 64) 6 3 (by decide) (by decide) (by decide) 64 (by decide)
  exact ⟨t, h, hl⟩

/-- C56: `width` is the number of bits that the mask keeps. -/
theorem C56_width (nb d : Nat) (hw : 1 ≤ w) (hn : nb ≤ w) (hd : d ≤ nb) (fuel : Nat) (hf : w ≤ fuel)
    (tables : List (Permutation w)) (hc : Permutation.create fuel w nb d = .ok tables) (t : Permutation w)
    (ht : t ∈ tables) : t.width = countOnes t.simpleMask := by
  rw [create_eq hn hd hf] at hc
  injection hc with hc
  subst hc
  obtain ⟨ks, hks, rfl⟩ := List.mem_map.mp ht
  have sk := ((mem_combinations _ _ _).mp hks).1
  have hlt : ∀ k ∈ ks, k < nb := fun k hk => List.mem_range.mp (sk.subset hk)
  have hnd := sk.nodup List.nodup_range
  change totalWidth w nb ks = _
  unfold countOnes
  have e : (List.range w).countP (fun j => (permOf w nb ks).simpleMask.getLsbD j) =
      (List.range w).countP fun j => decide (blockOf w nb j ∈ ks) := by
    apply List.countP_congr
    intro j _
    rw [simpleMask_bit hlt hw]
  rw [e]
  clear e hks ht sk
  induction ks with
  | nil => simp [totalWidth]
  | cons k ks ih =>
    have hk := hlt k (by simp)
    rw [List.nodup_cons] at hnd
    rw [totalWidth_cons, ih (fun k hk => hlt k (by simp [hk])) hnd.2]
    -- bits of block `k`
    have one : (List.range w).countP (fun j => decide (blockOf w nb j = k)) = st w nb (k + 1) - st w nb k := by
      have hle : st w nb (k + 1) ≤ w := st_le (by omega) (by omega)
      have e : (List.range w).countP (fun j => decide (blockOf w nb j = k)) =
          ((List.range w).filter fun j => decide (blockOf w nb j = k)).length := List.countP_eq_length_filter
      rw [e, ← List.toFinset_card_of_nodup (List.nodup_range.filter _)]
      have : ((List.range w).filter fun j => decide (blockOf w nb j = k)).toFinset =
          Finset.Ico (st w nb k) (st w nb (k + 1)) := by
        ext j
        rw [List.mem_toFinset, List.mem_filter, List.mem_range, decide_eq_true_eq, Finset.mem_Ico,
          in_block_iff (by omega) hw]
        constructor
        · exact fun h => h.2
        · intro h
          have := ((in_block_iff (w := w) (nb := nb) (by omega) hw).mpr h).2
          exact ⟨by omega, h⟩
      rw [this, Nat.card_Ico]
    rw [← one]
    generalize List.range w = l
    induction l with
    | nil => rfl
    | cons j l ihl =>
      rw [List.countP_cons, List.countP_cons, List.countP_cons]
      by_cases h1 : blockOf w nb j = k
      · have h2 : blockOf w nb j ∉ ks := by rw [h1]; exact hnd.1
        simp only [h1, decide_true, List.mem_cons, true_or, if_true] at *
        simp only [h2, decide_false, Bool.false_eq_true, if_false]
        omega
      · simp only [h1, decide_false, List.mem_cons, false_or, Bool.false_eq_true, if_false] at *
        omega

example : (Permutation.create 64 64 4 2).map (fun ts => ts.map fun t => (t.width, t.permute 0x0123456789ABCDEF#64)) =
    .ok [(32, 0xCDEF89AB00000000#64), (32, 0xCDEF456700000000#64), (32, 0xCDEF012300000000#64),
      (32, 0x89AB456700000000#64), (32, 0x89AB012300000000#64), (32, 0x4567012300000000#64)] := by decide +kernel

end Verif.Props
