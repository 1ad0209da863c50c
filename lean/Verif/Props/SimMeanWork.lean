import Verif.Props.SimWork
import Verif.Props.ExpectedAnswers

/-!
# Property C153: the mean work of a SimHash query

With blocks of equal width, the mean number of distances that a query computes is a sum of powers of the probability that a
bit agrees.
-/
set_option linter.unusedSectionVars false
namespace Verif.Props
open Verif.Spec

section coins
variable {ι : Type} [Fintype ι] [DecidableEq ι]

/-- The probability that given coins show tails. -/
theorem coins_tails (p : ℝ) (S : Finset ι) : coins p (fun f : ι → Bool => ∀ i ∈ S, f i = false) = (1 - p) ^ S.card := by
  classical
  have h := Finset.prod_univ_sum (fun i : ι => if i ∈ S then ({false} : Finset Bool) else Finset.univ)
    fun _ x => (if x then p else 1 - p)
  have e1 : ∏ i : ι, ∑ x ∈ (if i ∈ S then ({false} : Finset Bool) else Finset.univ), (if x then p else 1 - p) =
      (1 - p) ^ S.card := by
    rw [← Finset.prod_const, ← Finset.prod_filter_mul_prod_filter_not Finset.univ (· ∈ S)]
    have e2 : ∏ i ∈ Finset.univ.filter (fun i : ι => ¬ i ∈ S),
        ∑ x ∈ (if i ∈ S then ({false} : Finset Bool) else Finset.univ), (if x then p else 1 - p) = 1 := by
      refine Finset.prod_eq_one fun i hi => ?_
      rw [if_neg (Finset.mem_filter.mp hi).2, Fintype.sum_bool]
      simp
    rw [e2, mul_one, show Finset.univ.filter (· ∈ S) = S by ext i; simp]
    refine Finset.prod_congr rfl fun i hi => ?_
    rw [if_pos hi]
    simp
  rw [← e1, h]
  unfold coins
  have e3 : ∀ f : ι → Bool, (f ∈ Fintype.piFinset fun i : ι => if i ∈ S then ({false} : Finset Bool) else Finset.univ) ↔
      ∀ i ∈ S, f i = false := by
    intro f
    rw [Fintype.mem_piFinset]
    refine forall_congr' fun i => ?_
    by_cases hi : i ∈ S <;> simp [hi]
  rw [← Finset.univ_inter (Fintype.piFinset _), ← Finset.sum_ite_mem]
  refine Finset.sum_congr rfl fun f _ => ?_
  by_cases hf : ∀ i ∈ S, f i = false
  · rw [if_pos hf, if_pos ((e3 f).mpr hf)]
  · rw [if_neg hf, if_neg fun h' => hf ((e3 f).mp h')]

end coins

theorem mean_sum {Ω α : Type} [Fintype Ω] (l : List α) (f : α → Ω → ℝ) :
    meanValue (fun ω => (l.map fun a => f a ω).sum) = (l.map fun a => meanValue (f a)).sum := by
  induction l with
  | nil => simp [meanValue]
  | cons a l ih =>
    simp only [List.map_cons, List.sum_cons]
    rw [meanValue_add, ih]

/-- The bits of a choice of blocks of width `c`. -/
def blockBits (w c : Nat) (ks : List Nat) : Finset (Fin w) := Finset.univ.filter fun i => i.val / c ∈ ks

theorem blockBits_card {w nb c : Nat} (hc : nb * c = w) (hw : 0 < w) (ks : List Nat) (hn : ks.Nodup) (hk : ∀ k ∈ ks, k < nb) :
    (blockBits w c ks).card = c * ks.length := by
  have hc0 : 0 < c := Nat.pos_of_ne_zero fun h => by subst h; omega
  have : (blockBits w c ks).card = (ks.toFinset ×ˢ Finset.range c).card := by
    refine Finset.card_bij (fun i _ => (i.val / c, i.val % c)) ?_ ?_ ?_
    · intro i hi
      simp only [blockBits, Finset.mem_filter, Finset.mem_univ, true_and] at hi
      simp [hi, Nat.mod_lt _ hc0]
    · intro i _ j _ h
      rw [Prod.mk.injEq] at h
      apply Fin.ext
      rw [← Nat.div_add_mod i.val c, ← Nat.div_add_mod j.val c, h.1, h.2]
    · rintro ⟨k, r⟩ h
      simp only [Finset.mem_product, List.mem_toFinset, Finset.mem_range] at h
      have hlt : c * k + r < w := by
        have h1 : c * (k + 1) ≤ c * nb := Nat.mul_le_mul_left c (hk k h.1)
        rw [Nat.mul_comm c nb, hc, Nat.mul_add, Nat.mul_one] at h1
        omega
      have hd : (c * k + r) / c = k := by
        rw [Nat.mul_add_div hc0, Nat.div_eq_of_lt h.2, Nat.add_zero]
      have hm : (c * k + r) % c = r := by
        rw [Nat.mul_add_mod, Nat.mod_eq_of_lt h.2]
      refine ⟨⟨c * k + r, hlt⟩, ?_, ?_⟩
      · simp [blockBits, hd, h.1]
      · simp [hd, hm]
  rw [this, Finset.card_product, List.toFinset_card_of_nodup hn, Finset.card_range, Nat.mul_comm]

/-- Agreement on the blocks is agreement on their bits. -/
theorem blocks_agree {w nb c : Nat} (hc : nb * c = w) (hw : 0 < w) (ks : List Nat) (hk : ∀ k ∈ ks, k < nb) (x y : BitVec w) :
    (ks.all fun k => decide (∀ j < (k + 1) * w / nb, k * w / nb ≤ j → x.getLsbD j = y.getLsbD j)) = true ↔
      ∀ i ∈ blockBits w c ks, decide (y.getLsbD i ≠ x.getLsbD i) = false := by
  have hc0 : 0 < c := Nat.pos_of_ne_zero fun h => by subst h; omega
  have hn0 : 0 < nb := Nat.pos_of_ne_zero fun h => by subst h; omega
  have hst : ∀ k, k * w / nb = k * c := by
    intro k
    rw [← hc, Nat.mul_left_comm, Nat.mul_div_cancel_left _ hn0]
  simp only [List.all_eq_true, decide_eq_true_eq, hst, blockBits, Finset.mem_filter, Finset.mem_univ, true_and,
    decide_eq_false_iff_not, not_not]
  constructor
  · intro h i hi
    exact (h _ hi i.val (by rw [Nat.mul_comm]; exact Nat.lt_mul_div_succ _ hc0) (Nat.div_mul_le_self _ _)).symm
  · intro h k hk' j h1 h2
    have hj : j < w := by
      refine lt_of_lt_of_le h1 ?_
      rw [← hc]
      exact Nat.mul_le_mul_right c (hk k hk')
    have hd : j / c = k := by
      rw [Nat.div_eq_iff hc0]
      rw [Nat.add_mul, Nat.one_mul] at h1
      omega
    exact (h ⟨j, hj⟩ (by simpa [hd] using hk')).symm

section mean
variable {w : Nat} {Tok : Type} [Fintype Tok] [DecidableEq Tok] {Id : Type} [DecidableEq Id]

/-- The number of computed distances of a call; none if it panicked. -/
def distances {Id : Type} : Except Panic (HSet Id × Nat) → Nat
  | .ok p => p.2
  | .error _ => 0

/-- C153: with `num_blocks` blocks of `c` bits and a random hash function, a query computes in the mean, for each insert of
a document, `C(num_blocks, hamming_distance) * (1 - p)^(c * (num_blocks - hamming_distance))` distances, `p` the mean
distance of the document from the query divided by the width. -/
theorem C153_mean {fuel nb d c : Nat} {idx : SimIndex w Id} (hw : 2 ≤ w)
    (hidx : SimIndex.new fuel w Id nb d = .ok idx) (hc : nb * c = w) (docs : List (Id × List Tok)) (B : List Tok)
    (ops : (Tok → BitVec w) → List (SimOp w Id))
    (hops : ∀ h, assigned (ops h) = docs.map fun p => (p.1, simSignature w (p.2.map h))) :
    meanValue (fun h : Tok → BitVec w =>
      (distances ((idx.run (ops h)).queryCounted (simSignature w (B.map h))) : ℝ)) =
    (docs.map fun p => (nb.choose d : ℝ) * (1 - meanDistance w p.2 B / w) ^ (c * (nb - d))).sum := by
  classical
  have R := reach_run hidx []
  have hw0 : 0 < w := by omega
  have e1 : ∀ h : Tok → BitVec w, (distances ((idx.run (ops h)).queryCounted (simSignature w (B.map h))) : ℝ) =
      (docs.map fun p => (((combinations (nb - d) (List.range nb)).filter fun ks => decide
        (∀ i ∈ blockBits w c ks, decide ((simSignature w (p.2.map h)).getLsbD i ≠
          (simSignature w (B.map h)).getLsbD i) = false)).length : ℝ)).sum := by
    intro h
    obtain ⟨s, _, hq⟩ := C152_count hidx (ops h) (simSignature w (B.map h))
    rw [hq, hops, List.map_map]
    show ((List.sum _ : ℕ) : ℝ) = _
    rw [Nat.cast_list_sum, List.map_map]
    congr 1
    refine List.map_congr_left fun p _ => ?_
    simp only [Function.comp_def]
    unfold agreeingBlocks
    rw [← combinations_length, ← combinations_filter]
    congr 2
    refine List.filter_congr fun ks hks => ?_
    have hlt : ∀ k ∈ ks, k < nb := fun k hk =>
      List.mem_range.mp (((mem_combinations _ _ _).mp hks).1.subset hk)
    rw [Bool.eq_iff_iff, decide_eq_true_eq]
    exact blocks_agree hc hw0 ks hlt _ _
  simp only [e1]
  rw [mean_sum]
  congr 1
  refine List.map_congr_left fun p _ => ?_
  have hm := mean_count (combinations (nb - d) (List.range nb)) fun ks (h : Tok → BitVec w) =>
    ∀ i ∈ blockBits w c ks, decide ((simSignature w (p.2.map h)).getLsbD i ≠
      (simSignature w (B.map h)).getLsbD i) = false
  refine Eq.trans ?_ (hm.trans ?_)
  · congr!
  have e2 : ∀ ks ∈ combinations (nb - d) (List.range nb), proportion (fun h : Tok → BitVec w =>
      ∀ i ∈ blockBits w c ks, decide ((simSignature w (p.2.map h)).getLsbD i ≠
        (simSignature w (B.map h)).getLsbD i) = false) = (1 - meanDistance w p.2 B / w) ^ (c * (nb - d)) := by
    intro ks hks
    obtain ⟨hs, hl⟩ := (mem_combinations _ _ _).mp hks
    rw [C145_independent hw p.2 B fun f => ∀ i ∈ blockBits w c ks, f i = false, coins_tails,
      blockBits_card hc hw0 ks (hs.nodup List.nodup_range) (fun k hk => List.mem_range.mp (hs.subset hk)), hl]
  rw [List.map_congr_left e2, List.map_const', List.sum_replicate, combinations_length, List.length_range,
    nsmul_eq_mul, Nat.choose_symm R.d_le]

end mean

/-- 64 bits in 4 blocks of 16, distance 3, a document of one word and a query of another: a query computes in the
mean 4 / 65536 distances. -/
example : ∃ idx : SimIndex 64 Nat, SimIndex.new 64 64 Nat 4 3 = .ok idx ∧
    meanValue (fun h : Fin 4 → BitVec 64 => (distances ((idx.run
      [.insert 0 (simSignature 64 (([0] : List (Fin 4)).map h))]).queryCounted
        (simSignature 64 (([1] : List (Fin 4)).map h))) : ℝ)) =
      4 / 65536 := by
  obtain ⟨idx, hidx⟩ := C51_new_returns (w := 64) (Id := Nat) 4 3 64 (by omega) (by omega) (by omega)
  refine ⟨idx, hidx, (C153_mean (c := 16) (by omega) hidx (by norm_num) [(0, [0])] [1] _ fun h => rfl).trans ?_⟩
  have hm : meanDistance 64 ([0] : List (Fin 4)) [1] = 64 * (1 / 2) := by
    rw [C145_mean (by omega) (by decide) (by decide) 0 1 1 (by decide) (by decide) (by decide)]
    rw [show (∑ i ∈ Finset.range (0 + 1), ∑ j ∈ Finset.range (1 + 1), ∑ k ∈ Finset.range (1 + 1), Nat.choose 0 i *
      (Nat.choose 1 j * (Nat.choose 1 k * if (2 * (i + j) < 0 + 1 ↔ 2 * (i + k) < 0 + 1) then 0 else 1))) = 2 by decide +kernel]
    norm_num
  simp only [List.map_cons, List.map_nil, List.sum_cons, List.sum_nil, hm, show Nat.choose 4 3 = 4 from rfl]
  norm_num

end Verif.Props
