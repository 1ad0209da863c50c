import Verif.Props.SimStability
import Verif.Props.Hoeffding

/-!
# Property C117: SimHash distances concentrate around their mean

With a uniformly random hash function the bit positions of two SimHash signatures are independent, so the distance of
the signatures has a binomial distribution.
-/
namespace Verif.Props
open Verif.Spec

section columns
variable {w : Nat} {Tok : Type} [Fintype Tok] [DecidableEq Tok]

/-- A hash function is given by the sets of tokens that have bit 0, bit 1, ... set. -/
theorem columns_bijective : Function.Bijective fun (h : Tok → BitVec w) (i : Fin w) => bitSet i.val h := by
  rw [Fintype.bijective_iff_injective_and_card]
  constructor
  · intro h h' e
    funext t
    apply BitVec.eq_of_getLsbD_eq
    intro i hi
    have e1 : bitSet i h = bitSet i h' := congrFun e ⟨i, hi⟩
    have e2 : t ∈ bitSet i h ↔ t ∈ bitSet i h' := by rw [e1]
    rw [mem_bitSet, mem_bitSet] at e2
    exact Bool.eq_iff_iff.mpr e2
  · have hB : Fintype.card (BitVec w) = 2 ^ w := by
      rw [Fintype.card_congr BitVec.equivFin.toEquiv, Fintype.card_fin]
    rw [Fintype.card_fun, Fintype.card_fun, hB, Fintype.card_finset, Fintype.card_fin, ← pow_mul, ← pow_mul,
      mul_comm]

theorem proportion_bijective {Ω Ω' : Type} [Fintype Ω] [Fintype Ω'] {f : Ω → Ω'} (hf : Function.Bijective f)
    (P : Ω' → Prop) : proportion (fun x => P (f x)) = proportion P := by
  classical
  rw [proportion_eq, proportion_eq, Fintype.card_of_bijective hf]
  congr 2
  refine Finset.card_bij (fun x _ => f x) ?_ ?_ ?_
  · intro x hx; simpa using hx
  · intro x _ y _ e; exact hf.1 e
  · intro y hy
    obtain ⟨x, rfl⟩ := hf.2 y
    exact ⟨x, by simpa using hy, rfl⟩

/-- The signatures of `A` and `B` differ in a bit that is set in the hashes of the tokens `G`. -/
def DiffersAt (A B : List Tok) (G : Finset Tok) : Prop := ¬ (setBit G A ↔ setBit G B)

omit [Fintype Tok] in
instance (A B : List Tok) (G : Finset Tok) : Decidable (DiffersAt A B G) := inferInstanceAs (Decidable (¬ _))

theorem distance_columns (hw : 2 ≤ w) (A B : List Tok) (h : Tok → BitVec w) :
    hammingDistance (simSignature w (A.map h)) (simSignature w (B.map h)) =
      (Finset.univ.filter fun i : Fin w => DiffersAt A B (bitSet i.val h)).card := by
  rw [hamming_card]
  congr 1
  unfold diffBits
  ext i
  rw [Finset.mem_filter, Finset.mem_filter, signature_setBit hw i.isLt, signature_setBit hw i.isLt, Ne,
    decide_eq_decide]
  exact Iff.rfl

/-- The probability of an event about the distance, by columns. -/
theorem proportion_distance (hw : 2 ≤ w) (A B : List Tok) (Q : Nat → Prop) :
    proportion (fun h : Tok → BitVec w => Q (hammingDistance (simSignature w (A.map h)) (simSignature w (B.map h)))) =
      proportion fun π : Fin w → Finset Tok => Q (Finset.univ.filter fun i => DiffersAt A B (π i)).card := by
  rw [← proportion_bijective columns_bijective]
  simp only [distance_columns hw]

/-- The mean distance is the width times the probability that a bit differs. -/
theorem mean_columns (hw : 2 ≤ w) (A B : List Tok) :
    meanValue (fun h : Tok → BitVec w => (hammingDistance (simSignature w (A.map h)) (simSignature w (B.map h)) : ℝ)) =
      w * proportion (DiffersAt A B) := by
  rw [meanValue_distance hw]
  have : ∀ i : Fin w, proportion (fun h : Tok → BitVec w => ¬ (setBit (bitSet i h) A ↔ setBit (bitSet i h) B)) =
      proportion (DiffersAt A B) := by
    intro i
    have h := proportion_bit (Tok := Tok) i.isLt (DiffersAt A B)
    refine h.trans ?_
    rw [proportion_eq (DiffersAt A B), Fintype.card_finset, Nat.cast_pow, Nat.cast_ofNat]
  rw [Finset.sum_congr rfl fun i _ => this i, Finset.sum_const, Finset.card_univ, Fintype.card_fin, nsmul_eq_mul]

end columns

section distance
variable {w : Nat} {Tok : Type} [Fintype Tok] [DecidableEq Tok]

/-- The mean distance of the signatures of two documents over all hash functions. -/
noncomputable def meanDistance (w : Nat) (A B : List Tok) : ℝ :=
  meanValue fun h : Tok → BitVec w => (hammingDistance (simSignature w (A.map h)) (simSignature w (B.map h)) : ℝ)

/-- C117: the distance has a binomial distribution: `w` independent bits. -/
theorem C117_binomial (hw : 2 ≤ w) (A B : List Tok) (p : ℝ) (hp : meanDistance w A B = w * p) (k : Nat) (hk : k ≤ w) :
    proportion (fun h : Tok → BitVec w =>
        hammingDistance (simSignature w (A.map h)) (simSignature w (B.map h)) = k) =
      w.choose k * p ^ k * (1 - p) ^ (w - k) := by
  classical
  have hw' : (w : ℝ) ≠ 0 := by
    have : w ≠ 0 := by omega
    exact_mod_cast this
  unfold meanDistance at hp
  rw [mean_columns hw] at hp
  have hp := mul_left_cancel₀ hw' hp
  rw [proportion_distance hw A B (fun n => n = k), ← hp, ← proportion_count w k hk (DiffersAt A B) Fintype.card_pos]
  congr! 6

/-- C117: the distance exceeds its mean by `t` or more with probability at most `exp(-2 t² / w)`. -/
theorem C117_above (hw : 2 ≤ w) (A B : List Tok) {t : ℝ} (ht : 0 < t) :
    proportion (fun h : Tok → BitVec w =>
        meanDistance w A B + t ≤ hammingDistance (simSignature w (A.map h)) (simSignature w (B.map h))) ≤
      Real.exp (-(2 * t ^ 2 / w)) := by
  classical
  have hw' : (0 : ℝ) < w := by
    have : 0 < w := by omega
    exact_mod_cast this
  rw [proportion_distance hw A B (fun n => meanDistance w A B + t ≤ n)]
  refine le_trans (le_of_eq ?_) ((proportion_chernoff w (DiffersAt A B) Fintype.card_pos
    (fun n => meanDistance w A B + t ≤ n) (4 * t / w) (4 * t / w * t) ?_).trans (le_of_eq ?_))
  · congr! 6
  · intro k _ hk
    unfold meanDistance at hk
    rw [mean_columns hw] at hk
    gcongr
    linarith
  · congr 1
    field_simp
    ring

/-- C117: the distance falls below its mean by `t` or more with probability at most `exp(-2 t² / w)`. -/
theorem C117_below (hw : 2 ≤ w) (A B : List Tok) {t : ℝ} (ht : 0 < t) :
    proportion (fun h : Tok → BitVec w =>
        (hammingDistance (simSignature w (A.map h)) (simSignature w (B.map h)) : ℝ) ≤ meanDistance w A B - t) ≤
      Real.exp (-(2 * t ^ 2 / w)) := by
  classical
  have hw' : (0 : ℝ) < w := by
    have : 0 < w := by omega
    exact_mod_cast this
  rw [proportion_distance hw A B (fun n => (n : ℝ) ≤ meanDistance w A B - t)]
  refine le_trans (le_of_eq ?_) ((proportion_chernoff w (DiffersAt A B) Fintype.card_pos
    (fun n => (n : ℝ) ≤ meanDistance w A B - t) (-(4 * t / w)) (4 * t / w * t) ?_).trans (le_of_eq ?_))
  · congr! 6
  · intro k _ hk
    unfold meanDistance at hk
    rw [mean_columns hw] at hk
    have : -(4 * t / w) * ((k : ℝ) - w * proportion (DiffersAt A B)) =
        4 * t / w * (w * proportion (DiffersAt A B) - k) := by ring
    rw [this]
    gcongr
    linarith
  · congr 1
    field_simp
    ring

/-- C117: two documents that share the tokens `c` and have `x` and `y` besides are at a distance of
`w (|x| + |y|) C(m, m/2) / 2^(m+1) + t` or more with probability at most `exp(-2 t² / w)`. -/
theorem C117_similar (hw : 2 ≤ w) (A B c x y : List Tok) (hA : A.Perm (c ++ x)) (hB : B.Perm (c ++ y)) (m : Nat)
    (hm : m = (c.toFinset \ (x ++ y).toFinset).card) {t : ℝ} (ht : 0 < t) :
    proportion (fun h : Tok → BitVec w =>
        w * (x.length + y.length) * (m.choose (m / 2) / 2 ^ (m + 1)) + t ≤
          (hammingDistance (simSignature w (A.map h)) (simSignature w (B.map h)) : ℝ)) ≤
      Real.exp (-(2 * t ^ 2 / w)) := by
  refine le_trans (proportion_mono ?_) (C117_above hw A B ht)
  intro h hh
  have := C107_expected hw A B c x y hA hB m hm
  unfold meanDistance
  linarith

omit [Fintype Tok] in
/-- Flipping the bit of the tokens of `A` inverts the bit of its signature. -/
theorem setBit_flip (A B : List Tok) (hodd : A.length % 2 = 1) (hAB : ∀ t ∈ A, t ∉ B) (G : Finset Tok) :
    DiffersAt A B (symmDiff G A.toFinset) ↔ ¬ DiffersAt A B G := by
  have h1 : votes (symmDiff G A.toFinset) A + votes G A = A.length := by
    unfold votes
    rw [List.length_eq_countP_add_countP (fun t => decide (t ∈ G)) (l := A), add_comm]
    congr 1
    apply List.countP_congr
    intro t ht
    simp [Finset.mem_symmDiff, ht]
  have h2 : votes (symmDiff G A.toFinset) B = votes G B := by
    unfold votes
    apply List.countP_congr
    intro t ht
    have : t ∉ A := fun h => hAB t h ht
    simp [Finset.mem_symmDiff, this]
  unfold DiffersAt setBit
  rw [h2]
  omega

/-- C117: documents without common tokens, one of them with an odd number of tokens, are at a mean distance of half the
width. -/
theorem C117_unrelated_mean (hw : 2 ≤ w) (A B : List Tok) (hodd : A.length % 2 = 1) (hAB : ∀ t ∈ A, t ∉ B) :
    meanDistance w A B = w / 2 := by
  classical
  unfold meanDistance
  rw [mean_columns hw]
  have hb : Function.Bijective fun G : Finset Tok => symmDiff G A.toFinset := by
    refine Function.Involutive.bijective fun G => ?_
    simp [symmDiff_assoc]
  have h1 := proportion_bijective hb (DiffersAt A B)
  simp only [setBit_flip A B hodd hAB] at h1
  have h2 : proportion (fun G => ¬ DiffersAt A B G) + proportion (DiffersAt A B) = 1 := by
    rw [proportion_eq, proportion_eq, ← add_div, ← Nat.cast_add, add_comm, Finset.card_filter_add_card_filter_not,
      Finset.card_univ, div_self]
    exact_mod_cast Fintype.card_ne_zero
  have : proportion (DiffersAt A B) = 1 / 2 := by linarith
  rw [this]
  ring

/-- C117: such documents are closer than `d` with probability at most `exp(-2 (w/2 - d + 1)² / w)`. -/
theorem C117_unrelated (hw : 2 ≤ w) (A B : List Tok) (hodd : A.length % 2 = 1) (hAB : ∀ t ∈ A, t ∉ B) (d : Nat)
    (hd : 2 * d ≤ w) :
    proportion (fun h : Tok → BitVec w =>
        hammingDistance (simSignature w (A.map h)) (simSignature w (B.map h)) < d) ≤
      Real.exp (-(2 * ((w : ℝ) / 2 - d + 1) ^ 2 / w)) := by
  have hd' : (2 * d : ℝ) ≤ w := by exact_mod_cast hd
  refine le_trans (proportion_mono ?_) (C117_below hw A B (t := (w : ℝ) / 2 - d + 1) (by linarith))
  intro h hh
  rw [C117_unrelated_mean hw A B hodd hAB]
  have : (hammingDistance (simSignature w (A.map h)) (simSignature w (B.map h)) : ℝ) + 1 ≤ d := by exact_mod_cast hh
  linarith

/-- Two words and one word, signatures of eight bits: the distance is four with probability `C(8,4) / 2^8`. -/
example : proportion (fun h : Fin 5 → BitVec 8 =>
      hammingDistance (simSignature 8 (([3] : List (Fin 5)).map h)) (simSignature 8 (([0, 1] : List (Fin 5)).map h)) = 4) =
    70 / 256 := by
  have h := C117_binomial (w := 8) (by omega) ([3] : List (Fin 5)) [0, 1] (1 / 2)
    ((C117_unrelated_mean (by omega) _ _ (by decide) (by decide)).trans (by ring)) 4 (by omega)
  refine h.trans ?_
  rw [show Nat.choose 8 4 = 70 by decide +kernel]
  norm_num

/-- Signatures of 64 bits and documents without common words, one of them with three words: a distance below ten has
a probability of less than one in ten million. -/
example : proportion (fun h : Fin 50 → BitVec 64 =>
      hammingDistance (simSignature 64 (([3, 7, 30] : List (Fin 50)).map h))
        (simSignature 64 (([0, 1, 1, 2] : List (Fin 50)).map h)) < 10) < 1 / 7000000 := by
  refine (C117_unrelated (w := 64) (by omega) ([3, 7, 30] : List (Fin 50)) [0, 1, 1, 2] (by decide) (by decide) 10
    (by omega)).trans_lt ?_
  have h1 : Real.exp (-(2 * (((64 : ℕ) : ℝ) / 2 - (10 : ℕ) + 1) ^ 2 / (64 : ℕ))) ≤ Real.exp (-16) := by
    apply Real.exp_le_exp.mpr
    norm_num
  refine h1.trans_lt ?_
  have h2 : (2.7 : ℝ) < Real.exp 1 := lt_trans (by norm_num) Real.exp_one_gt_d9
  have h3 : Real.exp (-16) = (Real.exp 1 ^ 16)⁻¹ := by
    rw [← Real.exp_nat_mul, ← Real.exp_neg]
    norm_num
  rw [h3, inv_lt_comm₀ (by positivity) (by norm_num)]
  calc (1 / 7000000 : ℝ)⁻¹ < 2.7 ^ 16 := by norm_num
    _ ≤ _ := by gcongr

end distance

section index
variable {w : Nat} {Tok : Type} [Fintype Tok] [DecidableEq Tok] {Id : Type} [DecidableEq Id]

omit [Fintype Tok] [DecidableEq Tok] in
theorem found_iff {fuel nb d : Nat} {idx : SimIndex w Id} (hidx : SimIndex.new fuel w Id nb d = .ok idx)
    (A B : List Tok) (id : Id) (ops : List (SimOp w Id)) (h : Tok → BitVec w)
    (hlast : lastSig (assigned ops) id = some (simSignature w (A.map h))) :
    (∃ s, (idx.run ops).query (simSignature w (B.map h)) = .ok s ∧ id ∈ s.elems) ↔
      hammingDistance (simSignature w (A.map h)) (simSignature w (B.map h)) < d := by
  obtain ⟨s, e, _, hs⟩ := C51_query_exact hidx ops (simSignature w (B.map h))
  rw [(C46_metric _ _ 0#w).1, hamming_card]
  constructor
  · rintro ⟨s', e', hid⟩
    rw [e] at e'
    cases e'
    obtain ⟨sig, h3, h4⟩ := (hs id).mp hid
    rw [hlast] at h3
    cases h3
    exact h4
  · intro hlt
    exact ⟨s, e, (hs id).mpr ⟨_, hlast, hlt⟩⟩

/-- C117: a query with a similar document misses the stored one with probability at most `exp(-2 t² / w)`, if the
maximum distance exceeds the bound on the mean distance by `t`. -/
theorem C117_recall {fuel nb d : Nat} {idx : SimIndex w Id} (hw : 2 ≤ w)
    (hidx : SimIndex.new fuel w Id nb d = .ok idx) (A B c x y : List Tok) (hA : A.Perm (c ++ x))
    (hB : B.Perm (c ++ y)) (m : Nat) (hm : m = (c.toFinset \ (x ++ y).toFinset).card) {t : ℝ} (ht : 0 < t)
    (hd : w * (x.length + y.length) * (m.choose (m / 2) / 2 ^ (m + 1)) + t ≤ (d : ℝ)) (id : Id)
    (ops : (Tok → BitVec w) → List (SimOp w Id))
    (hlast : ∀ h, lastSig (assigned (ops h)) id = some (simSignature w (A.map h))) :
    proportion (fun h : Tok → BitVec w =>
        ¬ ∃ s, (idx.run (ops h)).query (simSignature w (B.map h)) = .ok s ∧ id ∈ s.elems) ≤
      Real.exp (-(2 * t ^ 2 / w)) := by
  refine le_trans (proportion_mono ?_) (C117_similar hw A B c x y hA hB m hm ht)
  intro h hh
  rw [found_iff hidx A B id (ops h) h (hlast h), not_lt] at hh
  have : (d : ℝ) ≤ hammingDistance (simSignature w (A.map h)) (simSignature w (B.map h)) := by exact_mod_cast hh
  linarith

/-- C117: a query with a document of an odd number of tokens returns one of the stored documents it has no token in
common with, with probability at most their number times `exp(-2 (w/2 - d + 1)² / w)`. -/
theorem C117_false_positives {fuel nb d : Nat} {idx : SimIndex w Id} (hw : 2 ≤ w) (hd : 2 * d ≤ w)
    (hidx : SimIndex.new fuel w Id nb d = .ok idx) (B : List Tok) (hodd : B.length % 2 = 1)
    (docs : List (Id × List Tok)) (hdocs : ∀ x ∈ docs, ∀ t ∈ B, t ∉ x.2)
    (ops : (Tok → BitVec w) → List (SimOp w Id))
    (hlast : ∀ h, ∀ x ∈ docs, lastSig (assigned (ops h)) x.1 = some (simSignature w (x.2.map h))) :
    proportion (fun h : Tok → BitVec w =>
        ∃ x ∈ docs, ∃ s, (idx.run (ops h)).query (simSignature w (B.map h)) = .ok s ∧ x.1 ∈ s.elems) ≤
      docs.length * Real.exp (-(2 * ((w : ℝ) / 2 - d + 1) ^ 2 / w)) := by
  refine le_trans (proportion_mono ?_) (proportion_exists_le docs
    (fun x h => hammingDistance (simSignature w (B.map h)) (simSignature w (x.2.map h)) < d) _ ?_)
  · rintro h ⟨x, hx, hs⟩
    refine ⟨x, hx, ?_⟩
    rw [(C46_metric _ _ 0#w).1]
    exact (found_iff hidx x.2 B x.1 (ops h) h (hlast h x hx)).mp hs
  · intro x hx
    exact C117_unrelated hw B x.2 hodd (hdocs x hx) d hd

/-- Sixteen words stored, one more queried, signatures of 64 bits, maximum distance twenty: the document is missed for
less than one percent of the hash functions. -/
example : ∃ idx : SimIndex 64 Nat, SimIndex.new 64 64 Nat 22 20 = .ok idx ∧
    proportion (fun h : Fin 100 → BitVec 64 =>
      ¬ ∃ s, (idx.run [.insert 5 (simSignature 64 (([0, 1, 2, 3, 4, 5, 6, 7, 8, 9, 10, 11, 12, 13, 14, 15] : List (Fin 100)).map h))]).query
        (simSignature 64 (([0, 1, 2, 3, 4, 5, 6, 7, 8, 9, 10, 11, 12, 13, 14, 15, 60] : List (Fin 100)).map h)) = .ok s ∧
          5 ∈ s.elems) < 0.01 := by
  obtain ⟨idx, hidx⟩ := C51_new_returns (w := 64) (Id := Nat) 22 20 64 (by omega) (by omega) (by omega)
  refine ⟨idx, hidx, ?_⟩
  have h := C117_recall (by omega) hidx
    ([0, 1, 2, 3, 4, 5, 6, 7, 8, 9, 10, 11, 12, 13, 14, 15] : List (Fin 100))
    [0, 1, 2, 3, 4, 5, 6, 7, 8, 9, 10, 11, 12, 13, 14, 15, 60]
    [0, 1, 2, 3, 4, 5, 6, 7, 8, 9, 10, 11, 12, 13, 14, 15] [] [60] (by decide) (by decide) 16 (by decide +kernel)
    (t := 13) (by norm_num) (by rw [show Nat.choose 16 (16 / 2) = 12870 by decide +kernel]; norm_num) 5
    (fun h => [.insert 5 (simSignature 64 (([0, 1, 2, 3, 4, 5, 6, 7, 8, 9, 10, 11, 12, 13, 14, 15] : List (Fin 100)).map h))])
    (fun _ => by simp only [assigned, lastSig, List.reverse_singleton, List.find?_cons, decide_true, Option.map_some])
  refine h.trans_lt ?_
  have h1 : Real.exp (-(2 * (13 : ℝ) ^ 2 / (64 : ℕ))) ≤ Real.exp (-5) := by
    apply Real.exp_le_exp.mpr
    norm_num
  refine h1.trans_lt ?_
  have h2 : (2.7 : ℝ) < Real.exp 1 := lt_trans (by norm_num) Real.exp_one_gt_d9
  have h3 : Real.exp (-5) = (Real.exp 1 ^ 5)⁻¹ := by
    rw [← Real.exp_nat_mul, ← Real.exp_neg]
    norm_num
  rw [h3, inv_lt_comm₀ (by positivity) (by norm_num)]
  calc (0.01 : ℝ)⁻¹ < 2.7 ^ 5 := by norm_num
    _ ≤ _ := by gcongr

/-- Two stored documents without words of the queried one. -/
example (idx : SimIndex 64 Nat) (hidx : SimIndex.new 64 64 Nat 12 10 = .ok idx) :
    proportion (fun h : Fin 100 → BitVec 64 => ∃ x ∈ ([(5, [10, 11]), (6, [12, 13, 14])] : List (Nat × List (Fin 100))),
      ∃ s, (idx.run [.insert 5 (simSignature 64 (([10, 11] : List (Fin 100)).map h)),
          .insert 6 (simSignature 64 (([12, 13, 14] : List (Fin 100)).map h))]).query
        (simSignature 64 (([0, 1, 2, 3, 4] : List (Fin 100)).map h)) = .ok s ∧ x.1 ∈ s.elems) ≤
      2 * Real.exp (-(2 * (((64 : ℕ) : ℝ) / 2 - (10 : ℕ) + 1) ^ 2 / (64 : ℕ))) := by
  have h := C117_false_positives (by omega) (by omega) hidx ([0, 1, 2, 3, 4] : List (Fin 100)) (by decide)
    [(5, [10, 11]), (6, [12, 13, 14])] (by decide)
    (fun h => [.insert 5 (simSignature 64 (([10, 11] : List (Fin 100)).map h)),
      .insert 6 (simSignature 64 (([12, 13, 14] : List (Fin 100)).map h))]) (by
      intro h x hx
      rcases List.mem_cons.mp hx with rfl | hx
      · simp [assigned, lastSig]
      · cases List.mem_singleton.mp hx
        simp [assigned, lastSig])
  refine h.trans (le_of_eq ?_)
  congr 1

end index

end Verif.Props
