import Verif.Lemmas.SimIdeal
import Verif.Props.SimHash
import Verif.Props.SimHashIndex
import Verif.Props.BandProbability

/-! # Properties C106, C107: SimHash signatures of similar documents -/
namespace Verif.Props
open Verif Verif.Spec
variable {w : Nat}

/-! ### C106 -/

theorem ones_append (l m : List (BitVec w)) (i : Nat) : ones (l ++ m) i = ones l i + ones m i := by
  unfold ones; rw [List.countP_append]

theorem zeros_append (l m : List (BitVec w)) (i : Nat) : zeros (l ++ m) i = zeros l i + zeros m i := by
  unfold zeros; rw [List.countP_append]

/-- C106: two documents that share the tokens `c` and have `d` other tokens in total have signatures that differ at
most in the bits where the votes of one of them are closer than `d`. -/
theorem C106_bits {T : Type} (hw : 2 ≤ w) (hash : T → BitVec w) (A B c x y : List T) (hA : A.Perm (c ++ x))
    (hB : B.Perm (c ++ y)) :
    diffBits (simSignature w (A.map hash)) (simSignature w (B.map hash)) ⊆
      closeBits (A.map hash) (x.length + y.length) := by
  intro i hi
  unfold diffBits at hi
  rw [Finset.mem_filter, C47_order hw w (Nat.le_refl _) hash A _ hA, C47_order hw w (Nat.le_refl _) hash B _ hB,
    simSignature_bit hw w (Nat.le_refl _), simSignature_bit hw w (Nat.le_refl _)] at hi
  unfold closeBits
  have e1 : ones (A.map hash) i = ones ((c ++ x).map hash) i := (hA.map hash).countP_eq _
  have e2 : zeros (A.map hash) i = zeros ((c ++ x).map hash) i := (hA.map hash).countP_eq _
  rw [Finset.mem_filter, e1, e2]
  refine ⟨Finset.mem_univ _, ?_⟩
  have hi := hi.2
  have hx := ones_add_zeros (x.map hash) i
  have hy := ones_add_zeros (y.map hash) i
  rw [List.length_map] at hx hy
  simp only [List.map_append, ones_append, zeros_append] at hi ⊢
  rw [Ne, decide_eq_decide] at hi
  have hiw := i.isLt
  simp only [hiw, true_and] at hi
  constructor <;> by_contra hc <;> apply hi <;> constructor <;> intro h <;> omega

/-- C106: so their distance is at most the number of these bits. -/
theorem C106_distance {T : Type} (hw : 2 ≤ w) (hash : T → BitVec w) (A B c x y : List T) (hA : A.Perm (c ++ x))
    (hB : B.Perm (c ++ y)) :
    hammingDistance (simSignature w (A.map hash)) (simSignature w (B.map hash)) ≤
      (closeBits (A.map hash) (x.length + y.length)).card := by
  rw [hamming_card]
  exact Finset.card_le_card (C106_bits hw hash A B c x y hA hB)

/-- Two documents that share three tokens and have one token of their own each. Two positions are close, and the
signatures differ in one of these. -/
example : let hash := fun t : Nat => BitVec.ofNat 8 ([0b00010111, 0b00110111, 0b01110011, 0b10110101, 0b01010111].getD t 0)
    (closeBits ([3, 0, 1, 2].map hash) 2).card = 2 ∧
    hammingDistance (simSignature 8 ([3, 0, 1, 2].map hash)) (simSignature 8 ([0, 4, 1, 2].map hash)) = 1 := by decide +kernel

example : [3, 0, 1, 2].Perm ([0, 1, 2] ++ [3]) ∧ [0, 4, 1, 2].Perm ([0, 1, 2] ++ [4]) := by decide

/-- C106 is tight: `d` more tokens can change all the close bits at once. -/
theorem C106_tight (hw : 2 ≤ w) (l : List (BitVec w)) (d : Nat) :
    ∃ y : List (BitVec w), y.length = d ∧
      hammingDistance (simSignature w l) (simSignature w (l ++ y)) = (closeBits l d).card := by
  obtain ⟨v, hv⟩ := exists_bits (w := w) fun j => decide (ones l j < zeros l j)
  refine ⟨List.replicate d v, List.length_replicate, ?_⟩
  rw [hamming_card]
  congr 1
  ext i
  unfold diffBits closeBits
  rw [Finset.mem_filter, Finset.mem_filter, simSignature_bit hw w (Nat.le_refl _),
    simSignature_bit hw w (Nat.le_refl _), ones_append, zeros_append]
  have e1 : ones (List.replicate d v) i = if ones l i < zeros l i then d else 0 := by
    unfold ones
    rw [List.countP_replicate, hv i i.isLt]
    simp [ones]
  have e2 : zeros (List.replicate d v) i = if ones l i < zeros l i then 0 else d := by
    rw [zeros, List.countP_replicate, hv i i.isLt]
    by_cases h : ones l i < zeros l i
    · simp only [h, decide_true, Bool.not_true, if_true, Bool.false_eq_true, if_false]
    · simp only [h, decide_false, Bool.not_false, if_true, if_false]
  rw [e1, e2, Ne, decide_eq_decide]
  have hiw := i.isLt
  simp only [hiw, true_and, Finset.mem_univ]
  split_ifs with h <;> constructor <;> intro hh
  · omega
  · intro h2; omega
  · omega
  · intro h2; omega

/-- Four hashes of eight bits: positions 6 and 7 are within two votes, and two more hashes change both. -/
example : let l := [0b10110101#8, 0b00010111#8, 0b00110111#8, 0b01110011#8]
    closeBits l 2 = {6, 7} ∧
      hammingDistance (simSignature 8 l) (simSignature 8 (l ++ [0b11000000#8, 0b11000000#8])) = 2 := by decide +kernel

/-- C106: a stored document is found by the other one when these bits are fewer than the configured distance, after
every history. -/
theorem C106_found {T Id : Type} [DecidableEq Id] {fuel nb d : Nat} {idx : SimIndex w Id} (hw : 2 ≤ w)
    (h : SimIndex.new fuel w Id nb d = .ok idx) (ops : List (SimOp w Id)) (hash : T → BitVec w) (A B c x y : List T)
    (hA : A.Perm (c ++ x)) (hB : B.Perm (c ++ y)) (id : Id)
    (hlast : lastSig (assigned ops) id = some (simSignature w (A.map hash)))
    (hclose : (closeBits (A.map hash) (x.length + y.length)).card < d) :
    ∃ s, (idx.run ops).query (simSignature w (B.map hash)) = .ok s ∧ id ∈ s.elems := by
  obtain ⟨s, e, _, m⟩ := C51_query_exact h ops (simSignature w (B.map hash))
  refine ⟨s, e, (m id).mpr ⟨_, hlast, ?_⟩⟩
  have h1 := C106_distance hw hash A B c x y hA hB
  rw [← hamming_card, (C46_metric _ _ 0#w).1]
  omega

/-- An index of eight bits with maximum distance three: the document `[3, 0, 1, 2]` is stored, and `[0, 4, 1, 2]`
meets the hypotheses of `C106_found`. -/
example : let hash := fun t : Nat => BitVec.ofNat 8 ([0b00010111, 0b00110111, 0b01110011, 0b10110101, 0b01010111].getD t 0)
    let ops : List (SimOp 8 Nat) := [.insert 7 (simSignature 8 ([4].map hash)), .insert 5 (simSignature 8 ([3, 0, 1, 2].map hash))]
    (∃ idx, SimIndex.new 100 8 Nat 4 3 = .ok idx) ∧
    lastSig (assigned ops) 5 = some (simSignature 8 ([3, 0, 1, 2].map hash)) ∧
    (closeBits ([3, 0, 1, 2].map hash) ([3].length + [4].length)).card < 3 :=
  ⟨⟨_, rfl⟩, by decide +kernel, by decide +kernel⟩

/-! ### C107 -/

section
variable {Ω : Type} [Fintype Ω]

theorem meanValue_mono {f g : Ω → ℝ} (h : ∀ x, f x ≤ g x) : meanValue f ≤ meanValue g := by
  unfold meanValue
  exact div_le_div_of_nonneg_right (Finset.sum_le_sum fun x _ => h x) (Nat.cast_nonneg _)

theorem meanValue_add (f g : Ω → ℝ) : meanValue (fun x => f x + g x) = meanValue f + meanValue g := by
  unfold meanValue
  rw [Finset.sum_add_distrib, add_div]

/-- Markov's inequality. -/
theorem markov {f : Ω → ℝ} (hf : ∀ x, 0 ≤ f x) {k : ℝ} (hk : 0 < k) :
    proportion (fun x => k ≤ f x) ≤ meanValue f / k := by
  classical
  unfold proportion meanValue
  rw [div_div, mul_comm, ← div_div]
  refine div_le_div_of_nonneg_right ?_ (Nat.cast_nonneg _)
  rw [le_div_iff₀ hk, ← nsmul_eq_mul]
  calc _ ≤ ∑ x ∈ Finset.univ.filter (fun x => k ≤ f x), f x :=
        Finset.card_nsmul_le_sum _ _ _ fun x hx => (Finset.mem_filter.mp hx).2
    _ ≤ _ := Finset.sum_le_sum_of_subset_of_nonneg (Finset.filter_subset _ _) fun x _ _ => hf x
end

section
variable {Tok : Type} [Fintype Tok] [DecidableEq Tok]

/-- The mean distance is the sum of the probabilities that a bit differs. -/
theorem meanValue_distance (hw : 2 ≤ w) (A B : List Tok) :
    meanValue (fun h : Tok → BitVec w => (hammingDistance (simSignature w (A.map h)) (simSignature w (B.map h)) : ℝ)) =
      ∑ i : Fin w, proportion fun h : Tok → BitVec w => ¬ (setBit (bitSet i h) A ↔ setBit (bitSet i h) B) := by
  classical
  unfold meanValue proportion
  rw [← Finset.sum_div]
  congr 1
  have : ∀ h : Tok → BitVec w,
      (hammingDistance (simSignature w (A.map h)) (simSignature w (B.map h)) : ℝ) =
      ∑ i : Fin w, if ¬ (setBit (bitSet i h) A ↔ setBit (bitSet i h) B) then (1 : ℝ) else 0 := by
    intro h
    rw [hamming_card, Finset.sum_ite, Finset.sum_const, Finset.sum_const_zero, add_zero, nsmul_one]
    congr 2
    unfold diffBits
    ext i
    simp only [Finset.mem_filter, Finset.mem_univ, true_and]
    rw [signature_setBit hw i.isLt, signature_setBit hw i.isLt, Ne, decide_eq_decide]
  simp only [this]
  rw [Finset.sum_comm]
  refine Finset.sum_congr rfl fun i _ => ?_
  rw [Finset.sum_ite, Finset.sum_const, Finset.sum_const_zero, add_zero, nsmul_one]
  congr 3

theorem flip_proportion {i : Nat} (hi : i < w) (c : List Tok) (S : Finset Tok) (hS : ∀ s ∈ S, s ∈ c)
    (t : Tok) (ht : t ∉ S) :
    proportion (fun h : Tok → BitVec w => ¬ (setBit (bitSet i h) (c ++ [t]) ↔ setBit (bitSet i h) c)) ≤
      (S.card.choose (S.card / 2) : ℝ) / 2 ^ (S.card + 1) := by
  rw [proportion_bit hi fun G => ¬ (setBit G (c ++ [t]) ↔ setBit G c),
    div_le_div_iff₀ (by positivity) (by positivity)]
  exact_mod_cast flip_count c S hS t ht

theorem step_distance (hw : 2 ≤ w) (c : List Tok) (S : Finset Tok) (hS : ∀ s ∈ S, s ∈ c) (t : Tok) (ht : t ∉ S) :
    meanValue (fun h : Tok → BitVec w =>
        (hammingDistance (simSignature w ((c ++ [t]).map h)) (simSignature w (c.map h)) : ℝ)) ≤
      w * ((S.card.choose (S.card / 2) : ℝ) / 2 ^ (S.card + 1)) := by
  rw [meanValue_distance hw]
  calc _ ≤ ∑ _i : Fin w, ((S.card.choose (S.card / 2) : ℝ) / 2 ^ (S.card + 1)) :=
        Finset.sum_le_sum fun i _ => flip_proportion i.isLt c S hS t ht
    _ = _ := by rw [Finset.sum_const, Finset.card_univ, Fintype.card_fin, nsmul_eq_mul]

theorem extend_distance (hw : 2 ≤ w) (c : List Tok) (S : Finset Tok) (hS : ∀ s ∈ S, s ∈ c) (x : List Tok)
    (hx : ∀ t ∈ x, t ∉ S) :
    meanValue (fun h : Tok → BitVec w =>
        (hammingDistance (simSignature w ((c ++ x).map h)) (simSignature w (c.map h)) : ℝ)) ≤
      x.length * (w * ((S.card.choose (S.card / 2) : ℝ) / 2 ^ (S.card + 1))) := by
  induction x using List.reverseRecOn with
  | nil =>
    simp only [List.append_nil, List.length_nil, Nat.cast_zero, zero_mul]
    have : ∀ h : Tok → BitVec w,
        (hammingDistance (simSignature w (c.map h)) (simSignature w (c.map h)) : ℝ) = 0 := by
      intro h
      rw [((C46_metric _ _ 0#w).2.1).mpr rfl, Nat.cast_zero]
    simp only [this]
    unfold meanValue
    simp
  | append_singleton x t ih =>
    have h1 := ih fun t ht => hx t (List.mem_append_left _ ht)
    have h2 := step_distance hw (c ++ x) S (fun s hs => List.mem_append_left _ (hS s hs)) t
      (hx t (List.mem_append_right _ (List.mem_singleton_self t)))
    have h3 : meanValue (fun h : Tok → BitVec w =>
        (hammingDistance (simSignature w ((c ++ (x ++ [t])).map h)) (simSignature w (c.map h)) : ℝ)) ≤
        meanValue (fun h : Tok → BitVec w =>
          (hammingDistance (simSignature w ((c ++ x ++ [t]).map h)) (simSignature w ((c ++ x).map h)) : ℝ)) +
        meanValue (fun h : Tok → BitVec w =>
          (hammingDistance (simSignature w ((c ++ x).map h)) (simSignature w (c.map h)) : ℝ)) := by
      rw [← meanValue_add]
      apply meanValue_mono
      intro h
      rw [← List.append_assoc]
      exact_mod_cast (C46_metric _ _ _).2.2.1
    refine h3.trans ?_
    rw [List.length_append, List.length_singleton, Nat.cast_add, Nat.cast_one, add_mul, one_mul, add_comm]
    exact add_le_add h1 h2

/-- C107: with a uniformly random hash function the mean distance of the signatures of two documents that share the
tokens `c` (with repetitions) and have `x` and `y` besides is at most `w (|x| + |y|) C(m, m/2) / 2^(m+1)`, where `m` is
the number of different tokens of `c` that do not occur in `x` and `y`. -/
theorem C107_expected (hw : 2 ≤ w) (A B c x y : List Tok) (hA : A.Perm (c ++ x)) (hB : B.Perm (c ++ y)) (m : Nat)
    (hm : m = (c.toFinset \ (x ++ y).toFinset).card) :
    meanValue (fun h : Tok → BitVec w =>
        (hammingDistance (simSignature w (A.map h)) (simSignature w (B.map h)) : ℝ)) ≤
      w * (x.length + y.length) * (m.choose (m / 2) / 2 ^ (m + 1)) := by
  subst hm
  set S := c.toFinset \ (x ++ y).toFinset with hSd
  have hS : ∀ s ∈ S, s ∈ c := fun s hs => List.mem_toFinset.mp (Finset.mem_sdiff.mp hs).1
  have hx : ∀ t ∈ x, t ∉ S := by
    intro t ht hs
    exact (Finset.mem_sdiff.mp hs).2 (List.mem_toFinset.mpr (List.mem_append_left _ ht))
  have hy : ∀ t ∈ y, t ∉ S := by
    intro t ht hs
    exact (Finset.mem_sdiff.mp hs).2 (List.mem_toFinset.mpr (List.mem_append_right _ ht))
  have h1 := extend_distance hw c S hS x hx
  have h2 := extend_distance hw c S hS y hy
  have h3 : meanValue (fun h : Tok → BitVec w =>
        (hammingDistance (simSignature w (A.map h)) (simSignature w (B.map h)) : ℝ)) ≤
      meanValue (fun h : Tok → BitVec w =>
        (hammingDistance (simSignature w ((c ++ x).map h)) (simSignature w (c.map h)) : ℝ)) +
      meanValue (fun h : Tok → BitVec w =>
        (hammingDistance (simSignature w ((c ++ y).map h)) (simSignature w (c.map h)) : ℝ)) := by
    rw [← meanValue_add]
    apply meanValue_mono
    intro h
    rw [C47_order hw w (Nat.le_refl _) h A _ hA, C47_order hw w (Nat.le_refl _) h B _ hB,
      (C46_metric (simSignature w ((c ++ y).map h)) (simSignature w (c.map h)) 0#w).1]
    exact_mod_cast (C46_metric _ _ _).2.2.1
  refine h3.trans ((add_le_add h1 h2).trans (le_of_eq ?_))
  ring

/-- Signatures of 64 bits, sixteen shared words and one word of its own for each document: the mean distance is at most
`64 * 2 * 12870 / 2^17 < 12.6`. -/
example : meanValue (fun h : Fin 100 → BitVec 64 =>
      (hammingDistance (simSignature 64 (([0, 1, 2, 3, 4, 5, 6, 7, 8, 9, 10, 11, 12, 13, 14, 15, 50] : List (Fin 100)).map h))
        (simSignature 64 (([0, 1, 2, 3, 4, 5, 6, 60, 7, 8, 9, 10, 11, 12, 13, 14, 15] : List (Fin 100)).map h)) : ℝ)) < 12.6 := by
  have h := C107_expected (w := 64) (by omega) [0, 1, 2, 3, 4, 5, 6, 7, 8, 9, 10, 11, 12, 13, 14, 15, 50]
    [0, 1, 2, 3, 4, 5, 6, 60, 7, 8, 9, 10, 11, 12, 13, 14, 15]
    ([0, 1, 2, 3, 4, 5, 6, 7, 8, 9, 10, 11, 12, 13, 14, 15] : List (Fin 100)) [50] [60] (by decide) (by decide) 16
    (by decide +kernel)
  refine h.trans_lt ?_
  rw [show Nat.choose 16 (16 / 2) = 12870 by decide +kernel]
  norm_num

/-- C107: the distance reaches `k` with at most the corresponding probability. -/
theorem C107_deviation (hw : 2 ≤ w) (A B c x y : List Tok) (hA : A.Perm (c ++ x)) (hB : B.Perm (c ++ y)) (m : Nat)
    (hm : m = (c.toFinset \ (x ++ y).toFinset).card) (k : Nat) (hk : 0 < k) :
    proportion (fun h : Tok → BitVec w =>
        k ≤ hammingDistance (simSignature w (A.map h)) (simSignature w (B.map h))) ≤
      w * (x.length + y.length) * (m.choose (m / 2) / 2 ^ (m + 1)) / k := by
  have h1 := markov (f := fun h : Tok → BitVec w =>
    (hammingDistance (simSignature w (A.map h)) (simSignature w (B.map h)) : ℝ)) (fun _ => Nat.cast_nonneg _)
    (k := (k : ℝ)) (by exact_mod_cast hk)
  refine le_trans (le_of_eq ?_) (h1.trans (div_le_div_of_nonneg_right (C107_expected hw A B c x y hA hB m hm)
    (Nat.cast_nonneg _)))
  congr 1
  funext h
  rw [Nat.cast_le]

/-- The number of sets with a given number of members in `C` and given membership of `t`. -/
theorem card_slice (C : Finset Tok) (t : Tok) (ht : t ∉ C) (k : Nat) (b : Bool) :
    (Finset.univ.filter fun G : Finset Tok => (t ∈ G ↔ b = true) ∧ (C ∩ G).card = k).card * 2 ^ (C.card + 1) =
      C.card.choose k * 2 ^ Fintype.card Tok := by
  have hins : (insert t C).card = C.card + 1 := Finset.card_insert_of_notMem ht
  have hle : C.card + 1 ≤ Fintype.card Tok := by rw [← hins]; exact Finset.card_le_univ _
  have h : (Finset.univ.filter fun G : Finset Tok => (t ∈ G ↔ b = true) ∧ (C ∩ G).card = k).card =
      (Finset.powersetCard k C ×ˢ (Finset.univ \ insert t C).powerset).card := by
    refine Finset.card_bij' (fun G _ => (C ∩ G, G \ insert t C))
      (fun X _ => X.1 ∪ X.2 ∪ (if b = true then {t} else ∅)) ?_ ?_ ?_ ?_
    · intro G hG
      rw [Finset.mem_filter] at hG
      rw [Finset.mem_product, Finset.mem_powersetCard, Finset.mem_powerset]
      exact ⟨⟨Finset.inter_subset_left, hG.2.2⟩, Finset.sdiff_subset_sdiff (Finset.subset_univ _) (Finset.Subset.refl _)⟩
    · intro X hX
      rw [Finset.mem_product, Finset.mem_powersetCard, Finset.mem_powerset] at hX
      obtain ⟨⟨h1, h2⟩, h3⟩ := hX
      have hx2 : ∀ a ∈ X.2, a ≠ t ∧ a ∉ C := by
        intro a ha
        have := h3 ha
        simp only [Finset.mem_sdiff, Finset.mem_univ, true_and, Finset.mem_insert, not_or] at this
        exact this
      rw [Finset.mem_filter]
      refine ⟨Finset.mem_univ _, ?_, ?_⟩
      · have a1 : t ∉ X.1 := fun h => ht (h1 h)
        have a2 : t ∉ X.2 := fun h => (hx2 t h).1 rfl
        cases b <;> simp [a1, a2]
      · rw [← h2]
        congr 1
        ext a
        have a1 := @h1 a
        have a2 := hx2 a
        cases b
        · simp only [Bool.false_eq_true, if_false, Finset.mem_inter, Finset.mem_union, Finset.notMem_empty, or_false]
          tauto
        · simp only [if_true, Finset.mem_inter, Finset.mem_union, Finset.mem_singleton]
          constructor
          · rintro ⟨h, (h' | h') | rfl⟩
            · exact h'
            · exact absurd h (a2 h').2
            · exact absurd h ht
          · intro h; exact ⟨a1 h, Or.inl (Or.inl h)⟩
    · intro G hG
      rw [Finset.mem_filter] at hG
      ext a
      have ha := hG.2.1
      by_cases hat : a = t
      · subst hat
        cases b <;> simp_all
      · cases b
        · simp only [Bool.false_eq_true, if_false, Finset.mem_inter, Finset.mem_union, Finset.notMem_empty, or_false,
            Finset.mem_sdiff, Finset.mem_insert]
          tauto
        · simp only [if_true, Finset.mem_inter, Finset.mem_union, Finset.mem_singleton, Finset.mem_sdiff,
            Finset.mem_insert]
          tauto
    · intro X hX
      rw [Finset.mem_product, Finset.mem_powersetCard, Finset.mem_powerset] at hX
      obtain ⟨⟨h1, h2⟩, h3⟩ := hX
      have hx2 : ∀ a ∈ X.2, a ≠ t ∧ a ∉ C := by
        intro a ha
        have := h3 ha
        simp only [Finset.mem_sdiff, Finset.mem_univ, true_and, Finset.mem_insert, not_or] at this
        exact this
      apply Prod.ext
      · ext a
        have a1 := @h1 a
        have a2 := hx2 a
        cases b
        · simp only [Bool.false_eq_true, if_false, Finset.mem_inter, Finset.mem_union, Finset.notMem_empty, or_false]
          tauto
        · simp only [if_true, Finset.mem_inter, Finset.mem_union, Finset.mem_singleton]
          constructor
          · rintro ⟨h, (h' | h') | rfl⟩
            · exact h'
            · exact absurd h (a2 h').2
            · exact absurd h ht
          · intro h; exact ⟨a1 h, Or.inl (Or.inl h)⟩
      · ext a
        have a1 := @h1 a
        have a2 := hx2 a
        cases b
        · simp only [Bool.false_eq_true, if_false, Finset.mem_union, Finset.notMem_empty, or_false, Finset.mem_sdiff,
            Finset.mem_insert, not_or]
          tauto
        · simp only [if_true, Finset.mem_union, Finset.mem_singleton, Finset.mem_sdiff, Finset.mem_insert, not_or]
          tauto
  rw [h, Finset.card_product, Finset.card_powersetCard, Finset.card_powerset,
    Finset.card_sdiff_of_subset (Finset.subset_univ _), Finset.card_univ, hins, Nat.mul_assoc, ← pow_add,
    Nat.sub_add_cancel hle]

omit [Fintype Tok] in
theorem votes_nodup (G : Finset Tok) (c : List Tok) (hc : c.Nodup) : votes G c = (c.toFinset ∩ G).card := by
  unfold votes
  rw [List.countP_eq_length_filter, ← List.toFinset_card_of_nodup (hc.filter _), List.toFinset_filter]
  congr 1
  ext a
  simp

/-- C107: the bound is attained by documents without repetitions that differ in one token. -/
theorem C107_single_exact (hw : 2 ≤ w) (c : List Tok) (hc : c.Nodup) (t : Tok) (ht : t ∉ c) :
    meanValue (fun h : Tok → BitVec w =>
        (hammingDistance (simSignature w ((c ++ [t]).map h)) (simSignature w (c.map h)) : ℝ)) =
      w * (c.length.choose (c.length / 2) / 2 ^ (c.length + 1)) := by
  rw [meanValue_distance hw]
  have key : ∀ i : Fin w, proportion (fun h : Tok → BitVec w =>
      ¬ (setBit (bitSet i h) (c ++ [t]) ↔ setBit (bitSet i h) c)) =
      (c.length.choose (c.length / 2) : ℝ) / 2 ^ (c.length + 1) := by
    intro i
    rw [proportion_bit i.isLt fun G => ¬ (setBit G (c ++ [t]) ↔ setBit G c),
      div_eq_div_iff (by positivity) (by positivity)]
    have hlen : c.toFinset.card = c.length := List.toFinset_card_of_nodup hc
    have h := card_slice c.toFinset t (by simpa using ht) (c.length / 2) (decide (c.length % 2 = 1))
    rw [hlen] at h
    have e : (Finset.univ.filter fun G : Finset Tok => ¬ (setBit G (c ++ [t]) ↔ setBit G c)) =
        Finset.univ.filter fun G : Finset Tok => (t ∈ G ↔ decide (c.length % 2 = 1) = true) ∧
          (c.toFinset ∩ G).card = c.length / 2 := by
      ext G
      rw [Finset.mem_filter, Finset.mem_filter, flips_iff, votes_nodup G c hc, decide_eq_true_eq]
      by_cases hG : t ∈ G
      · simp only [hG, true_and, not_true, false_and, or_false, true_iff, Finset.mem_univ]
        omega
      · simp only [hG, true_and, not_false_iff, false_and, false_or, false_iff, Finset.mem_univ]
        omega
    rw [e]
    exact_mod_cast h
  rw [Finset.sum_congr rfl fun i _ => key i, Finset.sum_const, Finset.card_univ, Fintype.card_fin, nsmul_eq_mul]

/-- Three words and a fourth, eight bits: the mean distance is one and a half bits. -/
example : meanValue (fun h : Fin 5 → BitVec 8 =>
    (hammingDistance (simSignature 8 (([0, 1, 2, 4] : List (Fin 5)).map h))
      (simSignature 8 (([0, 1, 2] : List (Fin 5)).map h)) : ℝ)) = 1.5 := by
  have h := C107_single_exact (w := 8) (by omega) ([0, 1, 2] : List (Fin 5)) (by decide) 4 (by decide)
  refine h.trans ?_
  norm_num [Nat.choose]

/-- C107: a stored document is found by a similar one with at least the complementary probability, whatever else is
stored: for every assignment of histories to hash functions after which `id` has the signature of `A`. -/
theorem C107_recall {Id : Type} [DecidableEq Id] {fuel nb d : Nat} {idx : SimIndex w Id} (hw : 2 ≤ w) (hd : 0 < d)
    (hidx : SimIndex.new fuel w Id nb d = .ok idx) (A B c x y : List Tok) (hA : A.Perm (c ++ x))
    (hB : B.Perm (c ++ y)) (m : Nat) (hm : m = (c.toFinset \ (x ++ y).toFinset).card) (id : Id)
    (ops : (Tok → BitVec w) → List (SimOp w Id))
    (hlast : ∀ h, lastSig (assigned (ops h)) id = some (simSignature w (A.map h))) :
    1 - w * (x.length + y.length) * (m.choose (m / 2) / 2 ^ (m + 1)) / d ≤
      proportion fun h : Tok → BitVec w =>
        ∃ s, (idx.run (ops h)).query (simSignature w (B.map h)) = .ok s ∧ id ∈ s.elems := by
  have h1 := C107_deviation hw A B c x y hA hB m hm d hd
  have h2 : proportion (fun h : Tok → BitVec w =>
      ∃ s, (idx.run (ops h)).query (simSignature w (B.map h)) = .ok s ∧ id ∈ s.elems) =
      proportion (fun h : Tok → BitVec w =>
        ¬ d ≤ hammingDistance (simSignature w (A.map h)) (simSignature w (B.map h))) := by
    congr 1
    funext h
    obtain ⟨s, e, _, hs⟩ := C51_query_exact hidx (ops h) (simSignature w (B.map h))
    apply propext
    rw [not_le, (C46_metric _ _ 0#w).1, hamming_card]
    constructor
    · rintro ⟨s', e', hid⟩
      rw [e] at e'
      cases e'
      obtain ⟨sig, h3, h4⟩ := (hs id).mp hid
      rw [hlast h] at h3
      cases h3
      exact h4
    · intro hlt
      exact ⟨s, e, (hs id).mpr ⟨_, hlast h, hlt⟩⟩
  rw [h2]
  classical
  have h3 : proportion (fun h : Tok → BitVec w =>
        ¬ d ≤ hammingDistance (simSignature w (A.map h)) (simSignature w (B.map h))) =
      1 - proportion (fun h : Tok → BitVec w =>
        d ≤ hammingDistance (simSignature w (A.map h)) (simSignature w (B.map h))) := by
    unfold proportion
    have hcard := Finset.card_filter_add_card_filter_not (s := (Finset.univ : Finset (Tok → BitVec w)))
      (p := fun h => d ≤ hammingDistance (simSignature w (A.map h)) (simSignature w (B.map h)))
    have hpos : (0 : ℝ) < Fintype.card (Tok → BitVec w) := by exact_mod_cast Fintype.card_pos
    rw [Finset.card_univ] at hcard
    rw [eq_sub_iff_add_eq, ← add_div, div_eq_one_iff_eq hpos.ne', ← Nat.cast_add, add_comm]
    congr 1
    convert hcard
  rw [h3]
  linarith

/-- Sixteen words stored, one more queried, signatures of eight bits, maximum distance three: the document is found for
at least 73% of the hash functions. -/
example (idx : SimIndex 8 Nat) (hidx : SimIndex.new 100 8 Nat 4 3 = .ok idx) :
    0.73 ≤ proportion fun h : Fin 100 → BitVec 8 =>
      ∃ s, (idx.run [.insert 5 (simSignature 8 (([0, 1, 2, 3, 4, 5, 6, 7, 8, 9, 10, 11, 12, 13, 14, 15] : List (Fin 100)).map h))]).query
        (simSignature 8 (([0, 1, 2, 3, 4, 5, 6, 7, 8, 9, 10, 11, 12, 13, 14, 15, 60] : List (Fin 100)).map h)) = .ok s ∧
          5 ∈ s.elems := by
  have h := C107_recall (by omega) (by omega) hidx
    ([0, 1, 2, 3, 4, 5, 6, 7, 8, 9, 10, 11, 12, 13, 14, 15] : List (Fin 100))
    [0, 1, 2, 3, 4, 5, 6, 7, 8, 9, 10, 11, 12, 13, 14, 15, 60]
    [0, 1, 2, 3, 4, 5, 6, 7, 8, 9, 10, 11, 12, 13, 14, 15] [] [60] (by decide) (by decide) 16 (by decide +kernel) 5
    (fun h => [.insert 5 (simSignature 8 (([0, 1, 2, 3, 4, 5, 6, 7, 8, 9, 10, 11, 12, 13, 14, 15] : List (Fin 100)).map h))])
    (fun _ => by simp only [assigned, lastSig, List.reverse_singleton, List.find?_cons, decide_true, Option.map_some])
  refine le_trans ?_ h
  rw [show Nat.choose 16 (16 / 2) = 12870 by decide +kernel]
  norm_num

end

end Verif.Props
