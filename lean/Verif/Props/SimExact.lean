import Verif.Spec.Coins
import Verif.Props.SimSeparation
import Verif.Props.ExactProbability
import Mathlib.Data.Finset.Powerset
import Mathlib.Algebra.BigOperators.Group.Finset.Powerset

/-!
# Property C145: the exact probability of every SimHash answer

With a uniformly random hash function the bits of two signatures differ independently; a query returns a document with a
binomial probability whose parameter depends on the numbers of common and of other tokens.
-/
set_option linter.unusedSectionVars false
namespace Verif.Props
open Verif.Spec

section distance
variable {w : Nat} {Tok : Type} [Fintype Tok] [DecidableEq Tok]

theorem meanDistance_differs (hw : 2 ≤ w) (A B : List Tok) : meanDistance w A B / w = proportion (DiffersAt A B) := by
  have hw' : (w : ℝ) ≠ 0 := by
    have : w ≠ 0 := by omega
    exact_mod_cast this
  unfold meanDistance
  rw [mean_columns hw]
  field_simp

/-- C145: the bits of the signatures of two documents differ independently, each with the same probability, the mean
distance divided by the width. -/
theorem C145_independent (hw : 2 ≤ w) (A B : List Tok) (F : (Fin w → Bool) → Prop) :
    proportion (fun h : Tok → BitVec w => F fun i =>
      decide ((simSignature w (A.map h)).getLsbD i ≠ (simSignature w (B.map h)).getLsbD i)) =
    coins (meanDistance w A B / w) F := by
  classical
  rw [meanDistance_differs hw, ← proportion_coins _ Fintype.card_pos,
    ← proportion_bijective columns_bijective]
  congr 1
  funext h
  congr 1
  funext i
  rw [decide_eq_decide, signature_setBit hw i.isLt, signature_setBit hw i.isLt, Ne, decide_eq_decide]
  exact Iff.rfl

theorem hamming_heads (x y : BitVec w) :
    hammingDistance x y = heads fun i : Fin w => decide (x.getLsbD i ≠ y.getLsbD i) := by
  rw [hamming_card]
  unfold diffBits heads
  congr 1
  ext i
  simp

theorem coins_heads {n : Nat} (p : ℝ) (accept : Nat → Prop) [DecidablePred accept] :
    coins p (fun f : Fin n → Bool => accept (heads f)) =
      ∑ k ∈ (Finset.range (n + 1)).filter accept, (n.choose k : ℝ) * (p ^ k * (1 - p) ^ (n - k)) := by
  classical
  unfold coins
  have hle : ∀ f : Fin n → Bool, heads f ∈ Finset.range (n + 1) := by
    intro f
    have := Finset.card_filter_le (Finset.univ : Finset (Fin n)) (fun i => f i = true)
    rw [Finset.card_univ, Fintype.card_fin] at this
    exact Finset.mem_range.mpr (Nat.lt_succ_of_le this)
  rw [← Finset.sum_fiberwise_of_maps_to (s := Finset.univ) (t := Finset.range (n + 1)) (g := heads) fun f _ => hle f]
  rw [Finset.sum_filter]
  refine Finset.sum_congr rfl fun k _ => ?_
  have hc := card_heads n k
  split
  · rename_i ha
    rw [← hc, Finset.card_filter, Nat.cast_sum, Finset.sum_mul, Finset.sum_filter]
    refine Finset.sum_congr rfl fun f _ => ?_
    by_cases hk : heads f = k
    · subst hk
      rw [prod_coins, Fintype.card_fin]
      simp [ha]
    · simp [hk]
  · rename_i ha
    refine Finset.sum_eq_zero fun f hf => ?_
    exact if_neg fun h => ha ((Finset.mem_filter.mp hf).2 ▸ h)

end distance

section counts
variable {w : Nat} {Tok : Type} [Fintype Tok] [DecidableEq Tok]

theorem sum_powerset_split {S T : Finset Tok} (hd : Disjoint S T) (f : Finset Tok → Finset Tok → ℕ) :
    ∑ G ∈ (S ∪ T).powerset, f (G ∩ S) (G ∩ T) = ∑ P ∈ S.powerset, ∑ Q ∈ T.powerset, f P Q := by
  rw [← Finset.sum_product']
  have hST : ∀ a, a ∈ S → a ∉ T := fun a h1 h2 => Finset.disjoint_left.mp hd h1 h2
  refine Finset.sum_bij' (fun G _ => (G ∩ S, G ∩ T)) (fun p _ => p.1 ∪ p.2) ?_ ?_ ?_ ?_ ?_
  · intro G _
    simp
  · rintro ⟨P, Q⟩ h
    simp only [Finset.mem_product, Finset.mem_powerset] at h ⊢
    exact Finset.union_subset_union h.1 h.2
  · intro G hG
    rw [Finset.mem_powerset] at hG
    simp only
    rw [← Finset.inter_union_distrib_left]
    exact Finset.inter_eq_left.mpr hG
  · rintro ⟨P, Q⟩ h
    simp only [Finset.mem_product, Finset.mem_powerset] at h
    obtain ⟨h1, h2⟩ := h
    simp only [Prod.mk.injEq]
    constructor
    · ext a
      simp only [Finset.mem_inter, Finset.mem_union]
      constructor
      · rintro ⟨ha | ha, hs⟩
        · exact ha
        · exact absurd (h2 ha) (hST a hs)
      · intro ha
        exact ⟨.inl ha, h1 ha⟩
    · ext a
      simp only [Finset.mem_inter, Finset.mem_union]
      constructor
      · rintro ⟨ha | ha, hs⟩
        · exact absurd hs (hST a (h1 ha))
        · exact ha
      · intro ha
        exact ⟨.inr ha, h2 ha⟩
  · intro G _
    rfl

theorem sum_sets {C X Y : Finset Tok} (h1 : Disjoint C X) (h2 : Disjoint C Y) (h3 : Disjoint X Y)
    (g : ℕ → ℕ → ℕ → ℕ) :
    ∑ G : Finset Tok, g (G ∩ C).card (G ∩ X).card (G ∩ Y).card =
      2 ^ (Fintype.card Tok - (C.card + X.card + Y.card)) *
        ∑ i ∈ Finset.range (C.card + 1), ∑ j ∈ Finset.range (X.card + 1), ∑ k ∈ Finset.range (Y.card + 1),
          C.card.choose i * (X.card.choose j * (Y.card.choose k * g i j k)) := by
  have hU : (Finset.univ : Finset Tok) = (C ∪ (X ∪ Y)) ∪ (C ∪ (X ∪ Y))ᶜ := (Finset.union_compl _).symm
  have hcard : (C ∪ (X ∪ Y)).card = C.card + X.card + Y.card := by
    rw [Finset.card_union_of_disjoint (Finset.disjoint_union_right.mpr ⟨h1, h2⟩), Finset.card_union_of_disjoint h3]
    ring
  rw [← Finset.powerset_univ, hU]
  have e1 : ∀ G : Finset Tok, g (G ∩ C).card (G ∩ X).card (G ∩ Y).card =
      (fun P (_ : Finset Tok) => g (P ∩ C).card (P ∩ X).card (P ∩ Y).card) (G ∩ (C ∪ (X ∪ Y))) (G ∩ (C ∪ (X ∪ Y))ᶜ) := by
    intro G
    simp only [Finset.inter_assoc]
    congr 3 <;> ext a <;> simp only [Finset.mem_inter, Finset.mem_union] <;> tauto
  rw [Finset.sum_congr rfl fun G _ => e1 G, sum_powerset_split disjoint_compl_right
    (fun P (_ : Finset Tok) => g (P ∩ C).card (P ∩ X).card (P ∩ Y).card)]
  simp only [Finset.sum_const, Finset.card_powerset, smul_eq_mul, Finset.card_compl, hcard]
  rw [← Finset.mul_sum]
  congr 1
  have e2 : ∀ P : Finset Tok, g (P ∩ C).card (P ∩ X).card (P ∩ Y).card =
      (fun P Q : Finset Tok => g P.card (Q ∩ X).card (Q ∩ Y).card) (P ∩ C) (P ∩ (X ∪ Y)) := by
    intro G
    simp only [Finset.inter_assoc]
    congr 3 <;> ext a <;> simp only [Finset.mem_inter, Finset.mem_union] <;> tauto
  rw [Finset.sum_congr rfl fun G _ => e2 G, sum_powerset_split (Finset.disjoint_union_right.mpr ⟨h1, h2⟩)
      (fun P Q : Finset Tok => g P.card (Q ∩ X).card (Q ∩ Y).card),
    Finset.sum_powerset_apply_card (fun i => ∑ Q ∈ (X ∪ Y).powerset, g i (Q ∩ X).card (Q ∩ Y).card)]
  refine Finset.sum_congr rfl fun i _ => ?_
  rw [sum_powerset_split h3 (fun P Q => g i P.card Q.card),
    Finset.sum_powerset_apply_card (fun j => ∑ Q ∈ Y.powerset, g i j Q.card), smul_eq_mul, Finset.mul_sum]
  refine Finset.sum_congr rfl fun j _ => ?_
  rw [Finset.sum_powerset_apply_card (fun k => g i j k), smul_eq_mul, Finset.mul_sum, Finset.mul_sum]
  refine Finset.sum_congr rfl fun k _ => ?_
  rw [smul_eq_mul]

omit [Fintype Tok] in
theorem votes_parts {A : List Tok} (hA : A.Nodup) (B : List Tok) (G : Finset Tok) :
    votes G A = (G ∩ (A.toFinset ∩ B.toFinset)).card + (G ∩ (A.toFinset \ B.toFinset)).card := by
  have h : votes G A = (G ∩ A.toFinset).card := by
    unfold votes
    rw [List.countP_eq_length_filter, ← List.toFinset_card_of_nodup (hA.filter _)]
    congr 1
    ext a
    simp [and_comm]
  rw [h, ← Finset.card_union_of_disjoint]
  · congr 1
    ext a
    simp only [Finset.mem_inter, Finset.mem_union, Finset.mem_sdiff]
    tauto
  · rw [Finset.disjoint_left]
    intro a h1 h2
    simp only [Finset.mem_inter, Finset.mem_sdiff] at h1 h2
    exact h2.2.2 h1.2.2

/-- C145: the mean distance of two documents without repeated tokens, by the numbers of common tokens and of the tokens
of only one of them: `i`, `j` and `k` count those whose hashes have the bit set. -/
theorem C145_mean (hw : 2 ≤ w) {A B : List Tok} (hA : A.Nodup) (hB : B.Nodup) (c x y : ℕ)
    (hc : (A.toFinset ∩ B.toFinset).card = c) (hx : (A.toFinset \ B.toFinset).card = x)
    (hy : (B.toFinset \ A.toFinset).card = y) :
    meanDistance w A B = w * ((∑ i ∈ Finset.range (c + 1), ∑ j ∈ Finset.range (x + 1), ∑ k ∈ Finset.range (y + 1),
      c.choose i * (x.choose j * (y.choose k * if (2 * (i + j) < c + x ↔ 2 * (i + k) < c + y) then 0 else 1)) : ℕ) : ℝ) /
        2 ^ (c + x + y) := by
  classical
  have hw' : (w : ℝ) ≠ 0 := by
    have : w ≠ 0 := by omega
    exact_mod_cast this
  have hlenA : A.length = c + x := by
    rw [← List.toFinset_card_of_nodup hA, ← hc, ← hx]
    exact (Finset.card_inter_add_card_sdiff _ _).symm
  have hlenB : B.length = c + y := by
    rw [← List.toFinset_card_of_nodup hB, ← hc, ← hy, Finset.inter_comm]
    exact (Finset.card_inter_add_card_sdiff _ _).symm
  have hle : c + x + y ≤ Fintype.card Tok := by
    have h1 : Disjoint A.toFinset (B.toFinset \ A.toFinset) := Finset.disjoint_sdiff
    have := Finset.card_le_univ (A.toFinset ∪ (B.toFinset \ A.toFinset))
    rw [Finset.card_union_of_disjoint h1, hy, List.toFinset_card_of_nodup hA, hlenA] at this
    exact this
  have hs := sum_sets (C := A.toFinset ∩ B.toFinset) (X := A.toFinset \ B.toFinset) (Y := B.toFinset \ A.toFinset)
    (by rw [Finset.disjoint_left]; intro a h1 h2; simp only [Finset.mem_inter, Finset.mem_sdiff] at h1 h2; exact h2.2 h1.2)
    (by rw [Finset.disjoint_left]; intro a h1 h2; simp only [Finset.mem_inter, Finset.mem_sdiff] at h1 h2; exact h2.2 h1.1)
    (by rw [Finset.disjoint_left]; intro a h1 h2; simp only [Finset.mem_sdiff] at h1 h2; exact h2.2 h1.1)
    (fun i j k => if (2 * (i + j) < c + x ↔ 2 * (i + k) < c + y) then 0 else 1)
  rw [hc, hx, hy] at hs
  have hcount : (Finset.univ.filter fun G : Finset Tok => DiffersAt A B G).card =
      ∑ G : Finset Tok, if (2 * ((G ∩ (A.toFinset ∩ B.toFinset)).card + (G ∩ (A.toFinset \ B.toFinset)).card) < c + x ↔
        2 * ((G ∩ (A.toFinset ∩ B.toFinset)).card + (G ∩ (B.toFinset \ A.toFinset)).card) < c + y) then 0 else 1 := by
    rw [Finset.card_filter]
    refine Finset.sum_congr rfl fun G _ => ?_
    have ha := votes_parts hA B G
    have hb := votes_parts hB A G
    rw [Finset.inter_comm B.toFinset] at hb
    have hiff : DiffersAt A B G ↔
        ¬ (2 * ((G ∩ (A.toFinset ∩ B.toFinset)).card + (G ∩ (A.toFinset \ B.toFinset)).card) < c + x ↔
          2 * ((G ∩ (A.toFinset ∩ B.toFinset)).card + (G ∩ (B.toFinset \ A.toFinset)).card) < c + y) := by
      unfold DiffersAt setBit
      rw [ha, hb, hlenA, hlenB]
    by_cases h : (2 * ((G ∩ (A.toFinset ∩ B.toFinset)).card + (G ∩ (A.toFinset \ B.toFinset)).card) < c + x ↔
        2 * ((G ∩ (A.toFinset ∩ B.toFinset)).card + (G ∩ (B.toFinset \ A.toFinset)).card) < c + y)
    · rw [if_neg fun h' => hiff.mp h' h, if_pos h]
    · rw [if_pos (hiff.mpr h), if_neg h]
  have hm := meanDistance_differs hw A B
  rw [div_eq_iff hw'] at hm
  rw [hm, proportion_eq]
  have hpow : (2 : ℝ) ^ Fintype.card Tok = 2 ^ (Fintype.card Tok - (c + x + y)) * 2 ^ (c + x + y) := by
    rw [← pow_add, Nat.sub_add_cancel hle]
  have hcount' : ((Finset.univ.filter (DiffersAt A B)).card : ℝ) = 2 ^ (Fintype.card Tok - (c + x + y)) *
      ((∑ i ∈ Finset.range (c + 1), ∑ j ∈ Finset.range (x + 1), ∑ k ∈ Finset.range (y + 1),
      c.choose i * (x.choose j * (y.choose k * if (2 * (i + j) < c + x ↔ 2 * (i + k) < c + y) then 0 else 1)) : ℕ) : ℝ) := by
    have := hcount.trans hs
    have := congrArg (Nat.cast : ℕ → ℝ) this
    rw [Nat.cast_mul, Nat.cast_pow, Nat.cast_ofNat] at this
    rw [← this]
  rw [hcount', Fintype.card_finset, Nat.cast_pow, Nat.cast_ofNat, hpow]
  field_simp

end counts

section index
variable {w : Nat} {Tok : Type} [Fintype Tok] [DecidableEq Tok] {Id : Type} [DecidableEq Id]

/-- C145: the exact probability that a query returns a document, after every history that leaves it stored. -/
theorem C145_probability {fuel nb d : Nat} {idx : SimIndex w Id} (hw : 2 ≤ w)
    (hidx : SimIndex.new fuel w Id nb d = .ok idx) (A B : List Tok) (id : Id)
    (ops : (Tok → BitVec w) → List (SimOp w Id))
    (hlast : ∀ h, lastSig (assigned (ops h)) id = some (simSignature w (A.map h))) (p : ℝ)
    (hp : meanDistance w A B = w * p) :
    proportion (fun h : Tok → BitVec w =>
        ∃ s, (idx.run (ops h)).query (simSignature w (B.map h)) = .ok s ∧ id ∈ s.elems) =
      ∑ k ∈ (Finset.range (w + 1)).filter (· < d), (w.choose k : ℝ) * (p ^ k * (1 - p) ^ (w - k)) := by
  have hw' : (w : ℝ) ≠ 0 := by
    have : w ≠ 0 := by omega
    exact_mod_cast this
  rw [← coins_heads, show p = meanDistance w A B / w by rw [hp]; field_simp,
    ← C145_independent hw A B (fun f => heads f < d)]
  congr 1
  funext h
  rw [found_iff hidx A B id (ops h) h (hlast h), hamming_heads]

/-- C145: the smaller the mean distance of a document from the query, the likelier it is returned. -/
theorem C145_monotone {fuel nb d : Nat} {idx : SimIndex w Id} (hw : 2 ≤ w)
    (hidx : SimIndex.new fuel w Id nb d = .ok idx) (A B A' B' : List Tok) (id id' : Id)
    (ops ops' : (Tok → BitVec w) → List (SimOp w Id))
    (hlast : ∀ h, lastSig (assigned (ops h)) id = some (simSignature w (A.map h)))
    (hlast' : ∀ h, lastSig (assigned (ops' h)) id' = some (simSignature w (A'.map h)))
    (hle : meanDistance w A B ≤ meanDistance w A' B') :
    proportion (fun h : Tok → BitVec w =>
        ∃ s, (idx.run (ops' h)).query (simSignature w (B'.map h)) = .ok s ∧ id' ∈ s.elems) ≤
      proportion (fun h : Tok → BitVec w =>
        ∃ s, (idx.run (ops h)).query (simSignature w (B.map h)) = .ok s ∧ id ∈ s.elems) := by
  classical
  have hw' : (0 : ℝ) < w := by
    have : 0 < w := by omega
    exact_mod_cast this
  have key : ∀ (A B : List Tok) (id : Id) (ops : (Tok → BitVec w) → List (SimOp w Id)),
      (∀ h, lastSig (assigned (ops h)) id = some (simSignature w (A.map h))) →
      proportion (fun h : Tok → BitVec w =>
        ∃ s, (idx.run (ops h)).query (simSignature w (B.map h)) = .ok s ∧ id ∈ s.elems) =
      1 - coins (meanDistance w A B / w) (fun f : Fin w → Bool => d ≤ heads f) := by
    intro A B id ops hl
    rw [← C145_independent hw A B (fun f => d ≤ heads f), ← proportion_compl]
    congr 1
    funext h
    rw [found_iff hidx A B id (ops h) h (hl h), hamming_heads, not_le]
  rw [key A B id ops hlast, key A' B' id' ops' hlast']
  have hp := meanDistance_differs hw A B
  have hq := meanDistance_differs hw A' B'
  have : coins (meanDistance w A B / w) (fun f : Fin w → Bool => d ≤ heads f) ≤
      coins (meanDistance w A' B' / w) (fun f : Fin w → Bool => d ≤ heads f) := by
    refine coins_mono (by rw [hp]; exact (proportion_unit _).1) (by gcongr) (by rw [hq]; exact (proportion_unit _).2) ?_
    intro f g hfg hd
    refine hd.trans (Finset.card_le_card fun i hi => ?_)
    simp only [Finset.mem_filter, Finset.mem_univ, true_and] at hi ⊢
    exact hfg i hi
  linarith

/-- C145: a longer document that contains the query may be nearer than a shorter one: four words of which two are the
query have a smaller mean distance from it than three words of which two are the query, although their Jaccard
similarity to it is smaller. So every index is likelier to return the less similar document. -/
theorem C145_longer_nearer {fuel nb d : Nat} {idx : SimIndex w Id} (hw : 2 ≤ w)
    (hidx : SimIndex.new fuel w Id nb d = .ok idx) (t1 t2 t3 t4 : Tok) (hnd : [t1, t2, t3, t4].Nodup) (id id' : Id)
    (ops ops' : (Tok → BitVec w) → List (SimOp w Id))
    (hlast : ∀ h, lastSig (assigned (ops h)) id = some (simSignature w ([t1, t2, t3, t4].map h)))
    (hlast' : ∀ h, lastSig (assigned (ops' h)) id' = some (simSignature w ([t1, t2, t3].map h))) :
    jaccard [t1, t2, t3, t4] [t1, t2] = 1 / 2 ∧ jaccard [t1, t2, t3] [t1, t2] = 2 / 3 ∧
    meanDistance w [t1, t2, t3, t4] [t1, t2] = w * (3 / 16) ∧ meanDistance w [t1, t2, t3] [t1, t2] = w * (1 / 4) ∧
    proportion (fun h : Tok → BitVec w =>
        ∃ s, (idx.run (ops' h)).query (simSignature w ([t1, t2].map h)) = .ok s ∧ id' ∈ s.elems) ≤
      proportion (fun h : Tok → BitVec w =>
        ∃ s, (idx.run (ops h)).query (simSignature w ([t1, t2].map h)) = .ok s ∧ id ∈ s.elems) := by
  have hnd' := hnd
  simp only [List.nodup_cons, List.mem_cons, List.not_mem_nil, or_false, not_or, not_false_eq_true, List.nodup_nil,
    and_true] at hnd
  obtain ⟨⟨h12, h13, h14⟩, ⟨h23, h24⟩, h34⟩ := hnd
  have hB : [t1, t2].Nodup := by simp [h12]
  have hA' : [t1, t2, t3].Nodup := by simp [h12, h13, h23]
  have i1 : ([t1, t2, t3, t4].toFinset ∩ [t1, t2].toFinset) = {t1, t2} := by
    ext a; simp only [Finset.mem_inter, List.mem_toFinset, List.mem_cons, List.not_mem_nil, or_false, Finset.mem_insert,
      Finset.mem_singleton]
    tauto
  have i2 : ([t1, t2, t3, t4].toFinset \ [t1, t2].toFinset) = {t3, t4} := by
    ext a; simp only [Finset.mem_sdiff, List.mem_toFinset, List.mem_cons, List.not_mem_nil, or_false, Finset.mem_insert,
      Finset.mem_singleton, not_or]
    constructor
    · tauto
    · rintro (rfl | rfl)
      · exact ⟨by tauto, Ne.symm h13, Ne.symm h23⟩
      · exact ⟨by tauto, Ne.symm h14, Ne.symm h24⟩
  have i3 : ([t1, t2].toFinset \ [t1, t2, t3, t4].toFinset) = ∅ := by
    rw [Finset.sdiff_eq_empty_iff_subset]
    intro a
    simp only [List.mem_toFinset, List.mem_cons, List.not_mem_nil, or_false]
    tauto
  have j1 : ([t1, t2, t3].toFinset ∩ [t1, t2].toFinset) = {t1, t2} := by
    ext a; simp only [Finset.mem_inter, List.mem_toFinset, List.mem_cons, List.not_mem_nil, or_false, Finset.mem_insert,
      Finset.mem_singleton]
    tauto
  have j2 : ([t1, t2, t3].toFinset \ [t1, t2].toFinset) = {t3} := by
    ext a; simp only [Finset.mem_sdiff, List.mem_toFinset, List.mem_cons, List.not_mem_nil, or_false,
      Finset.mem_singleton, not_or]
    constructor
    · tauto
    · rintro rfl
      exact ⟨by tauto, Ne.symm h13, Ne.symm h23⟩
  have j3 : ([t1, t2].toFinset \ [t1, t2, t3].toFinset) = ∅ := by
    rw [Finset.sdiff_eq_empty_iff_subset]
    intro a
    simp only [List.mem_toFinset, List.mem_cons, List.not_mem_nil, or_false]
    tauto
  have m1 : meanDistance w [t1, t2, t3, t4] [t1, t2] = w * (3 / 16) := by
    rw [C145_mean hw hnd' hB 2 2 0 (by rw [i1, Finset.card_pair h12]) (by rw [i2, Finset.card_pair h34])
      (by rw [i3, Finset.card_empty])]
    rw [show (∑ i ∈ Finset.range (2 + 1), ∑ j ∈ Finset.range (2 + 1), ∑ k ∈ Finset.range (0 + 1), Nat.choose 2 i *
      (Nat.choose 2 j * (Nat.choose 0 k * if (2 * (i + j) < 2 + 2 ↔ 2 * (i + k) < 2 + 0) then 0 else 1))) = 3 by decide +kernel]
    norm_num
    ring
  have m2 : meanDistance w [t1, t2, t3] [t1, t2] = w * (1 / 4) := by
    rw [C145_mean hw hA' hB 2 1 0 (by rw [j1, Finset.card_pair h12]) (by rw [j2, Finset.card_singleton])
      (by rw [j3, Finset.card_empty])]
    rw [show (∑ i ∈ Finset.range (2 + 1), ∑ j ∈ Finset.range (1 + 1), ∑ k ∈ Finset.range (0 + 1), Nat.choose 2 i *
      (Nat.choose 1 j * (Nat.choose 0 k * if (2 * (i + j) < 2 + 1 ↔ 2 * (i + k) < 2 + 0) then 0 else 1))) = 2 by decide +kernel]
    norm_num
    ring
  refine ⟨?_, ?_, m1, m2, C145_monotone hw hidx _ _ _ _ id id' ops ops' hlast hlast' ?_⟩
  · refine (jaccard_cards (i := 2) (u := 4) ?_ ?_).trans (by norm_num)
    · rw [i1, Finset.card_pair h12]
    · have : [t1, t2, t3, t4].toFinset ∪ [t1, t2].toFinset = [t1, t2, t3, t4].toFinset := by
        ext a; simp only [Finset.mem_union, List.mem_toFinset, List.mem_cons, List.not_mem_nil, or_false]
        tauto
      rw [this, List.toFinset_card_of_nodup hnd']
      rfl
  · refine (jaccard_cards (i := 2) (u := 3) ?_ ?_).trans (by norm_num)
    · rw [j1, Finset.card_pair h12]
    · have : [t1, t2, t3].toFinset ∪ [t1, t2].toFinset = [t1, t2, t3].toFinset := by
        ext a; simp only [Finset.mem_union, List.mem_toFinset, List.mem_cons, List.not_mem_nil, or_false]
        tauto
      rw [this, List.toFinset_card_of_nodup hA']
      rfl
  · rw [m1, m2]
    have : (0 : ℝ) ≤ w := by positivity
    linarith

theorem binomial_numbers :
    (∑ k ∈ (Finset.range (64 + 1)).filter (· < 13), (Nat.choose 64 k) * (1 ^ k * 3 ^ (64 - k))) * 100 < 16 * 4 ^ 64 ∧
    57 * 16 ^ 64 < (∑ k ∈ (Finset.range (64 + 1)).filter (· < 13), (Nat.choose 64 k) * (3 ^ k * 13 ^ (64 - k))) * 100 := by
  decide +kernel

theorem binomial_scaled (w a b : ℕ) (hab : 0 < a + b) (S : Finset ℕ) (hS : ∀ k ∈ S, k ≤ w) :
    ∑ k ∈ S, (w.choose k : ℝ) * (((a : ℝ) / (a + b)) ^ k * (1 - (a : ℝ) / (a + b)) ^ (w - k)) =
      ((∑ k ∈ S, w.choose k * (a ^ k * b ^ (w - k)) : ℕ) : ℝ) / ((a + b : ℕ) : ℝ) ^ w := by
  have h : (0 : ℝ) < (a : ℝ) + b := by exact_mod_cast hab
  push_cast
  rw [Finset.sum_div]
  refine Finset.sum_congr rfl fun k hk => ?_
  rw [show (1 : ℝ) - (a : ℝ) / (a + b) = b / (a + b) by field_simp; ring, div_pow, div_pow, mul_div_assoc]
  congr 1
  rw [div_mul_div_comm, ← pow_add, Nat.add_sub_cancel' (hS k hk)]

/-- C145: with 64 bits and a maximum distance of 13, a query with two words returns the document that has one word more
with a probability below 0.16 and the one that has two words more with a probability above 0.57. -/
theorem C145_less_similar : ∃ idx : SimIndex 64 Nat, SimIndex.new 64 64 Nat 15 13 = .ok idx ∧
    proportion (fun h : Fin 4 → BitVec 64 => ∃ s,
      (idx.run [.insert 0 (simSignature 64 (([0, 1, 2] : List (Fin 4)).map h)),
        .insert 1 (simSignature 64 (([0, 1, 2, 3] : List (Fin 4)).map h))]).query
        (simSignature 64 (([0, 1] : List (Fin 4)).map h)) = .ok s ∧ 0 ∈ s.elems) < 16 / 100 ∧
    57 / 100 < proportion (fun h : Fin 4 → BitVec 64 => ∃ s,
      (idx.run [.insert 0 (simSignature 64 (([0, 1, 2] : List (Fin 4)).map h)),
        .insert 1 (simSignature 64 (([0, 1, 2, 3] : List (Fin 4)).map h))]).query
        (simSignature 64 (([0, 1] : List (Fin 4)).map h)) = .ok s ∧ 1 ∈ s.elems) := by
  obtain ⟨idx, hidx⟩ := C51_new_returns (w := 64) (Id := Nat) 15 13 64 (by omega) (by omega) (by omega)
  refine ⟨idx, hidx, ?_⟩
  have hl1 : ∀ h : Fin 4 → BitVec 64, lastSig (assigned [SimOp.insert 0 (simSignature 64 (([0, 1, 2] : List (Fin 4)).map h)),
        .insert 1 (simSignature 64 (([0, 1, 2, 3] : List (Fin 4)).map h))]) 1 =
      some (simSignature 64 (([0, 1, 2, 3] : List (Fin 4)).map h)) := fun h => by simp [assigned, lastSig]
  have hl0 : ∀ h : Fin 4 → BitVec 64, lastSig (assigned [SimOp.insert 0 (simSignature 64 (([0, 1, 2] : List (Fin 4)).map h)),
        .insert 1 (simSignature 64 (([0, 1, 2, 3] : List (Fin 4)).map h))]) 0 =
      some (simSignature 64 (([0, 1, 2] : List (Fin 4)).map h)) := fun h => by simp [assigned, lastSig]
  obtain ⟨_, _, m1, m0, _⟩ := C145_longer_nearer (by omega) hidx (0 : Fin 4) 1 2 3 (by decide) 1 0 _ _ hl1 hl0
  obtain ⟨n0, n1⟩ := binomial_numbers
  have hS : ∀ k ∈ (Finset.range (64 + 1)).filter (· < 13), k ≤ 64 := by
    intro k hk
    have := (Finset.mem_filter.mp hk).1
    rw [Finset.mem_range] at this
    omega
  constructor
  · rw [C145_probability (by omega) hidx _ _ 0 _ hl0 (((1 : ℕ) : ℝ) / ((1 : ℕ) + (3 : ℕ))) (m0.trans (by norm_num)),
      binomial_scaled 64 1 3 (by norm_num) _ hS, div_lt_div_iff₀ (by positivity) (by norm_num)]
    exact_mod_cast n0
  · rw [C145_probability (by omega) hidx _ _ 1 _ hl1 (((3 : ℕ) : ℝ) / ((3 : ℕ) + (13 : ℕ))) (m1.trans (by norm_num)),
      binomial_scaled 64 3 13 (by norm_num) _ hS, div_lt_div_iff₀ (by norm_num) (by positivity)]
    exact_mod_cast n1

end index
end Verif.Props
