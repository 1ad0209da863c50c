import Verif.Lemmas.SimHash
import Verif.Spec.SimIdeal
import Mathlib.Combinatorics.SetFamily.LYM
import Mathlib.Tactic.FieldSimp
import Mathlib.Algebra.BigOperators.Field
import Mathlib.Data.Fintype.BigOperators

/-! # Lemmas: SimHash signatures under random hash functions -/
namespace Verif
open Verif.Spec
variable {w : Nat} {Tok : Type} [Fintype Tok] [DecidableEq Tok]

/-- The tokens whose hash has bit `i` set. -/
def bitSet (i : Nat) (h : Tok → BitVec w) : Finset Tok := Finset.univ.filter fun t => (h t).getLsbD i = true

omit [DecidableEq Tok] in
theorem mem_bitSet (i : Nat) (h : Tok → BitVec w) (t : Tok) : t ∈ bitSet i h ↔ (h t).getLsbD i = true := by
  simp [bitSet]

/-- Flip bit `i` of the hashes of the tokens in `G`. -/
def flipAt (i : Nat) (G : Finset Tok) (h : Tok → BitVec w) : Tok → BitVec w :=
  fun t => if t ∈ G then h t ^^^ (1#w <<< i) else h t

omit [Fintype Tok] in
theorem flipAt_flipAt (i : Nat) (G : Finset Tok) (h : Tok → BitVec w) : flipAt i G (flipAt i G h) = h := by
  funext t
  unfold flipAt
  split_ifs
  · rw [BitVec.xor_assoc, BitVec.xor_self, BitVec.xor_zero]
  · rfl

theorem mem_bitSet_flipAt {i : Nat} (hi : i < w) (G : Finset Tok) (h : Tok → BitVec w) (t : Tok) :
    t ∈ bitSet i (flipAt i G h) ↔ (t ∈ bitSet i h ↔ t ∉ G) := by
  rw [mem_bitSet, mem_bitSet]
  unfold flipAt
  have h1 : (1#w <<< i).getLsbD i = true := by
    simp [hi]
  split_ifs with hG
  · rw [BitVec.getLsbD_xor, h1]
    cases (h t).getLsbD i <;> simp [hG]
  · simp [hG]

/-- All sets of tokens are equally likely to be the tokens with bit `i` set. -/
theorem card_fiber {i : Nat} (hi : i < w) (G : Finset Tok) :
    (Finset.univ.filter fun h : Tok → BitVec w => bitSet i h = G).card =
      (Finset.univ.filter fun h : Tok → BitVec w => bitSet i h = ∅).card := by
  refine Finset.card_bij' (fun h _ => flipAt i G h) (fun h _ => flipAt i G h) ?_ ?_ ?_ ?_
  · intro h hh
    rw [Finset.mem_filter] at hh ⊢
    refine ⟨Finset.mem_univ _, ?_⟩
    ext t
    rw [mem_bitSet_flipAt hi, hh.2]
    simp
  · intro h hh
    rw [Finset.mem_filter] at hh ⊢
    refine ⟨Finset.mem_univ _, ?_⟩
    ext t
    rw [mem_bitSet_flipAt hi, hh.2]
    simp
  · intro h _; exact flipAt_flipAt i G h
  · intro h _; exact flipAt_flipAt i G h

theorem card_event {i : Nat} (hi : i < w) (E : Finset Tok → Prop) [DecidablePred E] :
    (Finset.univ.filter fun h : Tok → BitVec w => E (bitSet i h)).card =
      (Finset.univ.filter E).card * (Finset.univ.filter fun h : Tok → BitVec w => bitSet i h = ∅).card := by
  rw [Finset.card_eq_sum_card_fiberwise (f := bitSet i) (t := Finset.univ.filter E)]
  · rw [Finset.sum_const_nat (m := (Finset.univ.filter fun h : Tok → BitVec w => bitSet i h = ∅).card)]
    intro G hG
    rw [Finset.mem_filter] at hG
    rw [← card_fiber hi G, Finset.filter_filter]
    congr 1
    ext h
    simp only [Finset.mem_filter, Finset.mem_univ, true_and]
    constructor
    · exact fun x => x.2
    · intro x; exact ⟨x ▸ hG.2, x⟩
  · intro h hh
    simpa using hh

/-- The probability of an event that depends on bit `i` only, as a proportion of the sets of tokens. -/
theorem proportion_bit {i : Nat} (hi : i < w) (E : Finset Tok → Prop) [DecidablePred E] :
    proportion (fun h : Tok → BitVec w => E (bitSet i h)) =
      ((Finset.univ.filter E).card : ℝ) / 2 ^ Fintype.card Tok := by
  classical
  unfold proportion
  have h1 := card_event (Tok := Tok) hi E
  have h2 := card_event (Tok := Tok) hi (fun _ => True)
  have e1 : (Finset.univ.filter fun _ : Tok → BitVec w => True).card = Fintype.card (Tok → BitVec w) := by
    rw [Finset.filter_true]; rfl
  have e2 : (Finset.univ.filter fun _ : Finset Tok => True).card = 2 ^ Fintype.card Tok := by
    rw [Finset.filter_true, Finset.card_univ, Fintype.card_finset]
  rw [e1, e2] at h2
  have hpos : 0 < Fintype.card (Tok → BitVec w) := Fintype.card_pos
  set F := (Finset.univ.filter fun h : Tok → BitVec w => bitSet i h = ∅).card with hF
  have hFpos : 0 < F := by
    rcases Nat.eq_zero_or_pos F with h | h
    · rw [h, Nat.mul_zero] at h2; omega
    · exact h
  have h1' : ((Finset.univ.filter fun h : Tok → BitVec w => E (bitSet i h)).card : ℝ) =
      ((Finset.univ.filter E).card : ℝ) * F := by exact_mod_cast h1
  have h2' : (Fintype.card (Tok → BitVec w) : ℝ) = 2 ^ Fintype.card Tok * F := by exact_mod_cast h2
  have hF' : (F : ℝ) ≠ 0 := by exact_mod_cast hFpos.ne'
  rw [h2']
  have : (Finset.univ.filter (fun h : Tok → BitVec w => E (bitSet i h))).card =
      (@Finset.filter _ (fun h : Tok → BitVec w => E (bitSet i h)) (Classical.decPred _) Finset.univ).card := by
    congr
  rw [← this, h1']
  field_simp

/-- The votes for "set" that a document gets when the tokens in `G` have the bit set. -/
def votes (G : Finset Tok) (c : List Tok) : Nat := c.countP fun t => decide (t ∈ G)

/-- Whether the bit of the signature is set. -/
def setBit (G : Finset Tok) (c : List Tok) : Prop := 2 * votes G c < c.length

instance (G : Finset Tok) (c : List Tok) : Decidable (setBit G c) := inferInstanceAs (Decidable (_ < _))

theorem signature_setBit (hw : 2 ≤ w) {i : Nat} (hi : i < w) (h : Tok → BitVec w) (c : List Tok) :
    (simSignature w (c.map h)).getLsbD i = decide (setBit (bitSet i h) c) := by
  rw [simSignature_bit hw w (Nat.le_refl _)]
  have e := ones_add_zeros (c.map h) i
  rw [List.length_map] at e
  have eo : ones (c.map h) i = votes (bitSet i h) c := by
    unfold ones votes
    rw [List.countP_map]
    apply List.countP_congr
    intro t _
    simp [mem_bitSet]
  congr 1
  unfold setBit
  rw [← eo]
  apply propext
  constructor
  · rintro ⟨_, h⟩; omega
  · intro h; exact ⟨hi, by omega⟩

omit [Fintype Tok] in
theorem votes_append (G : Finset Tok) (c d : List Tok) : votes G (c ++ d) = votes G c + votes G d := by
  unfold votes; rw [List.countP_append]

omit [Fintype Tok] in
theorem votes_single (G : Finset Tok) (t : Tok) : votes G [t] = if t ∈ G then 1 else 0 := by
  unfold votes; by_cases h : t ∈ G <;> simp [h]

omit [Fintype Tok] in
/-- When one more token changes the bit. -/
theorem flips_iff (G : Finset Tok) (c : List Tok) (t : Tok) :
    ¬ (setBit G (c ++ [t]) ↔ setBit G c) ↔
      (t ∈ G ∧ 2 * votes G c + 1 = c.length) ∨ (t ∉ G ∧ 2 * votes G c = c.length) := by
  unfold setBit
  rw [votes_append, votes_single, List.length_append, List.length_singleton]
  by_cases h : t ∈ G
  · simp only [h, if_true, true_and, not_true, false_and, or_false]; omega
  · simp only [h, if_false, true_and, not_false_iff, false_and, false_or]; omega

omit [Fintype Tok] in
theorem votes_lt {G G' : Finset Tok} {c : List Tok} (hsub : G ⊆ G') {s : Tok} (hs : s ∈ c) (h1 : s ∈ G') (h2 : s ∉ G) :
    votes G c < votes G' c := by
  unfold votes
  induction c with
  | nil => cases hs
  | cons a c ih =>
    have hle : c.countP (fun t => decide (t ∈ G)) ≤ c.countP fun t => decide (t ∈ G') := by
      apply List.countP_mono_left
      intro t _ ht
      simp only [decide_eq_true_eq] at ht ⊢
      exact hsub ht
    rw [List.countP_cons, List.countP_cons]
    rcases List.mem_cons.mp hs with rfl | hs'
    · simp only [h1, h2, decide_true, decide_false, if_true, Bool.false_eq_true, if_false]; omega
    · have := ih hs'
      have : (if decide (a ∈ G) = true then 1 else 0) ≤ if decide (a ∈ G') = true then 1 else 0 := by
        by_cases ha : a ∈ G
        · simp [ha, hsub ha]
        · simp [ha]
      omega

omit [Fintype Tok] in
/-- Sets with the same rest and the same number of votes form an antichain (Littlewood and Offord). -/
theorem sperner_votes [Fintype Tok] (c : List Tok) (S : Finset Tok) (hS : ∀ s ∈ S, s ∈ c) (t : Tok) (ht : t ∉ S) (D : Finset Tok) :
    (Finset.univ.filter fun G : Finset Tok => ¬ (setBit G (c ++ [t]) ↔ setBit G c) ∧ G \ insert t S = D).card ≤
      S.card.choose (S.card / 2) := by
  set A := Finset.univ.filter fun G : Finset Tok => ¬ (setBit G (c ++ [t]) ↔ setBit G c) ∧ G \ insert t S = D with hA
  have same : ∀ G ∈ A, ∀ G' ∈ A, votes G c = votes G' c ∧ (t ∈ G ↔ t ∈ G') := by
    intro G hG G' hG'
    rw [hA, Finset.mem_filter, flips_iff] at hG hG'
    rcases hG.2.1 with ⟨a, b⟩ | ⟨a, b⟩ <;> rcases hG'.2.1 with ⟨a', b'⟩ | ⟨a', b'⟩
    · exact ⟨by omega, by simp [a, a']⟩
    · omega
    · omega
    · exact ⟨by omega, by simp [a, a']⟩
  have anti : ∀ G ∈ A, ∀ G' ∈ A, (∀ s ∈ S, s ∈ G → s ∈ G') → G = G' := by
    intro G hG G' hG' hsub
    obtain ⟨hv, htt⟩ := same G hG G' hG'
    have hD : ∀ x, x ∉ insert t S → (x ∈ G ↔ x ∈ G') := by
      intro x hx
      have e1 := (Finset.mem_filter.mp hG).2.2
      have e2 := (Finset.mem_filter.mp hG').2.2
      have := Finset.ext_iff.mp (e1.trans e2.symm) x
      simpa [hx] using this
    have hGG : G ⊆ G' := by
      intro x hx
      by_cases hxt : x = t
      · subst hxt; exact htt.mp hx
      · by_cases hxS : x ∈ S
        · exact hsub x hxS hx
        · exact (hD x (by simp [hxt, hxS])).mp hx
    refine Finset.Subset.antisymm hGG ?_
    intro x hx
    by_contra hne
    have hxS : x ∈ S := by
      by_contra hxS
      by_cases hxt : x = t
      · subst hxt; exact hne (htt.mpr hx)
      · exact hne ((hD x (by simp [hxt, hxS])).mpr hx)
    exact absurd hv (votes_lt hGG (hS x hxS) hx hne).ne
  have hinj : Set.InjOn (fun G : Finset Tok => G.subtype (· ∈ S)) (A : Set (Finset Tok)) := by
    intro G hG G' hG' e
    apply anti G hG G' hG'
    intro s hs hsG
    have : (⟨s, hs⟩ : {x // x ∈ S}) ∈ G.subtype (· ∈ S) := by simpa using hsG
    have e : G.subtype (· ∈ S) = G'.subtype (· ∈ S) := e
    rw [e] at this
    simpa using this
  rw [← Finset.card_image_of_injOn hinj]
  have := IsAntichain.sperner (𝒜 := A.image fun G : Finset Tok => G.subtype (· ∈ S)) (by
    intro X hX Y hY hne hle
    rw [Finset.mem_coe, Finset.mem_image] at hX hY
    obtain ⟨G, hG, rfl⟩ := hX
    obtain ⟨G', hG', rfl⟩ := hY
    apply hne
    have : G = G' := by
      apply anti G hG G' hG'
      intro s hs hsG
      have : (⟨s, hs⟩ : {x // x ∈ S}) ∈ G.subtype (· ∈ S) := by simpa using hsG
      simpa using hle this
    rw [this])
  rwa [Fintype.card_coe] at this

/-- One more token changes a bit with probability at most `C(n, n/2) / 2^(n+1)`, where `n` other tokens occur. -/
theorem flip_count (c : List Tok) (S : Finset Tok) (hS : ∀ s ∈ S, s ∈ c) (t : Tok) (ht : t ∉ S) :
    (Finset.univ.filter fun G : Finset Tok => ¬ (setBit G (c ++ [t]) ↔ setBit G c)).card * 2 ^ (S.card + 1) ≤
      S.card.choose (S.card / 2) * 2 ^ Fintype.card Tok := by
  have h := Finset.card_le_mul_card_image (f := fun G : Finset Tok => G \ insert t S)
    (s := Finset.univ.filter fun G : Finset Tok => ¬ (setBit G (c ++ [t]) ↔ setBit G c))
    (S.card.choose (S.card / 2)) (by
      intro D _
      rw [Finset.filter_filter]
      exact sperner_votes c S hS t ht D)
  have himg : ((Finset.univ.filter fun G : Finset Tok => ¬ (setBit G (c ++ [t]) ↔ setBit G c)).image
      fun G : Finset Tok => G \ insert t S) ⊆ (Finset.univ \ insert t S).powerset := by
    intro X hX
    obtain ⟨G, _, rfl⟩ := Finset.mem_image.mp hX
    rw [Finset.mem_powerset]
    exact Finset.sdiff_subset_sdiff (Finset.subset_univ _) (Finset.Subset.refl _)
  have hc := Finset.card_le_card himg
  have hins : (insert t S).card = S.card + 1 := Finset.card_insert_of_notMem ht
  have hle : S.card + 1 ≤ Fintype.card Tok := by rw [← hins]; exact Finset.card_le_univ _
  rw [Finset.card_powerset, Finset.card_sdiff_of_subset (Finset.subset_univ _), Finset.card_univ, hins] at hc
  calc _ ≤ (S.card.choose (S.card / 2) * 2 ^ (Fintype.card Tok - (S.card + 1))) * 2 ^ (S.card + 1) :=
        Nat.mul_le_mul_right _ (h.trans (Nat.mul_le_mul_left _ hc))
    _ = _ := by rw [Nat.mul_assoc, ← pow_add, Nat.sub_add_cancel hle]

end Verif
