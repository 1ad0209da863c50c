import Verif.Props.Unbiased
import Verif.Props.SuperMinHash
import Verif.Spec.Mean
import Mathlib.Algebra.Order.Chebyshev
import Mathlib.Data.Fintype.EquivFin
import Mathlib.Data.Real.Basic
import Mathlib.Tactic.LinearCombination

/-!
# Property C136: the similarity estimate in the presence of collisions

`C78` supposes that no component gives two tokens the same value. Without this hypothesis, for every hash size, the mean
number of agreeing components (over all ways to assign the hash values to the tokens of a finite universe) lies between
the Jaccard similarity and the Jaccard similarity plus the number of pairs of tokens times the collision rate.
-/
namespace Verif.Props
open Verif.Spec

variable {Tok V : Type}

/-- Every component is the value `D` of a token of least order `W`. -/
structure MinSig (n : Nat) (W : Nat → Tok → Nat) (D : Nat → Tok → V) (l : List Tok) (s : List V) : Prop where
  length : s.length = n
  comp : ∀ i < n, ∃ t ∈ l, (∀ u ∈ l, W i t ≤ W i u) ∧ s[i]? = some (D i t)

section collisions
variable [Fintype Tok] [DecidableEq Tok]

omit [Fintype Tok] in
theorem exists_perm_pair {u v u' v' : Tok} (h : u ≠ v) (h' : u' ≠ v') : ∃ σ : Equiv.Perm Tok, σ u = u' ∧ σ v = v' := by
  have h1 : Equiv.swap u u' v ≠ u' := by
    intro hc
    have : Equiv.swap u u' v = Equiv.swap u u' u := by rw [hc, Equiv.swap_apply_left]
    exact h ((Equiv.swap u u').injective this).symm
  refine ⟨Equiv.swap (Equiv.swap u u' v) v' * Equiv.swap u u', ?_, ?_⟩
  · rw [Equiv.Perm.mul_apply, Equiv.swap_apply_left, Equiv.swap_apply_of_ne_of_ne (Ne.symm h1) h']
  · rw [Equiv.Perm.mul_apply, Equiv.swap_apply_left]

/-- In how many permutations the images of two given tokens are related. -/
theorem pair_card (P : Tok → Tok → Prop) [DecidableRel P] {u v : Tok} (h : u ≠ v) :
    (Finset.univ.filter fun π : Equiv.Perm Tok => P (π u) (π v)).card *
      (Fintype.card Tok * (Fintype.card Tok - 1)) =
    Fintype.card (Equiv.Perm Tok) *
      ((Finset.univ : Finset Tok).offDiag.filter fun p => P p.1 p.2).card := by
  have e1 : ∀ p ∈ (Finset.univ : Finset Tok).offDiag,
      (Finset.univ.filter fun π : Equiv.Perm Tok => P (π p.1) (π p.2)).card =
        (Finset.univ.filter fun π : Equiv.Perm Tok => P (π u) (π v)).card := by
    intro p hp
    obtain ⟨σ, s1, s2⟩ := exists_perm_pair (Finset.mem_offDiag.mp hp).2.2 h
    obtain ⟨a, b⟩ := p
    simp only at s1 s2
    have t1 : σ⁻¹ u = a := by rw [← s1]; simp
    have t2 : σ⁻¹ v = b := by rw [← s2]; simp
    refine Finset.card_bij (fun π _ => π * σ⁻¹) ?_ ?_ ?_
    · intro π hπ
      have hπ := (Finset.mem_filter.mp hπ).2
      refine Finset.mem_filter.mpr ⟨Finset.mem_univ _, ?_⟩
      simpa only [Equiv.Perm.mul_apply, t1, t2] using hπ
    · intro π _ π' _ hh
      exact mul_right_cancel hh
    · intro π hπ
      have hπ := (Finset.mem_filter.mp hπ).2
      refine ⟨π * σ, Finset.mem_filter.mpr ⟨Finset.mem_univ _, ?_⟩, ?_⟩
      · simpa only [Equiv.Perm.mul_apply, s1, s2] using hπ
      · rw [mul_assoc, mul_inv_cancel, mul_one]
  have e2 : ∀ π ∈ (Finset.univ : Finset (Equiv.Perm Tok)),
      ((Finset.univ : Finset Tok).offDiag.filter fun p => P (π p.1) (π p.2)).card =
        ((Finset.univ : Finset Tok).offDiag.filter fun p => P p.1 p.2).card := by
    intro π _
    refine Finset.card_bij (fun p _ => (π p.1, π p.2)) ?_ ?_ ?_
    · intro p hp
      simp only [Finset.mem_filter, Finset.mem_offDiag, Finset.mem_univ, true_and] at hp ⊢
      exact ⟨fun hc => hp.1 (π.injective hc), hp.2⟩
    · rintro ⟨a, b⟩ _ ⟨a', b'⟩ _ hh
      simp only [Prod.mk.injEq, EmbeddingLike.apply_eq_iff_eq] at hh
      rw [hh.1, hh.2]
    · rintro ⟨a, b⟩ hp
      simp only [Finset.mem_filter, Finset.mem_offDiag, Finset.mem_univ, true_and] at hp
      refine ⟨(π⁻¹ a, π⁻¹ b), ?_, by simp⟩
      simp only [Finset.mem_filter, Finset.mem_offDiag, Finset.mem_univ, true_and]
      exact ⟨fun hc => hp.1 (π⁻¹.injective hc), by simpa using hp.2⟩
  have e3 : ∑ p ∈ (Finset.univ : Finset Tok).offDiag,
        (Finset.univ.filter fun π : Equiv.Perm Tok => P (π p.1) (π p.2)).card =
      ∑ π : Equiv.Perm Tok, ((Finset.univ : Finset Tok).offDiag.filter fun p => P (π p.1) (π p.2)).card := by
    simp_rw [Finset.card_filter]
    exact Finset.sum_comm
  rw [Finset.sum_congr rfl e1, Finset.sum_congr rfl e2, Finset.sum_const, Finset.sum_const, smul_eq_mul, smul_eq_mul,
    Finset.offDiag_card, Finset.card_univ, Finset.card_univ] at e3
  rw [mul_comm, Nat.mul_sub, mul_one]
  exact e3

variable [DecidableEq V]

/-- The order of a component, made injective. -/
noncomputable def strictOrder (W : Tok → Nat) (t : Tok) : Nat :=
  W t * Fintype.card Tok + (Fintype.equivFin Tok t).val

omit [DecidableEq Tok] in
theorem strictOrder_le {W : Tok → Nat} {t u : Tok} (h : strictOrder W t ≤ strictOrder W u) : W t ≤ W u := by
  by_contra hc
  have hc : W u + 1 ≤ W t := by omega
  have h1 := Nat.mul_le_mul_right (Fintype.card Tok) hc
  have h2 := (Fintype.equivFin Tok u).isLt
  unfold strictOrder at h
  rw [Nat.add_mul, Nat.one_mul] at h1
  omega

omit [DecidableEq Tok] in
theorem strictOrder_injective (W : Tok → Nat) : Function.Injective (strictOrder W) := by
  intro t u h
  have h1 := le_antisymm (strictOrder_le (le_of_eq h)) (strictOrder_le (le_of_eq h.symm))
  unfold strictOrder at h
  rw [h1] at h
  exact (Fintype.equivFin Tok).injective (Fin.ext (by omega))

variable {n : Nat} {W : Nat → Tok → Nat} {D : Nat → Tok → V} {A B : List Tok}

omit [Fintype Tok] [DecidableEq Tok] [DecidableEq V] in
theorem MinSig.at {l : List Tok} {s : List V} (hWD : ∀ i t u, W i t = W i u → D i t = D i u) (h : MinSig n W D l s)
    {i : Nat} (hi : i < n) {t : Tok} (ht : t ∈ l) (hl : ∀ u ∈ l, W i t ≤ W i u) : s[i]? = some (D i t) := by
  obtain ⟨a, ha, h1, h2⟩ := h.comp i hi
  rw [h2, hWD i a t (le_antisymm (h1 t ht) (hl a ha))]

omit [Fintype Tok] [DecidableEq V] in
/-- The least token of the union is common: the component agrees. -/
theorem agree_of_common {s s' : List V} (hWD : ∀ i t u, W i t = W i u → D i t = D i u) (h : MinSig n W D A s)
    (h' : MinSig n W D B s') {i : Nat} (hi : i < n)
    (hc : ∃ u ∈ A.toFinset ∩ B.toFinset, ∀ v ∈ A.toFinset ∪ B.toFinset, W i u ≤ W i v) : s[i]? = s'[i]? := by
  simp only [Finset.mem_inter, Finset.mem_union, List.mem_toFinset] at hc
  obtain ⟨u, ⟨h1, h2⟩, h3⟩ := hc
  rw [h.at hWD hi h1 fun v hv => h3 v (.inl hv), h'.at hWD hi h2 fun v hv => h3 v (.inr hv)]

omit [Fintype Tok] [DecidableEq V] in
/-- A component agrees because the least token of the union is common, or because two tokens collide. -/
theorem common_of_agree {s s' : List V} (hWD : ∀ i t u, W i t = W i u → D i t = D i u) (h : MinSig n W D A s)
    (h' : MinSig n W D B s') {i : Nat} (hi : i < n) (hA : A ≠ []) (hB : B ≠ []) (R : Tok → Nat)
    (hR : ∀ t u, R t ≤ R u → W i t ≤ W i u) (he : s[i]? = s'[i]?) :
    (∃ u ∈ A.toFinset ∩ B.toFinset, ∀ v ∈ A.toFinset ∪ B.toFinset, R u ≤ R v) ∨
      ∃ u ∈ A.toFinset, ∃ v ∈ B.toFinset, u ≠ v ∧ D i u = D i v := by
  obtain ⟨a0, ha0⟩ := List.exists_mem_of_ne_nil A hA
  obtain ⟨b0, hb0⟩ := List.exists_mem_of_ne_nil B hB
  obtain ⟨a, ha, ha'⟩ := Finset.exists_min_image A.toFinset R ⟨a0, List.mem_toFinset.mpr ha0⟩
  obtain ⟨b, hb, hb'⟩ := Finset.exists_min_image B.toFinset R ⟨b0, List.mem_toFinset.mpr hb0⟩
  by_cases hab : a = b
  · subst hab
    refine .inl ⟨a, Finset.mem_inter.mpr ⟨ha, hb⟩, fun v hv => ?_⟩
    rcases Finset.mem_union.mp hv with hv | hv
    · exact ha' v hv
    · exact hb' v hv
  · refine .inr ⟨a, ha, b, hb, hab, ?_⟩
    have e1 := h.at hWD hi (List.mem_toFinset.mp ha) fun u hu => hR a u (ha' u (List.mem_toFinset.mpr hu))
    have e2 := h'.at hWD hi (List.mem_toFinset.mp hb) fun u hu => hR b u (hb' u (List.mem_toFinset.mpr hu))
    rw [e1, e2] at he
    exact Option.some_inj.mp he

variable {sig : Equiv.Perm Tok → List Tok → List V}

theorem sum_agree_eq (hsig : ∀ π l, l ≠ [] → MinSig n (fun i t => W i (π t)) (fun i t => D i (π t)) l (sig π l))
    (hA : A ≠ []) :
    ∑ π : Equiv.Perm Tok, agree (sig π A) (sig π B) = ∑ i ∈ Finset.range n,
      (Finset.univ.filter fun π : Equiv.Perm Tok => (sig π A)[i]? = (sig π B)[i]?).card := by
  simp_rw [Finset.card_filter]
  rw [Finset.sum_comm]
  refine Finset.sum_congr rfl fun π _ => ?_
  unfold agree
  rw [(hsig π A hA).length, Finset.card_filter]

theorem mean_ge (hWD : ∀ i t u, W i t = W i u → D i t = D i u)
    (hsig : ∀ π l, l ≠ [] → MinSig n (fun i t => W i (π t)) (fun i t => D i (π t)) l (sig π l)) (hA : A ≠ [])
    (hB : B ≠ []) :
    n * Fintype.card (Equiv.Perm Tok) * (A.toFinset ∩ B.toFinset).card ≤
      (∑ π : Equiv.Perm Tok, agree (sig π A) (sig π B)) * (A.toFinset ∪ B.toFinset).card := by
  have hU : (A.toFinset ∪ B.toFinset).Nonempty := by
    obtain ⟨a, ha⟩ := List.exists_mem_of_ne_nil A hA
    exact ⟨a, by simp [ha]⟩
  rw [sum_agree_eq hsig hA, Finset.sum_mul, mul_assoc, ← smul_eq_mul (a := n)]
  conv_lhs => rw [← Finset.card_range n]
  refine Finset.card_nsmul_le_sum _ _ _ fun i hi => ?_
  have hi := Finset.mem_range.mp hi
  rw [← least_in_subset (strictOrder_injective (W i)) (S := A.toFinset ∩ B.toFinset) (U := A.toFinset ∪ B.toFinset)
    (Finset.inter_subset_left.trans Finset.subset_union_left) hU]
  refine Nat.mul_le_mul_right _ (Finset.card_le_card fun π hπ => ?_)
  obtain ⟨u, hu, h⟩ := (Finset.mem_filter.mp hπ).2
  refine Finset.mem_filter.mpr ⟨Finset.mem_univ _, agree_of_common (W := fun i t => W i (π t))
    (fun i t u => hWD i (π t) (π u)) (hsig π A hA) (hsig π B hB) hi ⟨u, hu, fun v hv => strictOrder_le (h v hv)⟩⟩

omit [Fintype Tok] [DecidableEq Tok] in
theorem agree_singles (hWD : ∀ i t u, W i t = W i u → D i t = D i u)
    (hsig : ∀ π l, l ≠ [] → MinSig n (fun i t => W i (π t)) (fun i t => D i (π t)) l (sig π l)) (t t' : Tok) :
    agree (sig 1 [t]) (sig 1 [t']) = ((Finset.range n).filter fun i => D i t = D i t').card := by
  unfold agree
  rw [(hsig 1 [t] (by simp)).length]
  refine congrArg _ (Finset.filter_congr fun i hi => ?_)
  have hi := Finset.mem_range.mp hi
  have e : ∀ t : Tok, (sig 1 [t])[i]? = some (D i t) := fun t =>
    (hsig 1 [t] (by simp)).at (fun i t u => hWD i _ _) hi (List.mem_singleton.mpr rfl) (by simp)
  rw [e, e, Option.some_inj]

theorem mean_le (hWD : ∀ i t u, W i t = W i u → D i t = D i u)
    (hsig : ∀ π l, l ≠ [] → MinSig n (fun i t => W i (π t)) (fun i t => D i (π t)) l (sig π l)) (hA : A ≠ [])
    (hB : B ≠ []) :
    (∑ π : Equiv.Perm Tok, agree (sig π A) (sig π B)) * (A.toFinset ∪ B.toFinset).card *
        (Fintype.card Tok * (Fintype.card Tok - 1)) ≤
      n * Fintype.card (Equiv.Perm Tok) * (A.toFinset ∩ B.toFinset).card *
        (Fintype.card Tok * (Fintype.card Tok - 1)) +
      A.toFinset.card * B.toFinset.card * (A.toFinset ∪ B.toFinset).card * Fintype.card (Equiv.Perm Tok) *
        ∑ p ∈ (Finset.univ : Finset Tok).offDiag, agree (sig 1 [p.1]) (sig 1 [p.2]) := by
  have hU : (A.toFinset ∪ B.toFinset).Nonempty := by
    obtain ⟨a, ha⟩ := List.exists_mem_of_ne_nil A hA
    exact ⟨a, by simp [ha]⟩
  generalize hN : Fintype.card Tok * (Fintype.card Tok - 1) = N
  generalize hP : Fintype.card (Equiv.Perm Tok) = P
  have hcol : ∑ p ∈ (Finset.univ : Finset Tok).offDiag, agree (sig 1 [p.1]) (sig 1 [p.2]) =
      ∑ i ∈ Finset.range n, ((Finset.univ : Finset Tok).offDiag.filter fun p => D i p.1 = D i p.2).card := by
    simp_rw [agree_singles hWD hsig, Finset.card_filter]
    exact Finset.sum_comm
  rw [hcol, sum_agree_eq hsig hA, Finset.sum_mul, Finset.sum_mul, Finset.mul_sum]
  have hc : n * P * (A.toFinset ∩ B.toFinset).card * N =
      ∑ _i ∈ Finset.range n, P * (A.toFinset ∩ B.toFinset).card * N := by
    rw [Finset.sum_const, Finset.card_range, smul_eq_mul]; ring
  rw [hc, ← Finset.sum_add_distrib]
  refine Finset.sum_le_sum fun i hi => ?_
  have hi := Finset.mem_range.mp hi
  have h1 := least_in_subset (strictOrder_injective (W i)) (S := A.toFinset ∩ B.toFinset)
    (U := A.toFinset ∪ B.toFinset) (Finset.inter_subset_left.trans Finset.subset_union_left) hU
  rw [hP] at h1
  set E := Finset.univ.filter fun π : Equiv.Perm Tok => ∃ u ∈ A.toFinset ∩ B.toFinset,
    ∀ v ∈ A.toFinset ∪ B.toFinset, strictOrder (W i) (π u) ≤ strictOrder (W i) (π v) with hE
  set Q := (A.toFinset ×ˢ B.toFinset).filter fun p => p.1 ≠ p.2 with hQ
  set K : Tok × Tok → Finset (Equiv.Perm Tok) := fun p =>
    Finset.univ.filter fun π : Equiv.Perm Tok => D i (π p.1) = D i (π p.2) with hK
  set c := ((Finset.univ : Finset Tok).offDiag.filter fun p => D i p.1 = D i p.2).card with hcc
  have h2 : ∀ p ∈ Q, (K p).card * N = P * c := by
    intro p hp
    rw [← hN, ← hP]
    exact pair_card (fun t t' => D i t = D i t') (Finset.mem_filter.mp hp).2
  have h3 : (Finset.univ.filter fun π : Equiv.Perm Tok => (sig π A)[i]? = (sig π B)[i]?) ⊆ E ∪ Q.biUnion K := by
    intro π hπ
    have hπ := (Finset.mem_filter.mp hπ).2
    rw [Finset.mem_union]
    rcases common_of_agree (W := fun i t => W i (π t)) (fun i t u => hWD i (π t) (π u)) (hsig π A hA) (hsig π B hB) hi
      hA hB (fun t => strictOrder (W i) (π t)) (fun t u => strictOrder_le) hπ with h | ⟨u, hu, v, hv, huv, he⟩
    · exact .inl (Finset.mem_filter.mpr ⟨Finset.mem_univ _, h⟩)
    · exact .inr (Finset.mem_biUnion.mpr ⟨(u, v), Finset.mem_filter.mpr ⟨Finset.mem_product.mpr ⟨hu, hv⟩, huv⟩,
        Finset.mem_filter.mpr ⟨Finset.mem_univ _, he⟩⟩)
  have h4 : (Q.biUnion K).card * N ≤ A.toFinset.card * B.toFinset.card * (P * c) := by
    calc (Q.biUnion K).card * N ≤ (∑ p ∈ Q, (K p).card) * N := Nat.mul_le_mul_right _ Finset.card_biUnion_le
      _ = ∑ p ∈ Q, P * c := by rw [Finset.sum_mul]; exact Finset.sum_congr rfl h2
      _ = Q.card * (P * c) := by rw [Finset.sum_const, smul_eq_mul]
      _ ≤ _ := by
        refine Nat.mul_le_mul_right _ ?_
        rw [← Finset.card_product]
        exact Finset.card_filter_le _ _
  set U := (A.toFinset ∪ B.toFinset).card
  calc _ ≤ (E ∪ Q.biUnion K).card * U * N :=
        Nat.mul_le_mul_right _ (Nat.mul_le_mul_right _ (Finset.card_le_card h3))
    _ ≤ (E.card + (Q.biUnion K).card) * U * N :=
        Nat.mul_le_mul_right _ (Nat.mul_le_mul_right _ (Finset.card_union_le _ _))
    _ = E.card * U * N + (Q.biUnion K).card * N * U := by ring
    _ ≤ P * (A.toFinset ∩ B.toFinset).card * N + A.toFinset.card * B.toFinset.card * (P * c) * U := by
        rw [h1]
        exact Nat.add_le_add_left (Nat.mul_le_mul_right _ h4) _
    _ = _ := by ring

theorem mean_bounds (hn : 0 < n) (hWD : ∀ i t u, W i t = W i u → D i t = D i u)
    (hsig : ∀ π l, l ≠ [] → MinSig n (fun i t => W i (π t)) (fun i t => D i (π t)) l (sig π l)) (hA : A ≠ [])
    (hB : B ≠ []) :
    jaccard A B ≤ meanAgreement n sig A B ∧ meanAgreement n sig A B ≤
      jaccard A B + A.toFinset.card * B.toFinset.card * collisionRate n fun t => sig 1 [t] := by
  have h1 := mean_ge hWD hsig hA hB
  have h2 := mean_le hWD hsig hA hB
  have hU : 0 < (A.toFinset ∪ B.toFinset).card := by
    obtain ⟨a, ha⟩ := List.exists_mem_of_ne_nil A hA
    exact Finset.card_pos.mpr ⟨a, by simp [ha]⟩
  have hP : 0 < Fintype.card (Equiv.Perm Tok) := Fintype.card_pos
  unfold meanAgreement jaccard collisionRate
  generalize hU' : (A.toFinset ∪ B.toFinset).card = U at *
  generalize hI' : (A.toFinset ∩ B.toFinset).card = I at *
  generalize hP' : Fintype.card (Equiv.Perm Tok) = P at *
  generalize hS' : (∑ π : Equiv.Perm Tok, agree (sig π A) (sig π B)) = S at *
  have rU : (0 : ℝ) < U := by exact_mod_cast hU
  have rP : (0 : ℝ) < P := by exact_mod_cast hP
  have rn : (0 : ℝ) < n := by exact_mod_cast hn
  constructor
  · rw [div_le_div_iff₀ rU (mul_pos rn rP)]
    have : ((n * P * I : Nat) : ℝ) ≤ ((S * U : Nat) : ℝ) := by exact_mod_cast h1
    push_cast at this
    nlinarith
  · rcases Nat.eq_zero_or_pos (Fintype.card Tok * (Fintype.card Tok - 1)) with h0 | h0
    · have hone : Fintype.card Tok ≤ 1 := by
        rcases Nat.mul_eq_zero.mp h0 with h | h <;> omega
      have hAB : A.toFinset = B.toFinset := by
        have : Subsingleton Tok := Fintype.card_le_one_iff_subsingleton.mp hone
        obtain ⟨a, ha⟩ := List.exists_mem_of_ne_nil A hA
        obtain ⟨b, hb⟩ := List.exists_mem_of_ne_nil B hB
        ext t
        rw [List.mem_toFinset, List.mem_toFinset, Subsingleton.elim t a]
        refine iff_of_true ha ?_
        rw [Subsingleton.elim a b]
        exact hb
      have hIU : I = U := by rw [← hU', ← hI', hAB, Finset.inter_self, Finset.union_self]
      have hS : S ≤ P * n := by
        rw [← hS', ← hP', ← smul_eq_mul, ← Finset.card_univ]
        refine Finset.sum_le_card_nsmul _ _ _ fun π _ => ?_
        unfold agree
        rw [(hsig π A hA).length]
        exact (Finset.card_filter_le _ _).trans (by simp)
      rw [h0, hIU, Nat.cast_zero, mul_zero, div_zero, mul_zero, add_zero, div_self rU.ne', div_le_one (mul_pos rn rP)]
      have : (S : ℝ) ≤ ((P * n : Nat) : ℝ) := by exact_mod_cast hS
      push_cast at this
      linarith
    · generalize hN : Fintype.card Tok * (Fintype.card Tok - 1) = N at *
      generalize (∑ p ∈ (Finset.univ : Finset Tok).offDiag, agree (sig 1 [p.1]) (sig 1 [p.2])) = C at *
      have rN : (0 : ℝ) < N := by exact_mod_cast h0
      rw [← mul_div_assoc, div_add_div _ _ rU.ne' (mul_pos rn rN).ne', div_le_div_iff₀ (mul_pos rn rP)
        (mul_pos rU (mul_pos rn rN))]
      have : ((S * U * N : Nat) : ℝ) ≤ ((n * P * I * N + A.toFinset.card * B.toFinset.card * U * P * C : Nat) : ℝ) := by
        exact_mod_cast h2
      push_cast at this
      have := mul_le_mul_of_nonneg_left this rn.le
      nlinarith

/-- Documents of one token each: the mean agreement is the collision rate. -/
theorem mean_singles (hWD : ∀ i t u, W i t = W i u → D i t = D i u)
    (hsig : ∀ π l, l ≠ [] → MinSig n (fun i t => W i (π t)) (fun i t => D i (π t)) l (sig π l)) {u v : Tok}
    (h : u ≠ v) : meanAgreement n sig [u] [v] = collisionRate n fun t => sig 1 [t] := by
  have h1 : (∑ π : Equiv.Perm Tok, agree (sig π [u]) (sig π [v])) * (Fintype.card Tok * (Fintype.card Tok - 1)) =
      Fintype.card (Equiv.Perm Tok) *
        ∑ p ∈ (Finset.univ : Finset Tok).offDiag, agree (sig 1 [p.1]) (sig 1 [p.2]) := by
    have hcol : ∑ p ∈ (Finset.univ : Finset Tok).offDiag, agree (sig 1 [p.1]) (sig 1 [p.2]) =
        ∑ i ∈ Finset.range n, ((Finset.univ : Finset Tok).offDiag.filter fun p => D i p.1 = D i p.2).card := by
      simp_rw [agree_singles hWD hsig, Finset.card_filter]
      exact Finset.sum_comm
    rw [hcol, sum_agree_eq hsig (by simp), Finset.sum_mul, Finset.mul_sum]
    refine Finset.sum_congr rfl fun i hi => ?_
    have hi := Finset.mem_range.mp hi
    rw [← pair_card (fun t t' => D i t = D i t') h]
    refine congrArg (fun x => Finset.card x * _) (Finset.filter_congr fun π _ => ?_)
    have e : ∀ t : Tok, (sig π [t])[i]? = some (D i (π t)) := fun t =>
      (hsig π [t] (by simp)).at (fun i t u => hWD i _ _) hi (List.mem_singleton.mpr rfl) (by simp)
    rw [e, e, Option.some_inj]
  have hN : 0 < Fintype.card Tok * (Fintype.card Tok - 1) := by
    have := Fintype.one_lt_card_iff.mpr ⟨u, v, h⟩
    exact Nat.mul_pos (by omega) (by omega)
  have hP : 0 < Fintype.card (Equiv.Perm Tok) := Fintype.card_pos
  unfold meanAgreement collisionRate
  have rN : ((Fintype.card Tok * (Fintype.card Tok - 1) : Nat) : ℝ) ≠ 0 := by exact_mod_cast hN.ne'
  have rP : ((Fintype.card (Equiv.Perm Tok) : Nat) : ℝ) ≠ 0 := by exact_mod_cast hP.ne'
  have h1 := congrArg (Nat.cast (R := ℝ)) h1
  push_cast [Nat.cast_mul] at h1 rN ⊢
  rcases Nat.eq_zero_or_pos n with rfl | hn
  · simp
  have rn : (n : ℝ) ≠ 0 := by exact_mod_cast hn.ne'
  rw [div_eq_div_iff (mul_ne_zero rn rP) (mul_ne_zero rn rN)]
  linear_combination (n : ℝ) * h1

omit [DecidableEq V] in
/-- Few values, many tokens: collisions. -/
theorem collisions_ge {M : Nat} (f : Tok → Nat) (hf : ∀ t, f t < M) :
    Fintype.card Tok * Fintype.card Tok ≤
      M * (((Finset.univ : Finset Tok).offDiag.filter fun p => f p.1 = f p.2).card + Fintype.card Tok) := by
  have h1 := sq_sum_le_card_mul_sum_sq (s := Finset.range M)
    (f := fun x => ((Finset.univ.filter fun t => f t = x).card : ℤ))
  have h2 : ∑ x ∈ Finset.range M, (Finset.univ.filter fun t => f t = x).card = Fintype.card Tok := by
    rw [← Finset.card_univ]
    exact (Finset.card_eq_sum_card_fiberwise fun t _ => by simpa using hf t).symm
  have h3 : ∑ x ∈ Finset.range M, (Finset.univ.filter fun t => f t = x).card ^ 2 =
      ((Finset.univ : Finset Tok).offDiag.filter fun p => f p.1 = f p.2).card + Fintype.card Tok := by
    have e1 : (Finset.univ.filter fun p : Tok × Tok => f p.1 = f p.2).card =
        ((Finset.univ : Finset Tok).offDiag.filter fun p => f p.1 = f p.2).card + Fintype.card Tok := by
      have : (Finset.univ.filter fun p : Tok × Tok => f p.1 = f p.2) =
          ((Finset.univ : Finset Tok).offDiag.filter fun p => f p.1 = f p.2) ∪ (Finset.univ : Finset Tok).diag := by
        ext ⟨a, b⟩
        simp only [Finset.mem_filter, Finset.mem_univ, true_and, Finset.mem_union, Finset.mem_offDiag,
          Finset.mem_diag]
        by_cases hab : a = b
        · simp [hab]
        · simp [hab]
      rw [this, Finset.card_union_of_disjoint, Finset.diag_card, Finset.card_univ]
      rw [Finset.disjoint_left]
      rintro ⟨a, b⟩ h h'
      exact (Finset.mem_offDiag.mp (Finset.mem_filter.mp h).1).2.2 (Finset.mem_diag.mp h').2
    rw [← e1, Finset.card_eq_sum_card_fiberwise (f := fun p => f p.1) (t := Finset.range M)
      fun p _ => by simpa using hf p.1]
    refine Finset.sum_congr rfl fun x _ => ?_
    rw [sq, ← Finset.card_product]
    congr 1
    ext ⟨a, b⟩
    simp only [Finset.mem_product, Finset.mem_filter, Finset.mem_univ, true_and]
    constructor
    · rintro ⟨rfl, h⟩; exact ⟨h.symm, rfl⟩
    · rintro ⟨h, rfl⟩; exact ⟨rfl, h.symm⟩
  rw [← h3, ← sq]
  conv_lhs => rw [← h2]
  rw [Finset.card_range] at h1
  exact_mod_cast h1

/-- With `M` values for `N` tokens the collision rate is at least `(N - M) / (M (N - 1))`. -/
theorem rate_ge {M : Nat} (hn : 0 < n) (hWD : ∀ i t u, W i t = W i u → D i t = D i u)
    (hsig : ∀ π l, l ≠ [] → MinSig n (fun i t => W i (π t)) (fun i t => D i (π t)) l (sig π l))
    (val : V → Nat) (hval : Function.Injective val) (hM : ∀ i < n, ∀ t, val (D i t) < M)
    (hN : 1 < Fintype.card Tok) :
    ((Fintype.card Tok : ℝ) - M) / (M * ((Fintype.card Tok : ℝ) - 1)) ≤ collisionRate n fun t => sig 1 [t] := by
  have hcol : ∑ p ∈ (Finset.univ : Finset Tok).offDiag, agree (sig 1 [p.1]) (sig 1 [p.2]) =
      ∑ i ∈ Finset.range n, ((Finset.univ : Finset Tok).offDiag.filter fun p => D i p.1 = D i p.2).card := by
    simp_rw [agree_singles hWD hsig, Finset.card_filter]
    exact Finset.sum_comm
  have h1 : n * (Fintype.card Tok * Fintype.card Tok) ≤
      M * (∑ p ∈ (Finset.univ : Finset Tok).offDiag, agree (sig 1 [p.1]) (sig 1 [p.2]) + n * Fintype.card Tok) := by
    have : ∀ i ∈ Finset.range n, Fintype.card Tok * Fintype.card Tok ≤
        M * (((Finset.univ : Finset Tok).offDiag.filter fun p => D i p.1 = D i p.2).card + Fintype.card Tok) := by
      intro i hi
      have := collisions_ge (fun t => val (D i t)) (hM i (Finset.mem_range.mp hi))
      simpa only [hval.eq_iff] using this
    have := Finset.sum_le_sum this
    rw [Finset.sum_const, ← Finset.mul_sum, Finset.sum_add_distrib, ← hcol] at this
    simpa using this
  have hM0 : 0 < M := by
    obtain ⟨t⟩ : Nonempty Tok := Fintype.card_pos_iff.mp (by omega)
    exact Nat.lt_of_le_of_lt (Nat.zero_le _) (hM 0 hn t)
  unfold collisionRate
  generalize (∑ p ∈ (Finset.univ : Finset Tok).offDiag, agree (sig 1 [p.1]) (sig 1 [p.2])) = C at *
  generalize Fintype.card Tok = N at *
  have rn : (0 : ℝ) < n := by exact_mod_cast hn
  have rM : (0 : ℝ) < M := by exact_mod_cast hM0
  have rN : (1 : ℝ) < N := by exact_mod_cast hN
  have h1 : ((n * (N * N) : Nat) : ℝ) ≤ ((M * (C + n * N) : Nat) : ℝ) := by exact_mod_cast h1
  push_cast [Nat.cast_sub hN.le] at h1 ⊢
  rw [div_le_div_iff₀ (mul_pos rM (by linarith)) (mul_pos rn (mul_pos (by linarith) (by linarith)))]
  have := mul_le_mul_of_nonneg_right h1 (by linarith : (0 : ℝ) ≤ N - 1)
  nlinarith

end collisions

/-! ### The hashers -/

theorem sig64_minSig (g : Rng) (n : Nat) (hash : Tok → UInt64) (seed : UInt64) :
    ∃ (W : Nat → Tok → Nat) (D : Nat → Tok → UInt64), (∀ i t u, W i t = W i u → D i t = D i u) ∧
      ∀ (f : Tok → Tok) l s, l ≠ [] →
        (MinHasher64.newWithHasherAndSeed g n (fun t => hash (f t)) seed).createSignature l = .ok s →
        MinSig n (fun i t => W i (f t)) (fun i t => D i (f t)) l s := by
  obtain ⟨a, b, _, _, _, _, _, h⟩ := C04_minima_64 g n seed
  refine ⟨fun i t => (((hash t).toNat * a.getD i 0 + b.getD i 0) % 2 ^ 64) % (2 ^ 61 - 1),
    fun i t => UInt64.ofNat ((((hash t).toNat * a.getD i 0 + b.getD i 0) % 2 ^ 64) % (2 ^ 61 - 1)),
    fun i t u e => congrArg UInt64.ofNat e, fun f l s hl e => ?_⟩
  obtain ⟨s', e', h1, h2⟩ := h Tok (fun t => hash (f t)) l hl
  have := e.symm.trans e'
  cases this
  refine ⟨h1, fun i hi => ?_⟩
  obtain ⟨ai, bi, x, ha, hb, hx, _, ⟨t, ht, ht'⟩, hm⟩ := h2 i hi
  refine ⟨t, ht, fun u hu => ?_, ?_⟩
  · simp only [List.getD_eq_getElem?_getD, ha, hb, Option.getD_some]
    rw [← ht']
    exact hm u hu
  · simp only [List.getD_eq_getElem?_getD, ha, hb, Option.getD_some]
    rw [← ht', hx, UInt64.ofNat_toNat]

theorem sigN_minSig {V : Type} (cast : UInt32 → V) (zero : V) (g : Rng) (n : Nat) (hash : Tok → UInt64)
    (seed : UInt64) :
    ∃ (W : Nat → Tok → Nat) (D : Nat → Tok → V), (∀ i t u, W i t = W i u → D i t = D i u) ∧
      ∀ (f : Tok → Tok) l s, l ≠ [] →
        (MinHasherN.newWithHasherAndSeed g n (fun t => hash (f t)) seed).createSignature cast zero l = .ok s →
        MinSig n (fun i t => W i (f t)) (fun i t => D i (f t)) l s := by
  obtain ⟨a, b, _, _, _, _, _, h⟩ := C04_minima_narrow g n seed
  refine ⟨fun i t => (((hash t).toNat % 2 ^ 32 * a.getD i 0 + b.getD i 0) % 2 ^ 32) % (2 ^ 31 - 1),
    fun i t => cast (UInt32.ofNat ((((hash t).toNat % 2 ^ 32 * a.getD i 0 + b.getD i 0) % 2 ^ 32) % (2 ^ 31 - 1))),
    fun i t u e => congrArg (fun x => cast (UInt32.ofNat x)) e, fun f l s hl e => ?_⟩
  obtain ⟨s32, _, _, e32, _, _, h1, h2⟩ := h Tok (fun t => hash (f t)) l hl
  have hs : s = s32.map cast := by
    unfold MinHasherN.sig32 at e32
    rw [createSignature_cons _ _ _ hl] at e e32
    cases e
    cases e32
    rw [List.map_map]
    rfl
  subst hs
  refine ⟨by rw [List.length_map, h1], fun i hi => ?_⟩
  obtain ⟨ai, bi, x, ha, hb, hx, _, _, _, ⟨t, ht, ht'⟩, hm⟩ := h2 i hi
  refine ⟨t, ht, fun u hu => ?_, ?_⟩
  · simp only [List.getD_eq_getElem?_getD, ha, hb, Option.getD_some]
    rw [← ht']
    exact hm u hu
  · simp only [List.getD_eq_getElem?_getD, ha, hb, Option.getD_some]
    rw [← ht', List.getElem?_map, hx, UInt32.ofNat_toNat]
    rfl

open SuperMinHasher in
theorem super_map (g : SuperRng) (hash : Tok → UInt64) (n : Nat) (f : Tok → Tok) (l : List Tok) :
    createSignature1 g ⟨fun t => hash (f t), n⟩ l = createSignature1 g ⟨hash, n⟩ (l.map f) := by
  unfold createSignature1
  rw [List.foldlM_map]
  rfl

open SuperMinHasher in
theorem super_minSig (g : SuperRng) (hash : Tok → UInt64) (n : Nat) (hn : n ≤ 2 ^ 24) :
    ∃ (W : Nat → Tok → Nat) (D : Nat → Tok → UInt32), (∀ i t u, W i t = W i u → D i t = D i u) ∧
      (∀ i < n, ∀ t, (D i t).toNat < n + 1) ∧
      ∀ (f : Tok → Tok) l s, l ≠ [] → createSignature1 g ⟨fun t => hash (f t), n⟩ l = .ok s →
        MinSig n (fun i t => W i (f t)) (fun i t => D i (f t)) l s := by
  obtain ⟨rank, h1, h2⟩ := C90_minima g ⟨hash, n⟩ hn
  refine ⟨fun i t => rank t i, fun i t => UInt32.ofNat (rank t i), fun i t u e => congrArg UInt32.ofNat e,
    fun i hi t => ?_, fun f l s hl e => ?_⟩
  · obtain ⟨π, hπ, h⟩ := h1 t
    have hil : i < π.length := by rw [hπ.length_eq, List.length_range]; exact hi
    have hlt : π[i] < n := List.mem_range.mp (hπ.mem_iff.mp (List.getElem_mem hil))
    refine Nat.lt_of_le_of_lt (UInt32.toNat_ofNat' ▸ Nat.mod_le _ _ : _ ≤ rank t i) ?_
    rcases h i _ (List.getElem?_eq_getElem hil) with h | h <;> omega
  · rw [super_map] at e
    obtain ⟨s', e', h3, h4⟩ := h2 (l.map f) (by simpa using hl)
    have := e.symm.trans e'
    cases this
    refine ⟨h3, fun i hi => ?_⟩
    have hi' : i < s.length := by rw [h3]; exact hi
    obtain ⟨⟨t, ht, e1⟩, hm⟩ := h4 i _ (List.getElem?_eq_getElem hi')
    obtain ⟨u, hu, rfl⟩ := List.mem_map.mp ht
    refine ⟨u, hu, fun v hv => ?_, ?_⟩
    · show rank (f u) i ≤ rank (f v) i
      rw [← e1]
      exact hm _ (List.mem_map_of_mem hv)
    · show s[i]? = some (UInt32.ofNat (rank (f u) i))
      rw [← e1, List.getElem?_eq_getElem hi', UInt32.ofNat_toNat]

section main
variable [Fintype Tok] [DecidableEq Tok] (g : Rng) (n : Nat) (hn : 0 < n) (hash : Tok → UInt64) (seed : UInt64)
include hn

/-- C136 for MinHasher64V1: the mean agreement is at least the Jaccard similarity, and exceeds it by at most the
collision rate for each pair of tokens. -/
theorem C136_bounds_64 (A B : List Tok) (hA : A ≠ []) (hB : B ≠ []) :
    ∃ sig : Equiv.Perm Tok → List Tok → List UInt64,
      (∀ π l, (MinHasher64.newWithHasherAndSeed g n (fun t => hash (π t)) seed).createSignature l = .ok (sig π l)) ∧
      jaccard A B ≤ meanAgreement n sig A B ∧ meanAgreement n sig A B ≤
        jaccard A B + A.toFinset.card * B.toFinset.card * collisionRate n fun t => sig 1 [t] := by
  obtain ⟨W, D, hWD, h⟩ := sig64_minSig g n hash seed
  choose sig hsig _ using fun (π : Equiv.Perm Tok) l => sig64_length g n (fun t => hash (π t)) seed l
  exact ⟨sig, hsig, mean_bounds hn hWD (fun π l hl => h π l _ hl (hsig π l)) hA hB⟩

/-- C136 for MinHasher32. -/
theorem C136_bounds_32 (A B : List Tok) (hA : A ≠ []) (hB : B ≠ []) :
    ∃ sig : Equiv.Perm Tok → List Tok → List UInt32,
      (∀ π l, (MinHasherN.newWithHasherAndSeed g n (fun t => hash (π t)) seed).sig32 l = .ok (sig π l)) ∧
      jaccard A B ≤ meanAgreement n sig A B ∧ meanAgreement n sig A B ≤
        jaccard A B + A.toFinset.card * B.toFinset.card * collisionRate n fun t => sig 1 [t] := by
  obtain ⟨W, D, hWD, h⟩ := sigN_minSig (fun h => h) 0 g n hash seed
  choose sig hsig _ using fun (π : Equiv.Perm Tok) l =>
    sigN_length (fun h => h) (0 : UInt32) g n (fun t => hash (π t)) seed l
  exact ⟨sig, hsig, mean_bounds hn hWD (fun π l hl => h π l _ hl (hsig π l)) hA hB⟩

/-- C136 for MinHasher16. -/
theorem C136_bounds_16 (A B : List Tok) (hA : A ≠ []) (hB : B ≠ []) :
    ∃ sig : Equiv.Perm Tok → List Tok → List UInt16,
      (∀ π l, (MinHasherN.newWithHasherAndSeed g n (fun t => hash (π t)) seed).sig16 l = .ok (sig π l)) ∧
      jaccard A B ≤ meanAgreement n sig A B ∧ meanAgreement n sig A B ≤
        jaccard A B + A.toFinset.card * B.toFinset.card * collisionRate n fun t => sig 1 [t] := by
  obtain ⟨W, D, hWD, h⟩ := sigN_minSig UInt32.toUInt16 0 g n hash seed
  choose sig hsig _ using fun (π : Equiv.Perm Tok) l =>
    sigN_length UInt32.toUInt16 0 g n (fun t => hash (π t)) seed l
  exact ⟨sig, hsig, mean_bounds hn hWD (fun π l hl => h π l _ hl (hsig π l)) hA hB⟩

/-- C136 for MinHasher8. -/
theorem C136_bounds_8 (A B : List Tok) (hA : A ≠ []) (hB : B ≠ []) :
    ∃ sig : Equiv.Perm Tok → List Tok → List UInt8,
      (∀ π l, (MinHasherN.newWithHasherAndSeed g n (fun t => hash (π t)) seed).sig8 l = .ok (sig π l)) ∧
      jaccard A B ≤ meanAgreement n sig A B ∧ meanAgreement n sig A B ≤
        jaccard A B + A.toFinset.card * B.toFinset.card * collisionRate n fun t => sig 1 [t] := by
  obtain ⟨W, D, hWD, h⟩ := sigN_minSig UInt32.toUInt8 0 g n hash seed
  choose sig hsig _ using fun (π : Equiv.Perm Tok) l =>
    sigN_length UInt32.toUInt8 0 g n (fun t => hash (π t)) seed l
  exact ⟨sig, hsig, mean_bounds hn hWD (fun π l hl => h π l _ hl (hsig π l)) hA hB⟩

/-- C136 for MinHasher16: in a universe of `N` tokens two different tokens (Jaccard similarity 0) agree on average in
at least `(N - 2^16) / (2^16 (N - 1))` of the components. -/
theorem C136_bias_16 (u v : Tok) (huv : u ≠ v) :
    ∃ sig : Equiv.Perm Tok → List Tok → List UInt16,
      (∀ π l, (MinHasherN.newWithHasherAndSeed g n (fun t => hash (π t)) seed).sig16 l = .ok (sig π l)) ∧
      jaccard [u] [v] = 0 ∧
      ((Fintype.card Tok : ℝ) - 65536) / (65536 * ((Fintype.card Tok : ℝ) - 1)) ≤ meanAgreement n sig [u] [v] := by
  obtain ⟨W, D, hWD, h⟩ := sigN_minSig UInt32.toUInt16 0 g n hash seed
  choose sig hsig _ using fun (π : Equiv.Perm Tok) l =>
    sigN_length UInt32.toUInt16 0 g n (fun t => hash (π t)) seed l
  have hm := fun π l hl => h (π : Equiv.Perm Tok) l _ hl (hsig π l)
  refine ⟨sig, hsig, by simp [jaccard, huv], ?_⟩
  rw [mean_singles hWD hm huv]
  exact_mod_cast rate_ge (M := 65536) hn hWD hm UInt16.toNat (fun x y h => UInt16.toNat_inj.mp h)
    (fun i _ t => (D i t).toNat_lt) (Fintype.one_lt_card_iff.mpr ⟨u, v, huv⟩)

/-- C136 for MinHasher8: at least `(N - 256) / (256 (N - 1))`, which tends to 1/256. -/
theorem C136_bias_8 (u v : Tok) (huv : u ≠ v) :
    ∃ sig : Equiv.Perm Tok → List Tok → List UInt8,
      (∀ π l, (MinHasherN.newWithHasherAndSeed g n (fun t => hash (π t)) seed).sig8 l = .ok (sig π l)) ∧
      jaccard [u] [v] = 0 ∧
      ((Fintype.card Tok : ℝ) - 256) / (256 * ((Fintype.card Tok : ℝ) - 1)) ≤ meanAgreement n sig [u] [v] := by
  obtain ⟨W, D, hWD, h⟩ := sigN_minSig UInt32.toUInt8 0 g n hash seed
  choose sig hsig _ using fun (π : Equiv.Perm Tok) l =>
    sigN_length UInt32.toUInt8 0 g n (fun t => hash (π t)) seed l
  have hm := fun π l hl => h (π : Equiv.Perm Tok) l _ hl (hsig π l)
  refine ⟨sig, hsig, by simp [jaccard, huv], ?_⟩
  rw [mean_singles hWD hm huv]
  exact_mod_cast rate_ge (M := 256) hn hWD hm UInt8.toNat (fun x y h => UInt8.toNat_inj.mp h)
    (fun i _ t => (D i t).toNat_lt) (Fintype.one_lt_card_iff.mpr ⟨u, v, huv⟩)

end main

section super
open SuperMinHasher
variable [Fintype Tok] [DecidableEq Tok] (g : SuperRng) (n : Nat) (hn : 0 < n) (hn' : n ≤ 2 ^ 24) (hash : Tok → UInt64)
include hn hn'

/-- C136 for SuperMinHasher32V1. -/
theorem C136_bounds_super (A B : List Tok) (hA : A ≠ []) (hB : B ≠ []) :
    ∃ sig : Equiv.Perm Tok → List Tok → List UInt32,
      (∀ π l, createSignature1 g ⟨fun t => hash (π t), n⟩ l = .ok (sig π l)) ∧
      jaccard A B ≤ meanAgreement n sig A B ∧ meanAgreement n sig A B ≤
        jaccard A B + A.toFinset.card * B.toFinset.card * collisionRate n fun t => sig 1 [t] := by
  obtain ⟨W, D, hWD, _, h⟩ := super_minSig g hash n hn'
  choose sig hsig _ using fun (π : Equiv.Perm Tok) l =>
    (C90_returns_iff g ⟨fun t => hash (π t), n⟩ l).mpr (.inr (Nat.lt_of_le_of_lt hn' (by decide)))
  exact ⟨sig, hsig, mean_bounds hn hWD (fun π l hl => h π l _ hl (hsig π l)) hA hB⟩

/-- C136 for SuperMinHasher32V1: only the integer part of a component is kept, so `num_hashes` components take at most
`num_hashes + 1` values, and two different tokens agree on average in at least `(N - n - 1) / ((n + 1) (N - 1))` of the
components. -/
theorem C136_bias_super (u v : Tok) (huv : u ≠ v) :
    ∃ sig : Equiv.Perm Tok → List Tok → List UInt32,
      (∀ π l, createSignature1 g ⟨fun t => hash (π t), n⟩ l = .ok (sig π l)) ∧ jaccard [u] [v] = 0 ∧
      ((Fintype.card Tok : ℝ) - (n + 1)) / ((n + 1) * ((Fintype.card Tok : ℝ) - 1)) ≤ meanAgreement n sig [u] [v] := by
  obtain ⟨W, D, hWD, hM, h⟩ := super_minSig g hash n hn'
  choose sig hsig _ using fun (π : Equiv.Perm Tok) l =>
    (C90_returns_iff g ⟨fun t => hash (π t), n⟩ l).mpr (.inr (Nat.lt_of_le_of_lt hn' (by decide)))
  have hm := fun π l hl => h (π : Equiv.Perm Tok) l _ hl (hsig π l)
  refine ⟨sig, hsig, by simp [jaccard, huv], ?_⟩
  rw [mean_singles hWD hm huv]
  exact_mod_cast rate_ge (M := n + 1) hn hWD hm UInt32.toNat (fun x y h => UInt32.toNat_inj.mp h) hM
    (Fintype.one_lt_card_iff.mpr ⟨u, v, huv⟩)

end super

/-- The hypotheses are met, with collisions: five tokens, of which 0 and 3 collide in every component (equal low bits),
two documents that share one token. -/
example : ∃ sig : Equiv.Perm (Fin 5) → List (Fin 5) → List UInt8,
    (∀ π l, (MinHasherN.newWithHasherAndSeed exRng 2 (fun t => (fun t : Fin 5 => UInt64.ofNat (t.val % 3 * 77)) (π t))
      5).sig8 l = .ok (sig π l)) ∧
    (1 : ℝ) / 3 ≤ meanAgreement 2 sig [0, 1] [1, 2] ∧
      meanAgreement 2 sig [0, 1] [1, 2] ≤ 1 / 3 + 4 * collisionRate 2 fun t => sig 1 [t] := by
  obtain ⟨sig, h1, h2, h3⟩ := C136_bounds_8 exRng 2 (by decide) (fun t : Fin 5 => UInt64.ofNat (t.val % 3 * 77)) 5
    [0, 1] [1, 2] (by decide) (by decide)
  have hj : jaccard ([0, 1] : List (Fin 5)) [1, 2] = 1 / 3 := by
    unfold jaccard
    rw [show (([0, 1] : List (Fin 5)).toFinset ∩ ([1, 2] : List (Fin 5)).toFinset).card = 1 by decide,
      show (([0, 1] : List (Fin 5)).toFinset ∪ ([1, 2] : List (Fin 5)).toFinset).card = 3 by decide]
    norm_num
  rw [hj] at h2 h3
  refine ⟨sig, h1, h2, h3.trans (le_of_eq ?_)⟩
  rw [show ([0, 1] : List (Fin 5)).toFinset.card = 2 by decide, show ([1, 2] : List (Fin 5)).toFinset.card = 2 by decide]
  norm_num

/-- The bias with numbers: 512 tokens and 8-bit hashes, two different tokens agree on average in at least 1/511 of the
components. -/
example : ∃ sig : Equiv.Perm (Fin 512) → List (Fin 512) → List UInt8,
    (∀ π l, (MinHasherN.newWithHasherAndSeed exRng 100 (fun t => (fun t : Fin 512 => UInt64.ofNat t.val) (π t))
      3).sig8 l = .ok (sig π l)) ∧ jaccard ([0] : List (Fin 512)) [1] = 0 ∧
    (1 : ℝ) / 511 ≤ meanAgreement 100 sig [0] [1] := by
  obtain ⟨sig, h1, h2, h3⟩ := C136_bias_8 exRng 100 (by decide) (fun t : Fin 512 => UInt64.ofNat t.val) 3 0 1 (by decide)
  refine ⟨sig, h1, h2, le_trans (le_of_eq ?_) h3⟩
  rw [Fintype.card_fin]
  norm_num

/-- SuperMinHash with 3 components and 100 tokens: at least 8/33. -/
example : ∃ sig : Equiv.Perm (Fin 100) → List (Fin 100) → List UInt32,
    (∀ π l, SuperMinHasher.createSignature1 exSuperRng
      ⟨fun t => (fun t : Fin 100 => UInt64.ofNat t.val) (π t), 3⟩ l = .ok (sig π l)) ∧
    jaccard ([0] : List (Fin 100)) [1] = 0 ∧ (8 : ℝ) / 33 ≤ meanAgreement 3 sig [0] [1] := by
  obtain ⟨sig, h1, h2, h3⟩ := C136_bias_super exSuperRng 3 (by decide) (by decide) (fun t : Fin 100 => UInt64.ofNat t.val)
    0 1 (by decide)
  refine ⟨sig, h1, h2, le_trans (le_of_eq ?_) h3⟩
  rw [Fintype.card_fin]
  norm_num

end Verif.Props
