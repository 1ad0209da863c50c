import Verif.Lemmas.AffineLower
import Verif.Props.RandomSlopes
import Verif.Props.Hoeffding

/-!
# Property C118: similar documents under randomly drawn coefficients

The hash functions are those of the code, which are not min-wise independent, and the coefficients are drawn uniformly:
the probability that a component agrees is still at least a constant times the Jaccard similarity.
-/
namespace Verif.Props
open Verif.Spec

/-! ### A token that alone has a small hash decides the minimum -/

section sole
variable {X Ω : Type} [DecidableEq X] [Fintype Ω]

/-- If every hash of a shared token is small with probability at least `α`, and small together with that of another token
with probability at most `β`, then one of the shared tokens alone is small with probability at least
`|I| (α - (|T| - 1) β)`. -/
theorem sole_small (T I : Finset X) (hI : I ⊆ T) (H : X → Ω → Nat) (τ : Nat) (α β : ℝ)
    (h1 : ∀ t ∈ I, α ≤ proportion fun ω => H t ω < τ)
    (h2 : ∀ t ∈ I, ∀ u ∈ T, u ≠ t → proportion (fun ω => H t ω < τ ∧ H u ω < τ) ≤ β) :
    I.card * (α - ((T.card : ℝ) - 1) * β) ≤
      proportion fun ω => ∃ t ∈ I, H t ω < τ ∧ ∀ u ∈ T, u ≠ t → τ ≤ H u ω := by
  classical
  have hone : ∀ t ∈ I, α - ((T.card : ℝ) - 1) * β ≤ proportion fun ω => H t ω < τ ∧ ∀ u ∈ T, u ≠ t → τ ≤ H u ω := by
    intro t ht
    have hle := proportion_exists_le (T.erase t).toList (fun u ω => H t ω < τ ∧ H u ω < τ) β (by
      intro u hu
      have hu := Finset.mem_erase.mp (Finset.mem_toList.mp hu)
      exact h2 t ht u hu.2 hu.1)
    rw [Finset.length_toList, Finset.card_erase_of_mem (hI ht), Nat.cast_sub (Finset.card_pos.mpr ⟨t, hI ht⟩),
      Nat.cast_one] at hle
    refine (sub_le_sub (h1 t ht) hle).trans ((proportion_sub _ _).trans (proportion_mono ?_))
    rintro ω ⟨h3, h4⟩
    refine ⟨h3, fun u hu hne => ?_⟩
    by_contra hlt
    exact h4 ⟨u, Finset.mem_toList.mpr (Finset.mem_erase.mpr ⟨hne, hu⟩), h3, by omega⟩
  have hsum : (proportion fun ω => ∃ t ∈ I, H t ω < τ ∧ ∀ u ∈ T, u ≠ t → τ ≤ H u ω) =
      ∑ t ∈ I, proportion fun ω => H t ω < τ ∧ ∀ u ∈ T, u ≠ t → τ ≤ H u ω := by
    simp only [proportion_eq]
    rw [← Finset.sum_div]
    congr 1
    have e : (Finset.univ.filter fun ω => ∃ t ∈ I, H t ω < τ ∧ ∀ u ∈ T, u ≠ t → τ ≤ H u ω) =
        I.biUnion fun t => Finset.univ.filter fun ω => H t ω < τ ∧ ∀ u ∈ T, u ≠ t → τ ≤ H u ω := by
      ext ω
      simp
    rw [e, Finset.card_biUnion]
    · push_cast
      rfl
    · intro t ht u hu hne
      refine Finset.disjoint_left.mpr fun ω h3 h4 => ?_
      have h3 := (Finset.mem_filter.mp h3).2
      have h4 := (Finset.mem_filter.mp h4).2
      have := h3.2 u (hI hu) (Ne.symm hne)
      omega
  rw [hsum, ← nsmul_eq_mul, ← Finset.sum_const]
  exact Finset.sum_le_sum hone

end sole

/-! ### The code's hash family -/

theorem card_coeff {p : Nat} (Q : Nat → Nat → Prop) [∀ a, DecidablePred (Q a)] :
    (Finset.univ.filter fun c : Coeff p => Q (c.1.val + 1) c.2.val).card =
      ∑ a ∈ Finset.Ico 1 p, ((Finset.range p).filter (Q a)).card := by
  rw [Finset.card_filter, Fintype.sum_prod_type, Finset.sum_Ico_eq_sum_range,
    ← Fin.sum_univ_eq_sum_range (fun i => ((Finset.range p).filter (Q (1 + i))).card)]
  refine Finset.sum_congr rfl fun a _ => ?_
  rw [Finset.card_filter, ← Fin.sum_univ_eq_sum_range (fun b => if Q (1 + a.val) b then 1 else 0)]
  refine Finset.sum_congr rfl fun b _ => ?_
  rw [Nat.add_comm]

theorem card_coeff_all {p : Nat} (hp : 1 < p) : (Fintype.card (Coeff p) : ℝ) = ((p : ℝ) - 1) * p := by
  rw [Fintype.card_prod, Fintype.card_fin, Fintype.card_fin, Nat.cast_mul, Nat.cast_sub hp.le, Nat.cast_one]

/-- A hash is small with about the right probability. -/
theorem coeff_small {W p K x τ : Nat} (hN : 2 ^ W = K * p + K) (hp : 1 < p) (hpW : p ≤ 2 ^ W) (hτ : τ ≤ p) :
    ((τ : ℝ) - K) / p ≤ proportion fun c : Coeff p => affineNat W p (c.1.val + 1) c.2.val x < τ := by
  classical
  have hp' : (1 : ℝ) < p := by exact_mod_cast hp
  rw [proportion_eq, card_coeff (fun a b => affineNat W p a b x < τ), card_coeff_all hp]
  have h1 : ((p - 1 : ℕ) : ℝ) * ((τ : ℝ) - K) ≤
      ((∑ a ∈ Finset.Ico 1 p, ((Finset.range p).filter fun b => affineNat W p a b x < τ).card : ℕ) : ℝ) := by
    have e : ((p - 1 : ℕ) : ℝ) = ((Finset.Ico 1 p).card : ℝ) := by rw [Nat.card_Ico]
    rw [e, ← nsmul_eq_mul, ← Finset.sum_const, Nat.cast_sum]
    refine Finset.sum_le_sum fun a _ => ?_
    have := small_ge a x hN hpW hτ
    have : ((τ - K : ℕ) : ℝ) ≤ (((Finset.range p).filter fun b => affineNat W p a b x < τ).card : ℝ) := by
      exact_mod_cast this
    refine le_trans ?_ this
    have : (τ : ℝ) ≤ ((τ - K : ℕ) : ℝ) + K := by
      have : τ ≤ (τ - K) + K := by omega
      exact_mod_cast this
    linarith
  rw [Nat.cast_sub hp.le, Nat.cast_one] at h1
  rw [div_le_div_iff₀ (by linarith) (mul_pos (by linarith) (by linarith))]
  calc ((τ : ℝ) - K) * ((p - 1) * p) = ((p - 1) * (τ - K)) * p := by ring
    _ ≤ _ := mul_le_mul_of_nonneg_right (by convert h1 using 2) (by linarith)

/-- Two hashes that differ in the low bits are rarely small together. -/
theorem coeff_small_both {W s p x y τ m : Nat} (hN : 2 ^ W = 2 ^ s * p + 2 ^ s) (hp : 1 < p) (hpW : p ≤ 2 ^ (W - s))
    (hs : s ≤ W) (hKp : 2 ^ s ≤ p) (hτ : τ + 2 ^ s ≤ p) (hm : m ≤ W) (hd : x % 2 ^ m ≠ y % 2 ^ m)
    (hsmall : ∀ v < m, 2 ^ v ≤ (2 ^ s - 1) * (2 * (τ + 2 ^ s) - 1) + 1) :
    (proportion fun c : Coeff p => affineNat W p (c.1.val + 1) c.2.val x < τ ∧ affineNat W p (c.1.val + 1) c.2.val y < τ) ≤
      (2 ^ s * (2 * (τ + 2 ^ s) - 1)) * (τ + 2 ^ s) / (((p : ℝ) - 1) * p) := by
  classical
  have hp' : (1 : ℝ) < p := by exact_mod_cast hp
  obtain ⟨v, c, hv, hc, e⟩ := difference_low hd
  have hM : 0 < τ + 2 ^ s := by positivity
  have hpW' : p ≤ 2 ^ W := hpW.trans (Nat.pow_le_pow_right (by norm_num) (by omega))
  have hnear := nearSlopes_le (W := W) (s := s) (p := p) (M := τ + 2 ^ s) hc (by omega) hs hpW hM (hsmall v hv)
  rw [proportion_eq, card_coeff (fun a b => affineNat W p a b x < τ ∧ affineNat W p a b y < τ), card_coeff_all hp]
  have h1 : (∑ a ∈ Finset.Ico 1 p, ((Finset.range p).filter fun b => affineNat W p a b x < τ ∧
      affineNat W p a b y < τ).card) ≤ (2 ^ s * (2 * (τ + 2 ^ s) - 1)) * (τ + 2 ^ s) := by
    calc _ ≤ ∑ a ∈ Finset.Ico 1 p, if a ∈ nearSlopes W (2 ^ s) p p (τ + 2 ^ s) (2 ^ v * c) then τ + 2 ^ s else 0 := by
          refine Finset.sum_le_sum fun a ha => ?_
          split_ifs with hmem
          · refine le_trans (Finset.card_le_card fun b hb => ?_) (small_le a x hN hpW' hτ)
            have hb := Finset.mem_filter.mp hb
            exact Finset.mem_filter.mpr ⟨hb.1, hb.2.1⟩
          · rw [Nat.le_zero, Finset.card_eq_zero, Finset.filter_eq_empty_iff]
            rintro b hb ⟨hx, hy⟩
            apply hmem
            refine Finset.mem_filter.mpr ⟨ha, ?_⟩
            have := near_of_small hN (by positivity) hKp hx hy
            rw [e] at this
            exact this
      _ ≤ (nearSlopes W (2 ^ s) p p (τ + 2 ^ s) (2 ^ v * c)).card * (τ + 2 ^ s) := by
          rw [← Finset.sum_filter, Finset.sum_const, smul_eq_mul]
          refine Nat.mul_le_mul_right _ (Finset.card_le_card fun a ha => (Finset.mem_filter.mp ha).2)
      _ ≤ _ := Nat.mul_le_mul_right _ hnear
  have h1' : ((∑ a ∈ Finset.Ico 1 p, ((Finset.range p).filter fun b => affineNat W p a b x < τ ∧
      affineNat W p a b y < τ).card : ℕ) : ℝ) ≤ (2 ^ s * (2 * (τ + 2 ^ s) - 1)) * (τ + 2 ^ s) := by
    have hc : (((2 ^ s * (2 * (τ + 2 ^ s) - 1)) * (τ + 2 ^ s) : ℕ) : ℝ) =
        (2 ^ s * (2 * ((τ : ℝ) + 2 ^ s) - 1)) * (τ + 2 ^ s) := by
      have h2 : 1 ≤ 2 * (τ + 2 ^ s) := by omega
      push_cast [Nat.cast_sub h2]
      ring
    rw [← hc]
    exact_mod_cast h1
  have hpos : (0 : ℝ) < ((p : ℝ) - 1) * p := mul_pos (by linarith) (by linarith)
  refine (div_le_div_iff_of_pos_right hpos).mpr (le_trans (le_of_eq ?_) h1')
  congr!

/-! ### Components -/

variable {Tok : Type} [DecidableEq Tok]

theorem tokens_le {A B : List Tok} {hash : Tok → UInt64} {m : Nat}
    (hd : ∀ t ∈ A ++ B, ∀ u ∈ A ++ B, t ≠ u → (hash t).toNat % 2 ^ m ≠ (hash u).toNat % 2 ^ m) :
    (A.toFinset ∪ B.toFinset).card ≤ 2 ^ m := by
  have h : (A.toFinset ∪ B.toFinset).card ≤ (Finset.range (2 ^ m)).card := by
    refine Finset.card_le_card_of_injOn (fun t => (hash t).toNat % 2 ^ m) ?_ ?_
    · intro t _
      exact Finset.mem_coe.mpr (Finset.mem_range.mpr (Nat.mod_lt _ (by positivity)))
    · intro t ht u hu e
      by_contra hne
      refine hd t ?_ u ?_ hne e
      · simpa using ht
      · simpa using hu
  rwa [Finset.card_range] at h

/-- One component of `MinHasher64V1`. -/
theorem component64_ge (hash : Tok → UInt64) {A B : List Tok} (hA : A ≠ []) (hB : B ≠ []) {m : Nat} (hm : m ≤ 64)
    (hd : ∀ t ∈ A ++ B, ∀ u ∈ A ++ B, t ≠ u → (hash t).toNat % 2 ^ m ≠ (hash u).toNat % 2 ^ m)
    (hsize : (A.toFinset ∪ B.toFinset).card * 2 ^ m ≤ 2 ^ 60) :
    jaccard A B / 65 ≤ proportion (fun c : Coeff (2 ^ 61 - 1) =>
      comp64 hash A (UInt64.ofNat (c.1.val + 1), UInt64.ofNat c.2.val) =
        comp64 hash B (UInt64.ofNat (c.1.val + 1), UInt64.ofNat c.2.val)) := by
  have hcard := tokens_le hd
  unfold jaccard
  have hIT : A.toFinset ∩ B.toFinset ⊆ A.toFinset ∪ B.toFinset :=
    Finset.inter_subset_left.trans Finset.subset_union_left
  have hn1 : 0 < (A.toFinset ∪ B.toFinset).card := by
    obtain ⟨t, ht⟩ := List.exists_mem_of_ne_nil A hA
    exact Finset.card_pos.mpr ⟨t, Finset.mem_union_left _ (List.mem_toFinset.mpr ht)⟩
  obtain ⟨n, hn⟩ : ∃ n, n = (A.toFinset ∪ B.toFinset).card := ⟨_, rfl⟩
  rw [← hn] at hn1 hcard hsize
  have hn30 : n ≤ 2 ^ 30 := by
    by_contra hlt
    have : 2 ^ 60 < n * n := by nlinarith
    have := Nat.mul_le_mul_left n hcard
    omega
  obtain ⟨τ, hτ⟩ : ∃ τ, τ = (2 ^ 61 - 1) / (32 * n) := ⟨_, rfl⟩
  have hτ1 : 32 * n * τ ≤ 2 ^ 61 - 1 := by rw [hτ]; exact Nat.mul_div_le _ _
  have hτ2 : 2 ^ 61 - 1 < 32 * n * (τ + 1) := by
    rw [hτ]; exact Nat.lt_mul_div_succ _ (by positivity)
  have hτ3 : τ ≤ 2 ^ 57 := by
    have := Nat.mul_le_mul_right τ (show 32 ≤ 32 * n by omega)
    omega
  have hH : ∀ t : Tok, ∀ c : Coeff (2 ^ 61 - 1),
      (affine64 (UInt64.ofNat (c.1.val + 1)) (UInt64.ofNat c.2.val) (hash t)).toNat =
        affineNat 64 (2 ^ 61 - 1) (c.1.val + 1) c.2.val (hash t).toNat := by
    intro t c
    rw [affine64_toNat, (coeff64_toNat c).1, (coeff64_toNat c).2]
    rfl
  have hsole := sole_small (A.toFinset ∪ B.toFinset) (A.toFinset ∩ B.toFinset) hIT
    (fun t (c : Coeff (2 ^ 61 - 1)) => affineNat 64 (2 ^ 61 - 1) (c.1.val + 1) c.2.val (hash t).toNat) τ
    (((τ : ℝ) - (8 : ℕ)) / ((2 ^ 61 - 1 : ℕ) : ℝ))
    ((2 ^ 3 * (2 * (τ + 2 ^ 3) - 1)) * (τ + 2 ^ 3) / ((((2 ^ 61 - 1 : ℕ) : ℝ) - 1) * ((2 ^ 61 - 1 : ℕ) : ℝ)))
    (fun t _ => coeff_small (by norm_num) (by norm_num) (by norm_num) (by omega))
    (fun t ht u hu hne => coeff_small_both (s := 3) (by norm_num) (by norm_num) (by norm_num) (by norm_num) (by norm_num)
      (by omega) hm (hd t (by simpa using hIT ht) u (by simpa using hu) (Ne.symm hne)) (by
        intro v hv
        by_contra hlt
        have h1 : 2 * 2 ^ v ≤ 2 ^ m := by
          rw [← pow_succ']; exact Nat.pow_le_pow_right (by norm_num) hv
        have h2 : n * (2 * 2 ^ v) ≤ 2 ^ 60 := (Nat.mul_le_mul_left n h1).trans hsize
        have h3 : n * (2 * ((2 ^ 3 - 1) * (2 * (τ + 2 ^ 3) - 1) + 1)) ≤ n * (2 * 2 ^ v) :=
          Nat.mul_le_mul_left n (by omega)
        have h4 : n * (28 * (τ + 1)) ≤ n * (2 * ((2 ^ 3 - 1) * (2 * (τ + 2 ^ 3) - 1) + 1)) :=
          Nat.mul_le_mul_left n (by omega)
        have h5 : n * (28 * (τ + 1)) ≤ 2 ^ 60 := by omega
        have h6 : 8 * (n * (28 * (τ + 1))) = 7 * (32 * n * (τ + 1)) := by ring
        omega))
  refine le_trans ?_ (hsole.trans (proportion_mono ?_))
  · rw [← hn, div_div, div_eq_mul_inv]
    refine mul_le_mul_of_nonneg_left ?_ (by positivity)
    have hn0 : (0 : ℝ) < n := by exact_mod_cast hn1
    have hnu : (n : ℝ) ≤ 2 ^ 30 := by exact_mod_cast hn30
    have r1 : 32 * ((n : ℝ) * τ) ≤ 2 ^ 61 - 1 := by
      have : ((32 * n * τ : ℕ) : ℝ) ≤ ((2 ^ 61 - 1 : ℕ) : ℝ) := by exact_mod_cast hτ1
      push_cast at this
      linarith
    have r2 : (2 ^ 61 - 1 : ℝ) ≤ 32 * ((n : ℝ) * τ) + 32 * n := by
      have : ((2 ^ 61 - 1 : ℕ) : ℝ) ≤ ((32 * n * (τ + 1) : ℕ) : ℝ) := by exact_mod_cast hτ2.le
      push_cast at this
      linarith
    have hp : ((2 ^ 61 - 1 : ℕ) : ℝ) = 2 ^ 61 - 1 := by norm_num
    rw [hp]
    have hτ0 : (0 : ℝ) ≤ τ := by positivity
    -- the bound on pairs, multiplied by `n²`
    have r3 : ((n : ℝ) * (2 * (τ + 2 ^ 3) - 1)) * (n * (τ + 2 ^ 3)) ≤
        ((2 ^ 61 - 1) / 16 + 15 * 2 ^ 30) * ((2 ^ 61 - 1) / 32 + 8 * 2 ^ 30) := by
      refine mul_le_mul ?_ ?_ ?_ ?_
      · nlinarith
      · nlinarith
      · positivity
      · norm_num
    have r4 : ((n : ℝ) - 1) * ((2 ^ 3 * (2 * (τ + 2 ^ 3) - 1)) * (τ + 2 ^ 3) / (((2 ^ 61 - 1 : ℝ) - 1) * (2 ^ 61 - 1))) ≤
        n * ((2 ^ 3 * (2 * (τ + 2 ^ 3) - 1)) * (τ + 2 ^ 3) / (((2 ^ 61 - 1 : ℝ) - 1) * (2 ^ 61 - 1))) := by
      refine mul_le_mul_of_nonneg_right (by linarith) ?_
      refine div_nonneg (mul_nonneg (mul_nonneg (by norm_num) (by linarith)) (by linarith)) (by norm_num)
    refine le_trans ?_ (sub_le_sub_left r4 _)
    have e : ((τ : ℝ) - (8 : ℕ)) / (2 ^ 61 - 1) -
        n * ((2 ^ 3 * (2 * (τ + 2 ^ 3) - 1)) * (τ + 2 ^ 3) / (((2 ^ 61 - 1 : ℝ) - 1) * (2 ^ 61 - 1))) =
        ((n * τ - 8 * n) / (2 ^ 61 - 1) - 8 * (((n : ℝ) * (2 * (τ + 2 ^ 3) - 1)) * (n * (τ + 2 ^ 3))) /
          (((2 ^ 61 - 1 : ℝ) - 1) * (2 ^ 61 - 1))) / n := by
      field_simp
      push_cast
      ring
    rw [e, le_div_iff₀ hn0, mul_inv, mul_comm (n : ℝ)⁻¹, mul_assoc, inv_mul_cancel₀ hn0.ne', mul_one]
    have r5 : ((2 ^ 61 - 1) / 32 - 9 * 2 ^ 30) / (2 ^ 61 - 1) ≤ ((n : ℝ) * τ - 8 * n) / (2 ^ 61 - 1) := by
      refine (div_le_div_iff_of_pos_right (by norm_num)).mpr ?_
      linarith
    have r6 : 8 * (((n : ℝ) * (2 * (τ + 2 ^ 3) - 1)) * (n * (τ + 2 ^ 3))) / (((2 ^ 61 - 1 : ℝ) - 1) * (2 ^ 61 - 1)) ≤
        8 * (((2 ^ 61 - 1) / 16 + 15 * 2 ^ 30) * ((2 ^ 61 - 1) / 32 + 8 * 2 ^ 30)) /
          (((2 ^ 61 - 1 : ℝ) - 1) * (2 ^ 61 - 1)) := by
      refine (div_le_div_iff_of_pos_right (by norm_num)).mpr ?_
      linarith
    refine le_trans ?_ (sub_le_sub r5 r6)
    norm_num
  · rintro c ⟨t, ht, hsmall, hbig⟩
    have key : ∀ L : List Tok, L ≠ [] → t ∈ L → (∀ u ∈ L, u ∈ A.toFinset ∪ B.toFinset) →
        comp64 hash L (UInt64.ofNat (c.1.val + 1), UInt64.ofNat c.2.val) =
          affine64 (UInt64.ofNat (c.1.val + 1)) (UInt64.ofNat c.2.val) (hash t) := by
      intro L hL htL hsub
      have hspec := comp64_spec hash hL (UInt64.ofNat (c.1.val + 1), UInt64.ofNat c.2.val)
      obtain ⟨u, hu, e⟩ := hspec.1
      have hle := hspec.2 t htL
      by_cases hut : u = t
      · rw [e, hut]
      · have h3 := hbig u (hsub u hu) hut
        rw [e] at hle
        simp only [hH] at hle
        omega
    have ht' := Finset.mem_inter.mp ht
    rw [key A hA (List.mem_toFinset.mp ht'.1) fun u hu => Finset.mem_union_left _ (List.mem_toFinset.mpr hu),
      key B hB (List.mem_toFinset.mp ht'.2) fun u hu => Finset.mem_union_right _ (List.mem_toFinset.mpr hu)]

/-- One component of `MinHasher32`. -/
theorem component32_ge (hash : Tok → UInt64) {A B : List Tok} (hA : A ≠ []) (hB : B ≠ []) {m : Nat} (hm : m ≤ 32)
    (hd : ∀ t ∈ A ++ B, ∀ u ∈ A ++ B, t ≠ u → (hash t).toNat % 2 ^ m ≠ (hash u).toNat % 2 ^ m)
    (hsize : (A.toFinset ∪ B.toFinset).card * 2 ^ m ≤ 2 ^ 29) :
    jaccard A B / 17 ≤ proportion (fun c : Coeff (2 ^ 31 - 1) =>
      comp32 hash A (UInt32.ofNat (c.1.val + 1), UInt32.ofNat c.2.val) =
        comp32 hash B (UInt32.ofNat (c.1.val + 1), UInt32.ofNat c.2.val)) := by
  have hcard := tokens_le hd
  have hlow : ∀ x : Tok, (hash x).toUInt32.toNat % 2 ^ m = (hash x).toNat % 2 ^ m := by
    intro x
    rw [UInt64.toNat_toUInt32]
    exact Nat.mod_mod_of_dvd _ (pow_dvd_pow 2 hm)
  unfold jaccard
  have hIT : A.toFinset ∩ B.toFinset ⊆ A.toFinset ∪ B.toFinset :=
    Finset.inter_subset_left.trans Finset.subset_union_left
  have hn1 : 0 < (A.toFinset ∪ B.toFinset).card := by
    obtain ⟨t, ht⟩ := List.exists_mem_of_ne_nil A hA
    exact Finset.card_pos.mpr ⟨t, Finset.mem_union_left _ (List.mem_toFinset.mpr ht)⟩
  obtain ⟨n, hn⟩ : ∃ n, n = (A.toFinset ∪ B.toFinset).card := ⟨_, rfl⟩
  rw [← hn] at hn1 hcard hsize
  have hn30 : n ≤ 2 ^ 15 := by
    by_contra hlt
    have : 2 ^ 29 < n * n := by nlinarith
    have := Nat.mul_le_mul_left n hcard
    omega
  obtain ⟨τ, hτ⟩ : ∃ τ, τ = (2 ^ 31 - 1) / (8 * n) := ⟨_, rfl⟩
  have hτ1 : 8 * n * τ ≤ 2 ^ 31 - 1 := by rw [hτ]; exact Nat.mul_div_le _ _
  have hτ2 : 2 ^ 31 - 1 < 8 * n * (τ + 1) := by
    rw [hτ]; exact Nat.lt_mul_div_succ _ (by positivity)
  have hτ3 : τ ≤ 2 ^ 29 := by
    have := Nat.mul_le_mul_right τ (show 8 ≤ 8 * n by omega)
    omega
  have hH : ∀ t : Tok, ∀ c : Coeff (2 ^ 31 - 1),
      (affine32 (UInt32.ofNat (c.1.val + 1)) (UInt32.ofNat c.2.val) (hash t).toUInt32).toNat =
        affineNat 32 (2 ^ 31 - 1) (c.1.val + 1) c.2.val (hash t).toUInt32.toNat := by
    intro t c
    rw [affine32_toNat, (coeff32_toNat c).1, (coeff32_toNat c).2]
    rfl
  have hsole := sole_small (A.toFinset ∪ B.toFinset) (A.toFinset ∩ B.toFinset) hIT
    (fun t (c : Coeff (2 ^ 31 - 1)) => affineNat 32 (2 ^ 31 - 1) (c.1.val + 1) c.2.val (hash t).toUInt32.toNat) τ
    (((τ : ℝ) - (2 : ℕ)) / ((2 ^ 31 - 1 : ℕ) : ℝ))
    ((2 ^ 1 * (2 * (τ + 2 ^ 1) - 1)) * (τ + 2 ^ 1) / ((((2 ^ 31 - 1 : ℕ) : ℝ) - 1) * ((2 ^ 31 - 1 : ℕ) : ℝ)))
    (fun t _ => coeff_small (by norm_num) (by norm_num) (by norm_num) (by omega))
    (fun t ht u hu hne => coeff_small_both (s := 1) (by norm_num) (by norm_num) (by norm_num) (by norm_num) (by norm_num)
      (by omega) hm (by rw [hlow, hlow]; exact hd t (by simpa using hIT ht) u (by simpa using hu) (Ne.symm hne)) (by
        intro v hv
        by_contra hlt
        have h1 : 2 * 2 ^ v ≤ 2 ^ m := by
          rw [← pow_succ']; exact Nat.pow_le_pow_right (by norm_num) hv
        have h2 : n * (2 * 2 ^ v) ≤ 2 ^ 29 := (Nat.mul_le_mul_left n h1).trans hsize
        have h3 : n * (2 * ((2 ^ 1 - 1) * (2 * (τ + 2 ^ 1) - 1) + 1)) ≤ n * (2 * 2 ^ v) :=
          Nat.mul_le_mul_left n (by omega)
        have h4 : n * (4 * (τ + 1)) ≤ n * (2 * ((2 ^ 1 - 1) * (2 * (τ + 2 ^ 1) - 1) + 1)) :=
          Nat.mul_le_mul_left n (by omega)
        have h5 : n * (4 * (τ + 1)) ≤ 2 ^ 29 := by omega
        have h6 : 2 * (n * (4 * (τ + 1))) = 8 * n * (τ + 1) := by ring
        omega))
  refine le_trans ?_ (hsole.trans (proportion_mono ?_))
  · rw [← hn, div_div, div_eq_mul_inv]
    refine mul_le_mul_of_nonneg_left ?_ (by positivity)
    have hn0 : (0 : ℝ) < n := by exact_mod_cast hn1
    have hnu : (n : ℝ) ≤ 2 ^ 15 := by exact_mod_cast hn30
    have r1 : 8 * ((n : ℝ) * τ) ≤ 2 ^ 31 - 1 := by
      have : ((8 * n * τ : ℕ) : ℝ) ≤ ((2 ^ 31 - 1 : ℕ) : ℝ) := by exact_mod_cast hτ1
      push_cast at this
      linarith
    have r2 : (2 ^ 31 - 1 : ℝ) ≤ 8 * ((n : ℝ) * τ) + 8 * n := by
      have : ((2 ^ 31 - 1 : ℕ) : ℝ) ≤ ((8 * n * (τ + 1) : ℕ) : ℝ) := by exact_mod_cast hτ2.le
      push_cast at this
      linarith
    have hp : ((2 ^ 31 - 1 : ℕ) : ℝ) = 2 ^ 31 - 1 := by norm_num
    rw [hp]
    have hτ0 : (0 : ℝ) ≤ τ := by positivity
    -- the bound on pairs, multiplied by `n²`
    have r3 : ((n : ℝ) * (2 * (τ + 2 ^ 1) - 1)) * (n * (τ + 2 ^ 1)) ≤
        ((2 ^ 31 - 1) / 4 + 3 * 2 ^ 15) * ((2 ^ 31 - 1) / 8 + 2 * 2 ^ 15) := by
      refine mul_le_mul ?_ ?_ ?_ ?_
      · nlinarith
      · nlinarith
      · positivity
      · norm_num
    have r4 : ((n : ℝ) - 1) * ((2 ^ 1 * (2 * (τ + 2 ^ 1) - 1)) * (τ + 2 ^ 1) / (((2 ^ 31 - 1 : ℝ) - 1) * (2 ^ 31 - 1))) ≤
        n * ((2 ^ 1 * (2 * (τ + 2 ^ 1) - 1)) * (τ + 2 ^ 1) / (((2 ^ 31 - 1 : ℝ) - 1) * (2 ^ 31 - 1))) := by
      refine mul_le_mul_of_nonneg_right (by linarith) ?_
      refine div_nonneg (mul_nonneg (mul_nonneg (by norm_num) (by linarith)) (by linarith)) (by norm_num)
    refine le_trans ?_ (sub_le_sub_left r4 _)
    have e : ((τ : ℝ) - (2 : ℕ)) / (2 ^ 31 - 1) -
        n * ((2 ^ 1 * (2 * (τ + 2 ^ 1) - 1)) * (τ + 2 ^ 1) / (((2 ^ 31 - 1 : ℝ) - 1) * (2 ^ 31 - 1))) =
        ((n * τ - 2 * n) / (2 ^ 31 - 1) - 2 * (((n : ℝ) * (2 * (τ + 2 ^ 1) - 1)) * (n * (τ + 2 ^ 1))) /
          (((2 ^ 31 - 1 : ℝ) - 1) * (2 ^ 31 - 1))) / n := by
      field_simp
      push_cast
      ring
    rw [e, le_div_iff₀ hn0, mul_inv, mul_comm (n : ℝ)⁻¹, mul_assoc, inv_mul_cancel₀ hn0.ne', mul_one]
    have r5 : ((2 ^ 31 - 1) / 8 - 3 * 2 ^ 15) / (2 ^ 31 - 1) ≤ ((n : ℝ) * τ - 2 * n) / (2 ^ 31 - 1) := by
      refine (div_le_div_iff_of_pos_right (by norm_num)).mpr ?_
      linarith
    have r6 : 2 * (((n : ℝ) * (2 * (τ + 2 ^ 1) - 1)) * (n * (τ + 2 ^ 1))) / (((2 ^ 31 - 1 : ℝ) - 1) * (2 ^ 31 - 1)) ≤
        2 * (((2 ^ 31 - 1) / 4 + 3 * 2 ^ 15) * ((2 ^ 31 - 1) / 8 + 2 * 2 ^ 15)) /
          (((2 ^ 31 - 1 : ℝ) - 1) * (2 ^ 31 - 1)) := by
      refine (div_le_div_iff_of_pos_right (by norm_num)).mpr ?_
      linarith
    refine le_trans ?_ (sub_le_sub r5 r6)
    norm_num
  · rintro c ⟨t, ht, hsmall, hbig⟩
    have key : ∀ L : List Tok, L ≠ [] → t ∈ L → (∀ u ∈ L, u ∈ A.toFinset ∪ B.toFinset) →
        comp32 hash L (UInt32.ofNat (c.1.val + 1), UInt32.ofNat c.2.val) =
          affine32 (UInt32.ofNat (c.1.val + 1)) (UInt32.ofNat c.2.val) (hash t).toUInt32 := by
      intro L hL htL hsub
      have hspec := comp32_spec hash hL (UInt32.ofNat (c.1.val + 1), UInt32.ofNat c.2.val)
      obtain ⟨u, hu, e⟩ := hspec.1
      have hle := hspec.2 t htL
      by_cases hut : u = t
      · rw [e, hut]
      · have h3 := hbig u (hsub u hu) hut
        rw [e] at hle
        simp only [hH] at hle
        omega
    have ht' := Finset.mem_inter.mp ht
    rw [key A hA (List.mem_toFinset.mp ht'.1) fun u hu => Finset.mem_union_left _ (List.mem_toFinset.mpr hu),
      key B hB (List.mem_toFinset.mp ht'.2) fun u hu => Finset.mem_union_right _ (List.mem_toFinset.mpr hu)]

/-! ### From one component to signatures and indexes -/

omit [DecidableEq Tok] in
theorem draws_sigN {V : Type} (cast : UInt32 → V) (zero : V) {n : Nat} {g : Rng} {seed : UInt64}
    {ω : Fin n → Coeff (2 ^ 31 - 1)} (h : Draws (2 ^ 31 - 1) n g seed ω) (hash : Tok → UInt64) {A : List Tok}
    (hA : A ≠ []) : (MinHasherN.newWithHasherAndSeed g n hash seed).createSignature cast zero A =
      .ok (List.ofFn fun i => cast (comp32 hash A (UInt32.ofNat ((ω i).1.val + 1), UInt32.ofNat (ω i).2.val))) := by
  have h32 := draws_sig32 h hash hA
  unfold MinHasherN.sig32 at h32
  rw [createSignature_cons _ _ _ hA, Except.ok.injEq] at h32
  rw [createSignature_cons _ _ _ hA, Except.ok.injEq]
  have := congrArg (List.map cast) h32
  rw [List.map_map, List.map_ofFn] at this
  exact this

section lower
variable {P V : Type} [Fintype P] [DecidableEq V]

/-- Few components agree rarely. -/
theorem agree_lower (n : Nat) (hn : 0 < n) (f f' : P → V) (hP : 0 < Fintype.card P) (q ε : ℝ) (hε : 0 < ε)
    (hq : q ≤ proportion fun c => f c = f' c) :
    proportion (fun ω : Fin n → P => ((agree (List.ofFn fun i => f (ω i)) (List.ofFn fun i => f' (ω i)) : ℕ) : ℝ) / n ≤
      q - ε) ≤ Real.exp (-(2 * n * ε ^ 2)) := by
  classical
  have hn' : (0 : ℝ) < n := by exact_mod_cast hn
  have := proportion_chernoff n (fun c => f c = f' c) hP (fun k => (k : ℝ) / n ≤ q - ε) (-(4 * ε)) (4 * ε * (n * ε)) (by
      intro k _ hk
      have e : -(4 * ε) * ((k : ℝ) - n * proportion fun c => f c = f' c) =
          4 * ε * (n * ((proportion fun c => f c = f' c) - (k : ℝ) / n)) := by field_simp; ring
      rw [e]
      have : ε ≤ (proportion fun c => f c = f' c) - (k : ℝ) / n := by linarith
      gcongr)
  simp only [agree_ofFn]
  refine le_trans (le_of_eq ?_) (this.trans (le_of_eq ?_))
  · congr! 8
  · congr 1; ring

theorem shareProba_mono {q s : ℝ} (h0 : 0 ≤ q) (h : q ≤ s) (h1 : s ≤ 1) (b r : Nat) : shareProba q b r ≤ shareProba s b r := by
  unfold shareProba
  have e1 : q ^ r ≤ s ^ r := pow_le_pow_left₀ h0 h r
  have e2 : s ^ r ≤ 1 := pow_le_one₀ (h0.trans h) h1
  have e3 : (1 - s ^ r) ^ b ≤ (1 - q ^ r) ^ b := pow_le_pow_left₀ (by linarith) (by linarith) _
  linarith

theorem some_row_ge (b r : Nat) (E : P → Prop) (hP : 0 < Fintype.card P) {q : ℝ} (h0 : 0 ≤ q) (hq : q ≤ proportion E) :
    1 - (1 - q ^ r) ^ b ≤
      proportion (fun π : Fin (b * r) → P => ∃ i : Fin b, ∀ j : Fin r, E (π (finProdFinEquiv (i, j)))) := by
  rw [proportion_some_row b r E hP]
  exact shareProba_mono h0 hq (proportion_unit E).2 b r

variable {Id C : Type} [DecidableEq Id] [IdContainer C Id] [LawfulIdContainer C Id]

omit [Fintype P] in
/-- A document that shares all components of a band is found if the threshold is at most 0. -/
theorem band_found (b r : Nat) (t : Fl) (h : List V → UInt64) (ops : List (Op V Id)) (id : Id) (f f' : P → V)
    (ω : Fin (b * r) → P) (h0 : 0 < b * r) (hn : b * r ≤ 2 ^ 53) (ht : Fl.ge (.fin 0) t = true)
    (hl : RightLengths (b * r) ops) (hlive : live (b * r) ops id = some (List.ofFn fun i => f (ω i)))
    (hs : ∃ i : Fin b, ∀ j : Fin r, f (ω (finProdFinEquiv (i, j))) = f' (ω (finProdFinEquiv (i, j)))) :
    ∃ res, (After C b r t h ops).query (List.ofFn fun i => f' (ω i)) = .ok res ∧ id ∈ res.elems := by
  have hlen : ∀ F : P → V, (List.ofFn fun i => F (ω i)).length = b * r := fun F => List.length_ofFn
  obtain ⟨res, hres, _⟩ := C17_query_returns (C := C) b r t h ops (List.ofFn fun i => f' (ω i)) hl (hlen f')
  obtain ⟨i, hall⟩ := hs
  obtain ⟨x, hx, _, hx0, _⟩ := C08_rounded_ratio (List.ofFn fun i => f (ω i)) (List.ofFn fun i => f' (ω i))
    (by rw [hlen, hlen]) (by rw [hlen]; exact h0) (by rw [hlen]; exact hn)
  refine ⟨res, hres, C17_complete b r t h ops _ res (.inl hres) id _ _ hlive ⟨i, i.isLt, ?_⟩ hx (ge_mono hx0 ht)⟩
  intro j h1 h2
  have hj : j - i * r < r := by rw [Nat.add_mul, Nat.one_mul] at h2; omega
  have hlt : j < b * r := lt_of_lt_of_le h2 (Nat.mul_le_mul_right r i.isLt)
  have e : (finProdFinEquiv (i, (⟨j - i * r, hj⟩ : Fin r)) : Fin (b * r)) = ⟨j, hlt⟩ := by
    apply Fin.ext
    simp [finProdFinEquiv, Nat.mul_comm r]
    omega
  have := hall ⟨j - i * r, hj⟩
  rw [e] at this
  rw [List.getElem?_eq_getElem (by rw [hlen]; exact hlt), List.getElem?_eq_getElem (by rw [hlen]; exact hlt)]
  simp only [List.getElem_ofFn, this]

end lower

section index
variable {Id C : Type} [DecidableEq Id] [IdContainer C Id] [LawfulIdContainer C Id]

theorem jaccard_nonneg (A B : List Tok) : 0 ≤ jaccard A B := by unfold jaccard; positivity

/-! ## C118 -/

/-- C118: draw the coefficients of `MinHasher64V1` uniformly. If the hashes of different tokens of the two documents
differ in the low `m` bits, and the number of different tokens times `2^m` is at most `2^60`, then every component
agrees with probability at least `J / 65`. -/
theorem C118_component_64 (n : Nat) (i : Fin n) (hash : Tok → UInt64) (seed : UInt64)
    (g : (Fin n → Coeff (2 ^ 61 - 1)) → Rng) (hg : ∀ ω, Draws (2 ^ 61 - 1) n (g ω) seed ω) (A B : List Tok) (hA : A ≠ [])
    (hB : B ≠ []) (m : Nat) (hm : m ≤ 64)
    (hd : ∀ t ∈ A ++ B, ∀ u ∈ A ++ B, t ≠ u → (hash t).toNat % 2 ^ m ≠ (hash u).toNat % 2 ^ m)
    (hsize : (A.toFinset ∪ B.toFinset).card * 2 ^ m ≤ 2 ^ 60) :
    jaccard A B / 65 ≤ proportion (fun ω => ∃ s s',
      (MinHasher64.newWithHasherAndSeed (g ω) n hash seed).createSignature A = .ok s ∧
      (MinHasher64.newWithHasherAndSeed (g ω) n hash seed).createSignature B = .ok s' ∧ s[i.val]? = s'[i.val]?) := by
  have h := component64_ge hash hA hB hm hd hsize
  rw [← proportion_entry n i _ (coeff_pos (by norm_num))] at h
  refine h.trans (proportion_mono fun ω hω => ⟨_, _, draws_sig64 (hg ω) hash hA, draws_sig64 (hg ω) hash hB, ?_⟩)
  simp only [List.getElem?_ofFn, i.isLt, dif_pos, Fin.eta, hω]

/-- C118 for the narrow hashers, with `J / 17`: `cast` is the identity or a truncation. -/
theorem C118_component_narrow {V : Type} (cast : UInt32 → V) (zero : V) (n : Nat) (i : Fin n) (hash : Tok → UInt64)
    (seed : UInt64) (g : (Fin n → Coeff (2 ^ 31 - 1)) → Rng) (hg : ∀ ω, Draws (2 ^ 31 - 1) n (g ω) seed ω)
    (A B : List Tok) (hA : A ≠ []) (hB : B ≠ []) (m : Nat) (hm : m ≤ 32)
    (hd : ∀ t ∈ A ++ B, ∀ u ∈ A ++ B, t ≠ u → (hash t).toNat % 2 ^ m ≠ (hash u).toNat % 2 ^ m)
    (hsize : (A.toFinset ∪ B.toFinset).card * 2 ^ m ≤ 2 ^ 29) :
    jaccard A B / 17 ≤ proportion (fun ω => ∃ s s',
      (MinHasherN.newWithHasherAndSeed (g ω) n hash seed).createSignature cast zero A = .ok s ∧
      (MinHasherN.newWithHasherAndSeed (g ω) n hash seed).createSignature cast zero B = .ok s' ∧
      s[i.val]? = s'[i.val]?) := by
  have h := component32_ge hash hA hB hm hd hsize
  rw [← proportion_entry n i _ (coeff_pos (by norm_num))] at h
  refine h.trans (proportion_mono fun ω hω =>
    ⟨_, _, draws_sigN cast zero (hg ω) hash hA, draws_sigN cast zero (hg ω) hash hB, ?_⟩)
  simp only [List.getElem?_ofFn, i.isLt, dif_pos, Fin.eta, hω]

/-- C118: the fraction of agreeing components is at most `J / 65 - ε` with probability at most `exp(-2 n ε²)`. -/
theorem C118_agree_64 (n : Nat) (hn : 0 < n) (hash : Tok → UInt64) (seed : UInt64)
    (g : (Fin n → Coeff (2 ^ 61 - 1)) → Rng) (hg : ∀ ω, Draws (2 ^ 61 - 1) n (g ω) seed ω) (A B : List Tok) (hA : A ≠ [])
    (hB : B ≠ []) (m : Nat) (hm : m ≤ 64)
    (hd : ∀ t ∈ A ++ B, ∀ u ∈ A ++ B, t ≠ u → (hash t).toNat % 2 ^ m ≠ (hash u).toNat % 2 ^ m)
    (hsize : (A.toFinset ∪ B.toFinset).card * 2 ^ m ≤ 2 ^ 60) (ε : ℝ) (hε : 0 < ε) :
    proportion (fun ω => ∃ s s', (MinHasher64.newWithHasherAndSeed (g ω) n hash seed).createSignature A = .ok s ∧
      (MinHasher64.newWithHasherAndSeed (g ω) n hash seed).createSignature B = .ok s' ∧
      (agree s s' : ℝ) / n ≤ jaccard A B / 65 - ε) ≤ Real.exp (-(2 * n * ε ^ 2)) := by
  refine le_trans (proportion_mono fun ω hω => ?_) (agree_lower n hn
    (fun c : Coeff (2 ^ 61 - 1) => comp64 hash A (UInt64.ofNat (c.1.val + 1), UInt64.ofNat c.2.val))
    (fun c => comp64 hash B (UInt64.ofNat (c.1.val + 1), UInt64.ofNat c.2.val)) (coeff_pos (by norm_num)) _ ε hε
    (component64_ge hash hA hB hm hd hsize))
  obtain ⟨s, s', e1, e2, h⟩ := hω
  rw [draws_sig64 (hg ω) hash hA, Except.ok.injEq] at e1
  rw [draws_sig64 (hg ω) hash hB, Except.ok.injEq] at e2
  rwa [← e1, ← e2] at h

/-- C118 for the narrow hashers. -/
theorem C118_agree_narrow {V : Type} [DecidableEq V] (cast : UInt32 → V) (zero : V) (n : Nat) (hn : 0 < n)
    (hash : Tok → UInt64) (seed : UInt64) (g : (Fin n → Coeff (2 ^ 31 - 1)) → Rng)
    (hg : ∀ ω, Draws (2 ^ 31 - 1) n (g ω) seed ω) (A B : List Tok) (hA : A ≠ []) (hB : B ≠ []) (m : Nat) (hm : m ≤ 32)
    (hd : ∀ t ∈ A ++ B, ∀ u ∈ A ++ B, t ≠ u → (hash t).toNat % 2 ^ m ≠ (hash u).toNat % 2 ^ m)
    (hsize : (A.toFinset ∪ B.toFinset).card * 2 ^ m ≤ 2 ^ 29) (ε : ℝ) (hε : 0 < ε) :
    proportion (fun ω => ∃ s s',
      (MinHasherN.newWithHasherAndSeed (g ω) n hash seed).createSignature cast zero A = .ok s ∧
      (MinHasherN.newWithHasherAndSeed (g ω) n hash seed).createSignature cast zero B = .ok s' ∧
      (agree s s' : ℝ) / n ≤ jaccard A B / 17 - ε) ≤ Real.exp (-(2 * n * ε ^ 2)) := by
  refine le_trans (proportion_mono fun ω hω => ?_) (agree_lower n hn
    (fun c : Coeff (2 ^ 31 - 1) => cast (comp32 hash A (UInt32.ofNat (c.1.val + 1), UInt32.ofNat c.2.val)))
    (fun c => cast (comp32 hash B (UInt32.ofNat (c.1.val + 1), UInt32.ofNat c.2.val))) (coeff_pos (by norm_num)) _ ε hε
    ((component32_ge hash hA hB hm hd hsize).trans (proportion_mono fun c hc => congrArg cast hc)))
  obtain ⟨s, s', e1, e2, h⟩ := hω
  rw [draws_sigN cast zero (hg ω) hash hA, Except.ok.injEq] at e1
  rw [draws_sigN cast zero (hg ω) hash hB, Except.ok.injEq] at e2
  rwa [← e1, ← e2] at h

/-- C118: an index of `b` bands of `r` rows whose threshold filters nothing returns the document with probability at
least `1 - (1 - (J / 65)^r)^b`, whatever else was done with it. -/
theorem C118_found_64 (b r : Nat) (t : Fl) (h : List UInt64 → UInt64) (hash : Tok → UInt64)
    (seed : UInt64) (g : (Fin (b * r) → Coeff (2 ^ 61 - 1)) → Rng) (hg : ∀ ω, Draws (2 ^ 61 - 1) (b * r) (g ω) seed ω)
    (A B : List Tok) (hA : A ≠ []) (hB : B ≠ []) (m : Nat) (hm : m ≤ 64)
    (hd : ∀ t ∈ A ++ B, ∀ u ∈ A ++ B, t ≠ u → (hash t).toNat % 2 ^ m ≠ (hash u).toNat % 2 ^ m)
    (hsize : (A.toFinset ∪ B.toFinset).card * 2 ^ m ≤ 2 ^ 60) (h0 : 0 < b * r) (hn : b * r ≤ 2 ^ 53)
    (ht : Fl.ge (.fin 0) t = true) (id : Id) (ops : (Fin (b * r) → Coeff (2 ^ 61 - 1)) → List (Op UInt64 Id))
    (hl : ∀ ω, RightLengths (b * r) (ops ω))
    (hlive : ∀ ω, ∃ s, (MinHasher64.newWithHasherAndSeed (g ω) (b * r) hash seed).createSignature A = .ok s ∧
      live (b * r) (ops ω) id = some s) :
    1 - (1 - (jaccard A B / 65) ^ r) ^ b ≤
    proportion (fun ω => ∃ s' res, (MinHasher64.newWithHasherAndSeed (g ω) (b * r) hash seed).createSignature B = .ok s' ∧
      (After C b r t h (ops ω)).query s' = .ok res ∧ id ∈ res.elems) := by
  have hc := component64_ge hash hA hB hm hd hsize
  have hj := jaccard_nonneg A B
  refine (some_row_ge b r _ (coeff_pos (p := 2 ^ 61 - 1) (by norm_num)) (div_nonneg hj (by norm_num)) hc).trans (proportion_mono fun ω hω => ?_)
  obtain ⟨s, e, hs⟩ := hlive ω
  rw [draws_sig64 (hg ω) hash hA, Except.ok.injEq] at e
  rw [← e] at hs
  obtain ⟨res, hres, hid⟩ := band_found (C := C) b r t h (ops ω) id
    (fun c : Coeff (2 ^ 61 - 1) => comp64 hash A (UInt64.ofNat (c.1.val + 1), UInt64.ofNat c.2.val))
    (fun c => comp64 hash B (UInt64.ofNat (c.1.val + 1), UInt64.ofNat c.2.val)) ω h0 hn ht (hl ω) hs hω
  exact ⟨_, res, draws_sig64 (hg ω) hash hB, hres, hid⟩

/-- C118 for the narrow hashers. -/
theorem C118_found_narrow {V : Type} [DecidableEq V] (cast : UInt32 → V) (zero : V) (b r : Nat) (t : Fl)
    (h : List V → UInt64) (hash : Tok → UInt64)
    (seed : UInt64) (g : (Fin (b * r) → Coeff (2 ^ 31 - 1)) → Rng) (hg : ∀ ω, Draws (2 ^ 31 - 1) (b * r) (g ω) seed ω)
    (A B : List Tok) (hA : A ≠ []) (hB : B ≠ []) (m : Nat) (hm : m ≤ 32)
    (hd : ∀ t ∈ A ++ B, ∀ u ∈ A ++ B, t ≠ u → (hash t).toNat % 2 ^ m ≠ (hash u).toNat % 2 ^ m)
    (hsize : (A.toFinset ∪ B.toFinset).card * 2 ^ m ≤ 2 ^ 29) (h0 : 0 < b * r) (hn : b * r ≤ 2 ^ 53)
    (ht : Fl.ge (.fin 0) t = true) (id : Id) (ops : (Fin (b * r) → Coeff (2 ^ 31 - 1)) → List (Op V Id))
    (hl : ∀ ω, RightLengths (b * r) (ops ω))
    (hlive : ∀ ω, ∃ s, (MinHasherN.newWithHasherAndSeed (g ω) (b * r) hash seed).createSignature cast zero A = .ok s ∧
      live (b * r) (ops ω) id = some s) :
    1 - (1 - (jaccard A B / 17) ^ r) ^ b ≤
    proportion (fun ω => ∃ s' res,
      (MinHasherN.newWithHasherAndSeed (g ω) (b * r) hash seed).createSignature cast zero B = .ok s' ∧
      (After C b r t h (ops ω)).query s' = .ok res ∧ id ∈ res.elems) := by
  have hc := (component32_ge hash hA hB hm hd hsize).trans
    (proportion_mono fun c hc => congrArg cast hc)
  have hj := jaccard_nonneg A B
  refine (some_row_ge b r _ (coeff_pos (p := 2 ^ 31 - 1) (by norm_num)) (div_nonneg hj (by norm_num)) hc).trans (proportion_mono fun ω hω => ?_)
  obtain ⟨s, e, hs⟩ := hlive ω
  rw [draws_sigN cast zero (hg ω) hash hA, Except.ok.injEq] at e
  rw [← e] at hs
  obtain ⟨res, hres, hid⟩ := band_found (C := C) b r t h (ops ω) id
    (fun c : Coeff (2 ^ 31 - 1) => cast (comp32 hash A (UInt32.ofNat (c.1.val + 1), UInt32.ofNat c.2.val)))
    (fun c => cast (comp32 hash B (UInt32.ofNat (c.1.val + 1), UInt32.ofNat c.2.val))) ω h0 hn ht (hl ω) hs hω
  exact ⟨_, res, draws_sigN cast zero (hg ω) hash hB, hres, hid⟩

end index

/-- The hypotheses are met: documents with the tokens 0, ..., 3 and 1, ..., 4 (similarity 3/5), hashes that differ in the
low 40 bits, generators for all coefficients, and an index of 100 bands of one row that holds the first document. The
bound says that it is found with probability above 1/2. -/
example : ∃ (g : (Fin (100 * 1) → Coeff (2 ^ 61 - 1)) → Rng) (ops : (Fin (100 * 1) → Coeff (2 ^ 61 - 1)) → List (Op UInt64 Nat)),
    (∀ ω, Draws (2 ^ 61 - 1) (100 * 1) (g ω) 3 ω) ∧
    (∀ t ∈ [0, 1, 2, 3] ++ [1, 2, 3, 4], ∀ u ∈ [0, 1, 2, 3] ++ [1, 2, 3, 4], t ≠ u →
      (UInt64.ofNat (t * 12345678901)).toNat % 2 ^ 40 ≠ (UInt64.ofNat (u * 12345678901)).toNat % 2 ^ 40) ∧
    ([0, 1, 2, 3].toFinset ∪ [1, 2, 3, 4].toFinset : Finset Nat).card * 2 ^ 40 ≤ 2 ^ 60 ∧
    (∀ ω, RightLengths (100 * 1) (ops ω)) ∧ Fl.ge (.fin 0) (.fin 0) = true ∧
    (∀ ω, ∃ s, (MinHasher64.newWithHasherAndSeed (g ω) (100 * 1) (fun t => UInt64.ofNat (t * 12345678901)) 3).createSignature
      [0, 1, 2, 3] = .ok s ∧ live (100 * 1) (ops ω) 7 = some s) ∧
    (1 : ℝ) / 2 < 1 - (1 - (jaccard [0, 1, 2, 3] [1, 2, 3, 4] / 65) ^ 1) ^ 100 := by
  choose g hg using (C110_generators (2 ^ 61 - 1) (100 * 1) (by norm_num) 3).1
  choose s hs hl using fun ω => sig64_length (g ω) (100 * 1) (fun t => UInt64.ofNat (t * 12345678901)) 3 [0, 1, 2, 3]
  refine ⟨g, fun ω => [.insert 7 (s ω)], hg, by decide, by decide, fun ω op hop => ?_, by rfl, fun ω => ⟨s ω, hs ω, ?_⟩, ?_⟩
  · rw [List.mem_singleton.mp hop]
    intro x hx
    rw [List.mem_singleton.mp hx]
    exact hl ω
  · simp only [live, touch, List.reverse_cons, List.reverse_nil, List.nil_append, List.findSome?, hl ω, if_true, and_self]
    rfl
  · have hj : jaccard [0, 1, 2, 3] [1, 2, 3, 4] = 3 / 5 := by
      unfold jaccard
      rw [show ([0, 1, 2, 3].toFinset ∩ [1, 2, 3, 4].toFinset : Finset Nat).card = 3 by decide,
        show ([0, 1, 2, 3].toFinset ∪ [1, 2, 3, 4].toFinset : Finset Nat).card = 5 by decide]
      norm_num
    rw [hj]
    norm_num

/-- For the narrow hashers: 16-bit signatures, hashes that differ in the low 20 bits. -/
example : ∃ g : (Fin 50 → Coeff (2 ^ 31 - 1)) → Rng, (∀ ω, Draws (2 ^ 31 - 1) 50 (g ω) 3 ω) ∧
    (∀ t ∈ [0, 1, 2, 3] ++ [1, 2, 3, 4], ∀ u ∈ [0, 1, 2, 3] ++ [1, 2, 3, 4], t ≠ u →
      (UInt64.ofNat (t * 12345678901)).toNat % 2 ^ 20 ≠ (UInt64.ofNat (u * 12345678901)).toNat % 2 ^ 20) ∧
    jaccard [0, 1, 2, 3] [1, 2, 3, 4] / 17 ≤ proportion (fun ω => ∃ s s',
      (MinHasherN.newWithHasherAndSeed (g ω) 50 (fun t => UInt64.ofNat (t * 12345678901)) 3).sig16 [0, 1, 2, 3] = .ok s ∧
      (MinHasherN.newWithHasherAndSeed (g ω) 50 (fun t => UInt64.ofNat (t * 12345678901)) 3).sig16 [1, 2, 3, 4] = .ok s' ∧
      s[8]? = s'[8]?) := by
  choose g hg using (C110_generators (2 ^ 31 - 1) 50 (by norm_num) 3).1
  refine ⟨g, hg, by decide, ?_⟩
  exact C118_component_narrow UInt32.toUInt16 0 50 8 (fun t => UInt64.ofNat (t * 12345678901)) 3 g hg [0, 1, 2, 3]
    [1, 2, 3, 4] (by simp) (by simp) 20 (by norm_num) (by decide) (by decide)

end Verif.Props
