import Verif.Lemmas.AffineRandom
import Verif.Spec.Coefficients
import Verif.Props.Accuracy
import Verif.Props.Components

/-!
# Property C110: unrelated documents under randomly drawn coefficients

Here the hash functions are those of the code, and the coefficients are drawn uniformly.
-/
namespace Verif.Props
open Verif.Spec

section counting
variable {P : Type} [Fintype P]

open Classical in
/-- Many entries have `E` rarely. -/
theorem proportion_tail (n k : Nat) (hk : k ≤ n) (E : P → Prop) (hP : 0 < Fintype.card P) :
    proportion (fun π : Fin n → P => k ≤ (Finset.univ.filter fun i => E (π i)).card) ≤
      n.choose k * proportion E ^ k := by
  have hN : (0 : ℝ) < Fintype.card P := by exact_mod_cast hP
  have h1 : (Finset.univ.filter fun π : Fin n → P => k ≤ (Finset.univ.filter fun i => E (π i)).card) ⊆
      (Finset.powersetCard k (Finset.univ : Finset (Fin n))).biUnion fun S =>
        Fintype.piFinset fun i => if i ∈ S then Finset.univ.filter E else Finset.univ := by
    intro π hπ
    obtain ⟨S, hS, hc⟩ := Finset.exists_subset_card_eq (Finset.mem_filter.mp hπ).2
    refine Finset.mem_biUnion.mpr ⟨S, Finset.mem_powersetCard.mpr ⟨Finset.subset_univ _, hc⟩, ?_⟩
    rw [Fintype.mem_piFinset]
    intro i
    by_cases hi : i ∈ S
    · rw [if_pos hi]
      exact Finset.mem_filter.mpr ⟨Finset.mem_univ _, (Finset.mem_filter.mp (hS hi)).2⟩
    · rw [if_neg hi]; exact Finset.mem_univ _
  have h2 : ((Finset.univ.filter fun π : Fin n → P => k ≤ (Finset.univ.filter fun i => E (π i)).card).card) ≤
      n.choose k * ((Finset.univ.filter E).card ^ k * Fintype.card P ^ (n - k)) := by
    refine (Finset.card_le_card h1).trans (Finset.card_biUnion_le.trans (le_of_eq ?_))
    rw [Finset.sum_const_nat (m := (Finset.univ.filter E).card ^ k * Fintype.card P ^ (n - k)),
      Finset.card_powersetCard, Finset.card_univ, Fintype.card_fin]
    intro S hS
    have hS := (Finset.mem_powersetCard.mp hS).2
    rw [Fintype.card_piFinset]
    have : ∀ i : Fin n, (if i ∈ S then Finset.univ.filter E else Finset.univ).card =
        if i ∈ S then (Finset.univ.filter E).card else Fintype.card P := by
      intro i; split_ifs <;> rfl
    simp only [this]
    rw [Finset.prod_ite, Finset.prod_const, Finset.prod_const]
    congr 2
    · rw [← hS]; congr 1; ext i; simp
    · have : (Finset.univ.filter fun i => i ∉ S) = Sᶜ := by ext i; simp
      rw [this, Finset.card_compl, Fintype.card_fin, hS]
  rw [proportion_eq, proportion_eq]
  have hcard : (Fintype.card (Fin n → P) : ℝ) = (Fintype.card P : ℝ) ^ k * (Fintype.card P : ℝ) ^ (n - k) := by
    rw [← pow_add, Nat.add_sub_cancel' hk]; simp
  rw [hcard, div_pow, ← mul_div_assoc, div_le_div_iff₀ (by positivity) (by positivity)]
  have h3 : ((Finset.univ.filter fun π : Fin n → P => k ≤ (Finset.univ.filter fun i => E (π i)).card).card : ℝ) ≤
      n.choose k * ((Finset.univ.filter E).card ^ k * Fintype.card P ^ (n - k)) := by exact_mod_cast h2
  calc _ ≤ n.choose k * ((Finset.univ.filter E).card ^ k * (Fintype.card P : ℝ) ^ (n - k)) * (Fintype.card P : ℝ) ^ k := by
        gcongr
    _ = _ := by ring

open Classical in
/-- One entry. -/
theorem proportion_entry (n : Nat) (i : Fin n) (E : P → Prop) (hP : 0 < Fintype.card P) :
    proportion (fun π : Fin n → P => E (π i)) = proportion E := by
  have hN : (0 : ℝ) < Fintype.card P := by exact_mod_cast hP
  have h1 : (Finset.univ.filter fun π : Fin n → P => E (π i)) =
      Fintype.piFinset fun j => if j = i then Finset.univ.filter E else Finset.univ := by
    ext π
    simp only [Finset.mem_filter, Finset.mem_univ, true_and, Fintype.mem_piFinset]
    constructor
    · intro h j
      by_cases hj : j = i
      · rw [if_pos hj, hj]; exact Finset.mem_filter.mpr ⟨Finset.mem_univ _, h⟩
      · rw [if_neg hj]; exact Finset.mem_univ _
    · intro h
      have := h i
      rw [if_pos rfl] at this
      exact (Finset.mem_filter.mp this).2
  rw [proportion_eq, proportion_eq, h1, Fintype.card_piFinset]
  have : ∀ j : Fin n, (if j = i then Finset.univ.filter E else Finset.univ).card =
      if j = i then (Finset.univ.filter E).card else Fintype.card P := by
    intro j; split_ifs <;> rfl
  simp only [this]
  rw [Finset.prod_ite, Finset.prod_const, Finset.prod_const]
  have e1 : (Finset.univ.filter fun j => j = i).card = 1 := by
    rw [show (Finset.univ.filter fun j => j = i) = {i} by ext j; simp, Finset.card_singleton]
  have e2 : (Finset.univ.filter fun j => ¬ j = i).card = n - 1 := by
    have : (Finset.univ.filter fun j => ¬ j = i) = {i}ᶜ := by ext j; simp
    rw [this, Finset.card_compl, Fintype.card_fin, Finset.card_singleton]
  rw [e1, e2, pow_one]
  have hn : 1 ≤ n := by have := i.isLt; omega
  have hcard : (Fintype.card (Fin n → P) : ℝ) = (Fintype.card P : ℝ) * (Fintype.card P : ℝ) ^ (n - 1) := by
    rw [← pow_succ', Nat.sub_add_cancel hn]; simp
  rw [hcard]
  push_cast
  field_simp

open Classical in
theorem proportion_exists_mem {ι : Type} (l : List ι) (E : ι → P → Prop) (q : ℝ) (h : ∀ x ∈ l, proportion (E x) ≤ q) :
    proportion (fun ω => ∃ x ∈ l, E x ω) ≤ l.length * q := by
  induction l with
  | nil =>
    rw [proportion_eq]
    simp
  | cons x l ih =>
    have h1 := ih fun y hy => h y (List.mem_cons_of_mem _ hy)
    have h2 := h x List.mem_cons_self
    have h3 : proportion (fun ω => ∃ y ∈ x :: l, E y ω) ≤ proportion (E x) + proportion (fun ω => ∃ y ∈ l, E y ω) := by
      simp only [proportion_eq]
      rw [← add_div]
      refine div_le_div_of_nonneg_right ?_ (by positivity)
      have : (Finset.univ.filter fun ω => ∃ y ∈ x :: l, E y ω) ⊆
          (Finset.univ.filter (E x)) ∪ Finset.univ.filter fun ω => ∃ y ∈ l, E y ω := by
        intro ω hω
        obtain ⟨y, hy, hE⟩ := (Finset.mem_filter.mp hω).2
        rcases List.mem_cons.mp hy with rfl | hy
        · exact Finset.mem_union_left _ (Finset.mem_filter.mpr ⟨Finset.mem_univ _, hE⟩)
        · exact Finset.mem_union_right _ (Finset.mem_filter.mpr ⟨Finset.mem_univ _, y, hy, hE⟩)
      exact_mod_cast (Finset.card_le_card this).trans (Finset.card_union_le _ _)
    rw [List.length_cons]
    push_cast
    linarith

end counting

/-! ### Collisions of two hashes -/

open Classical in
/-- How often two hashes collide when the coefficients are drawn. -/
theorem collide_le (W K p x y : Nat) (hp : 1 < p) (hK : 2 ^ W ≤ (K + 1) * p) :
    proportion (fun c : Coeff p => affineNat W p (c.1.val + 1) c.2.val x = affineNat W p (c.1.val + 1) c.2.val y) ≤
      ((badSlopes W K p p ((x : ℤ) - y)).card : ℝ) / ((p - 1 : ℕ) : ℝ) := by
  rw [proportion_eq]
  have h1 : (Finset.univ.filter fun c : Coeff p =>
      affineNat W p (c.1.val + 1) c.2.val x = affineNat W p (c.1.val + 1) c.2.val y).card ≤
      (badSlopes W K p p ((x : ℤ) - y)).card * p := by
    have hsub : (Finset.univ.filter fun c : Coeff p =>
        affineNat W p (c.1.val + 1) c.2.val x = affineNat W p (c.1.val + 1) c.2.val y) ⊆
        (Finset.univ.filter fun a : Fin (p - 1) => a.val + 1 ∈ badSlopes W K p p ((x : ℤ) - y)) ×ˢ Finset.univ := by
      intro c hc
      refine Finset.mem_product.mpr ⟨Finset.mem_filter.mpr ⟨Finset.mem_univ _, ?_⟩, Finset.mem_univ _⟩
      have := c.1.isLt
      refine Finset.mem_filter.mpr ⟨Finset.mem_Ico.mpr ⟨by omega, by omega⟩, ?_⟩
      exact affine_multiple (by omega) hK (Finset.mem_filter.mp hc).2
    refine (Finset.card_le_card hsub).trans ?_
    rw [Finset.card_product, Finset.card_univ, Fintype.card_fin]
    refine Nat.mul_le_mul_right _ ?_
    refine Finset.card_le_card_of_injOn (fun a => a.val + 1) ?_ ?_
    · intro a ha
      exact (Finset.mem_filter.mp ha).2
    · intro a _ a' _ h
      exact Fin.ext (by simpa using h)
  have hc : (Fintype.card (Coeff p) : ℝ) = ((p - 1 : ℕ) : ℝ) * p := by
    rw [Fintype.card_prod, Fintype.card_fin, Fintype.card_fin]; push_cast; ring
  have hp0 : (0 : ℝ) < p := by exact_mod_cast (by omega : 0 < p)
  have hp1 : (0 : ℝ) < ((p - 1 : ℕ) : ℝ) := by exact_mod_cast (by omega : 0 < p - 1)
  rw [hc, div_le_div_iff₀ (by positivity) hp1]
  have h1' : ((Finset.univ.filter fun c : Coeff p =>
      affineNat W p (c.1.val + 1) c.2.val x = affineNat W p (c.1.val + 1) c.2.val y).card : ℝ) ≤
      (badSlopes W K p p ((x : ℤ) - y)).card * p := by exact_mod_cast h1
  nlinarith

/-- 64 bits. -/
theorem collide64 {m x y : Nat} (hm : m ≤ 64) (h : x % 2 ^ m ≠ y % 2 ^ m) :
    proportion (fun c : Coeff mersenne61 =>
      affineNat 64 mersenne61 (c.1.val + 1) c.2.val x = affineNat 64 mersenne61 (c.1.val + 1) c.2.val y) ≤
      max 16 (2 ^ (m - 4)) / (2 ^ 61 - 2) := by
  refine (collide_le 64 8 mersenne61 x y (by norm_num [mersenne61]) (by norm_num [mersenne61])).trans ?_
  obtain ⟨v, c, hv, hc, e⟩ := difference_low h
  rw [e]
  have hden : ((mersenne61 - 1 : ℕ) : ℝ) = 2 ^ 61 - 2 := by norm_num [mersenne61]
  rw [hden]
  refine div_le_div_of_nonneg_right ?_ (by norm_num)
  rcases Nat.lt_or_ge v 4 with h4 | h4
  · refine le_trans ?_ (le_max_left _ _)
    have hN : mersenne61 ≤ 2 ^ (64 - v) := by
      refine le_trans ?_ (Nat.pow_le_pow_right (by norm_num) (by omega : 61 ≤ 64 - v))
      norm_num [mersenne61]
    exact_mod_cast badSlopes_low (K := 8) (p := mersenne61) hc (by omega) hN
  · refine le_trans ?_ (le_max_right _ _)
    have h8 : 8 < 2 ^ v := lt_of_lt_of_le (by norm_num) (Nat.pow_le_pow_right (by norm_num) h4)
    have := badSlopes_high (K := 8) (p := mersenne61) (N := mersenne61) (s := 3) hc (by omega : v ≤ 64)
      (by norm_num [mersenne61]) h8 (by omega) (by norm_num [mersenne61])
    have h2 : 2 ^ (v - 3) - 1 ≤ 2 ^ (m - 4) :=
      (Nat.sub_le _ _).trans (Nat.pow_le_pow_right (by norm_num) (by omega))
    exact_mod_cast this.trans h2

/-- 32 bits. -/
theorem collide32 {m x y : Nat} (hm : m ≤ 32) (h : x % 2 ^ m ≠ y % 2 ^ m) :
    proportion (fun c : Coeff mersenne31 =>
      affineNat 32 mersenne31 (c.1.val + 1) c.2.val x = affineNat 32 mersenne31 (c.1.val + 1) c.2.val y) ≤
      max 4 (2 ^ (m - 2)) / (2 ^ 31 - 2) := by
  refine (collide_le 32 2 mersenne31 x y (by norm_num [mersenne31]) (by norm_num [mersenne31])).trans ?_
  obtain ⟨v, c, hv, hc, e⟩ := difference_low h
  rw [e]
  have hden : ((mersenne31 - 1 : ℕ) : ℝ) = 2 ^ 31 - 2 := by norm_num [mersenne31]
  rw [hden]
  refine div_le_div_of_nonneg_right ?_ (by norm_num)
  rcases Nat.lt_or_ge v 2 with h4 | h4
  · refine le_trans ?_ (le_max_left _ _)
    have hN : mersenne31 ≤ 2 ^ (32 - v) := by
      refine le_trans ?_ (Nat.pow_le_pow_right (by norm_num) (by omega : 31 ≤ 32 - v))
      norm_num [mersenne31]
    exact_mod_cast badSlopes_low (K := 2) (p := mersenne31) hc (by omega) hN
  · refine le_trans ?_ (le_max_right _ _)
    have h8 : 2 < 2 ^ v := lt_of_lt_of_le (by norm_num) (Nat.pow_le_pow_right (by norm_num) h4)
    have := badSlopes_high (K := 2) (p := mersenne31) (N := mersenne31) (s := 1) hc (by omega : v ≤ 32)
      (by norm_num [mersenne31]) h8 (by omega) (by norm_num [mersenne31])
    have h2 : 2 ^ (v - 1) - 1 ≤ 2 ^ (m - 2) :=
      (Nat.sub_le _ _).trans (Nat.pow_le_pow_right (by norm_num) (by omega))
    exact_mod_cast this.trans h2

/-! ### Signatures with drawn coefficients -/

variable {Tok : Type}

theorem draws_iff {p n : Nat} {g : Rng} {seed : UInt64} {ω : Fin n → Coeff p} : Draws p n g seed ω ↔
    (g.sampleN 1 p n (g.seedFromU64 seed)).1 = List.ofFn (fun i => (ω i).1.val + 1) ∧
    (g.sampleN 0 p n (g.sampleN 1 p n (g.seedFromU64 seed)).2).1 = List.ofFn (fun i => (ω i).2.val) :=
  drawsLists_iff g p n seed List.length_ofFn List.length_ofFn

theorem draws_sig64 {n : Nat} {g : Rng} {seed : UInt64} {ω : Fin n → Coeff (2 ^ 61 - 1)}
    (h : Draws (2 ^ 61 - 1) n g seed ω) (hash : Tok → UInt64) {A : List Tok} (hA : A ≠ []) :
    (MinHasher64.newWithHasherAndSeed g n hash seed).createSignature A =
      .ok (List.ofFn fun i => comp64 hash A (UInt64.ofNat ((ω i).1.val + 1), UInt64.ofNat (ω i).2.val)) := by
  rw [createSignature64_cons _ hA]
  have ha : (MinHasher64.newWithHasherAndSeed g n hash seed).a =
      (List.ofFn (fun i => (ω i).1.val + 1)).map UInt64.ofNat := congrArg (List.map UInt64.ofNat) (draws_iff.mp h).1
  have hb : (MinHasher64.newWithHasherAndSeed g n hash seed).b =
      (List.ofFn (fun i => (ω i).2.val)).map UInt64.ofNat := congrArg (List.map UInt64.ofNat) (draws_iff.mp h).2
  rw [ha, hb]
  congr 1
  apply List.ext_getElem
  · simp
  · intro i h1 h2
    simp [MinHasher64.newWithHasherAndSeed]

theorem draws_sig32 {n : Nat} {g : Rng} {seed : UInt64} {ω : Fin n → Coeff (2 ^ 31 - 1)}
    (h : Draws (2 ^ 31 - 1) n g seed ω) (hash : Tok → UInt64) {A : List Tok} (hA : A ≠ []) :
    (MinHasherN.newWithHasherAndSeed g n hash seed).sig32 A =
      .ok (List.ofFn fun i => comp32 hash A (UInt32.ofNat ((ω i).1.val + 1), UInt32.ofNat (ω i).2.val)) := by
  unfold MinHasherN.sig32
  rw [createSignature_cons _ _ _ hA]
  have ha : (MinHasherN.newWithHasherAndSeed g n hash seed).a =
      (List.ofFn (fun i => (ω i).1.val + 1)).map UInt32.ofNat := congrArg (List.map UInt32.ofNat) (draws_iff.mp h).1
  have hb : (MinHasherN.newWithHasherAndSeed g n hash seed).b =
      (List.ofFn (fun i => (ω i).2.val)).map UInt32.ofNat := congrArg (List.map UInt32.ofNat) (draws_iff.mp h).2
  rw [ha, hb]
  congr 1
  apply List.ext_getElem
  · simp
  · intro i h1 h2
    simp [MinHasherN.newWithHasherAndSeed]

theorem agree_ofFn {V : Type} [DecidableEq V] {n : Nat} (f g : Fin n → V) :
    agree (List.ofFn f) (List.ofFn g) = (Finset.univ.filter fun i => f i = g i).card := by
  unfold agree
  rw [List.length_ofFn]
  symm
  refine Finset.card_bij (fun i _ => i.val) ?_ ?_ ?_
  · intro i hi
    refine Finset.mem_filter.mpr ⟨Finset.mem_range.mpr i.isLt, ?_⟩
    simp [(Finset.mem_filter.mp hi).2]
  · intro i _ j _ h
    exact Fin.ext h
  · intro i hi
    obtain ⟨hi, h⟩ := Finset.mem_filter.mp hi
    have hi := Finset.mem_range.mp hi
    exact ⟨⟨i, hi⟩, Finset.mem_filter.mpr ⟨Finset.mem_univ _, by simpa [hi] using h⟩, rfl⟩

theorem coeff64_toNat (c : Coeff (2 ^ 61 - 1)) : (UInt64.ofNat (c.1.val + 1)).toNat = c.1.val + 1 ∧
    (UInt64.ofNat c.2.val).toNat = c.2.val := by
  have h1 := c.1.isLt
  have h2 := c.2.isLt
  exact ⟨UInt64.toNat_ofNat_of_lt' (by show _ < 2 ^ 64; omega), UInt64.toNat_ofNat_of_lt' (by show _ < 2 ^ 64; omega)⟩

theorem coeff32_toNat (c : Coeff (2 ^ 31 - 1)) : (UInt32.ofNat (c.1.val + 1)).toNat = c.1.val + 1 ∧
    (UInt32.ofNat c.2.val).toNat = c.2.val := by
  have h1 := c.1.isLt
  have h2 := c.2.isLt
  exact ⟨UInt32.toNat_ofNat_of_lt' (by show _ < 2 ^ 32; omega), UInt32.toNat_ofNat_of_lt' (by show _ < 2 ^ 32; omega)⟩

/-- One component of `MinHasher64V1`. -/
theorem component64 (hash : Tok → UInt64) {A B : List Tok} (hA : A ≠ []) (hB : B ≠ []) {m : Nat} (hm : m ≤ 64)
    (hd : ∀ t ∈ A, ∀ u ∈ B, (hash t).toNat % 2 ^ m ≠ (hash u).toNat % 2 ^ m) :
    proportion (fun c : Coeff (2 ^ 61 - 1) =>
      comp64 hash A (UInt64.ofNat (c.1.val + 1), UInt64.ofNat c.2.val) =
        comp64 hash B (UInt64.ofNat (c.1.val + 1), UInt64.ofNat c.2.val)) ≤
      A.length * B.length * (max 16 (2 ^ (m - 4)) / (2 ^ 61 - 2)) := by
  have h1 := proportion_exists_mem (A ×ˢ B) (fun (x : Tok × Tok) (c : Coeff mersenne61) =>
      affineNat 64 mersenne61 (c.1.val + 1) c.2.val (hash x.1).toNat =
        affineNat 64 mersenne61 (c.1.val + 1) c.2.val (hash x.2).toNat) (max 16 (2 ^ (m - 4)) / (2 ^ 61 - 2)) (by
      intro x hx
      have hx := List.pair_mem_product.mp hx
      exact collide64 hm (hd _ hx.1 _ hx.2))
  rw [List.length_product] at h1
  push_cast at h1
  refine le_trans (proportion_mono fun c hc => ?_) h1
  obtain ⟨t, ht, e1⟩ := (comp64_spec hash hA (UInt64.ofNat (c.1.val + 1), UInt64.ofNat c.2.val)).1
  obtain ⟨u, hu, e2⟩ := (comp64_spec hash hB (UInt64.ofNat (c.1.val + 1), UInt64.ofNat c.2.val)).1
  refine ⟨(t, u), List.pair_mem_product.mpr ⟨ht, hu⟩, ?_⟩
  have h2 := congrArg UInt64.toNat (e1.symm.trans (hc.trans e2))
  rw [affine64_toNat, affine64_toNat, (coeff64_toNat c).1, (coeff64_toNat c).2] at h2
  exact h2

/-- One component of `MinHasher32`. -/
theorem component32 (hash : Tok → UInt64) {A B : List Tok} (hA : A ≠ []) (hB : B ≠ []) {m : Nat} (hm : m ≤ 32)
    (hd : ∀ t ∈ A, ∀ u ∈ B, (hash t).toNat % 2 ^ m ≠ (hash u).toNat % 2 ^ m) :
    proportion (fun c : Coeff (2 ^ 31 - 1) =>
      comp32 hash A (UInt32.ofNat (c.1.val + 1), UInt32.ofNat c.2.val) =
        comp32 hash B (UInt32.ofNat (c.1.val + 1), UInt32.ofNat c.2.val)) ≤
      A.length * B.length * (max 4 (2 ^ (m - 2)) / (2 ^ 31 - 2)) := by
  have hlow : ∀ x : Tok, (hash x).toUInt32.toNat % 2 ^ m = (hash x).toNat % 2 ^ m := by
    intro x
    rw [UInt64.toNat_toUInt32]
    exact Nat.mod_mod_of_dvd _ (pow_dvd_pow 2 hm)
  have h1 := proportion_exists_mem (A ×ˢ B) (fun (x : Tok × Tok) (c : Coeff mersenne31) =>
      affineNat 32 mersenne31 (c.1.val + 1) c.2.val (hash x.1).toUInt32.toNat =
        affineNat 32 mersenne31 (c.1.val + 1) c.2.val (hash x.2).toUInt32.toNat) (max 4 (2 ^ (m - 2)) / (2 ^ 31 - 2)) (by
      intro x hx
      have hx := List.pair_mem_product.mp hx
      exact collide32 hm (by rw [hlow, hlow]; exact hd _ hx.1 _ hx.2))
  rw [List.length_product] at h1
  push_cast at h1
  refine le_trans (proportion_mono fun c hc => ?_) h1
  obtain ⟨t, ht, e1⟩ := (comp32_spec hash hA (UInt32.ofNat (c.1.val + 1), UInt32.ofNat c.2.val)).1
  obtain ⟨u, hu, e2⟩ := (comp32_spec hash hB (UInt32.ofNat (c.1.val + 1), UInt32.ofNat c.2.val)).1
  refine ⟨(t, u), List.pair_mem_product.mpr ⟨ht, hu⟩, ?_⟩
  have h2 := congrArg UInt32.toNat (e1.symm.trans (hc.trans e2))
  rw [affine32_toNat, affine32_toNat, (coeff32_toNat c).1, (coeff32_toNat c).2] at h2
  exact h2

theorem coeff_pos {p : Nat} (hp : 1 < p) : 0 < Fintype.card (Coeff p) := by
  rw [Fintype.card_prod, Fintype.card_fin, Fintype.card_fin]
  exact Nat.mul_pos (by omega) (by omega)

theorem proportion_nonneg {Ω : Type} [Fintype Ω] (P : Ω → Prop) : 0 ≤ proportion P := by
  unfold proportion; positivity

/-! ## C110 -/

/-- C110: draw the coefficients of `MinHasher64V1` uniformly. If the hashes of the tokens of `A` differ from those of
`B` in the low `m` bits, then the signatures agree in at least `k` components with probability at most
`C(n, k) q^k`, where `q = |A| |B| max(16, 2^(m-4)) / (2^61 - 2)`. -/
theorem C110_agree_64 (n k : Nat) (hk : k ≤ n) (hash : Tok → UInt64) (seed : UInt64)
    (g : (Fin n → Coeff (2 ^ 61 - 1)) → Rng) (hg : ∀ ω, Draws (2 ^ 61 - 1) n (g ω) seed ω) (A B : List Tok) (hA : A ≠ [])
    (hB : B ≠ []) (m : Nat) (hm : m ≤ 64)
    (hd : ∀ t ∈ A, ∀ u ∈ B, (hash t).toNat % 2 ^ m ≠ (hash u).toNat % 2 ^ m) :
    proportion (fun ω => ∃ s s', (MinHasher64.newWithHasherAndSeed (g ω) n hash seed).createSignature A = .ok s ∧
      (MinHasher64.newWithHasherAndSeed (g ω) n hash seed).createSignature B = .ok s' ∧ k ≤ agree s s') ≤
      n.choose k * (A.length * B.length * (max 16 (2 ^ (m - 4)) / (2 ^ 61 - 2))) ^ k := by
  classical
  have h1 := proportion_tail n k hk (fun c : Coeff (2 ^ 61 - 1) =>
      comp64 hash A (UInt64.ofNat (c.1.val + 1), UInt64.ofNat c.2.val) =
        comp64 hash B (UInt64.ofNat (c.1.val + 1), UInt64.ofNat c.2.val)) (coeff_pos (by norm_num))
  have h2 := component64 hash hA hB hm hd
  refine (proportion_mono fun ω hω => ?_).trans (h1.trans ?_)
  · obtain ⟨s, s', e1, e2, h⟩ := hω
    rw [draws_sig64 (hg ω) hash hA, Except.ok.injEq] at e1
    rw [draws_sig64 (hg ω) hash hB, Except.ok.injEq] at e2
    rw [← e1, ← e2, agree_ofFn] at h
    refine h.trans (le_of_eq ?_)
    congr!
  · exact mul_le_mul_of_nonneg_left (pow_le_pow_left₀ (proportion_nonneg _) h2 k) (by positivity)

/-- C110 for `MinHasher32`. -/
theorem C110_agree_32 (n k : Nat) (hk : k ≤ n) (hash : Tok → UInt64) (seed : UInt64)
    (g : (Fin n → Coeff (2 ^ 31 - 1)) → Rng) (hg : ∀ ω, Draws (2 ^ 31 - 1) n (g ω) seed ω) (A B : List Tok) (hA : A ≠ [])
    (hB : B ≠ []) (m : Nat) (hm : m ≤ 32)
    (hd : ∀ t ∈ A, ∀ u ∈ B, (hash t).toNat % 2 ^ m ≠ (hash u).toNat % 2 ^ m) :
    proportion (fun ω => ∃ s s', (MinHasherN.newWithHasherAndSeed (g ω) n hash seed).sig32 A = .ok s ∧
      (MinHasherN.newWithHasherAndSeed (g ω) n hash seed).sig32 B = .ok s' ∧ k ≤ agree s s') ≤
      n.choose k * (A.length * B.length * (max 4 (2 ^ (m - 2)) / (2 ^ 31 - 2))) ^ k := by
  classical
  have h1 := proportion_tail n k hk (fun c : Coeff (2 ^ 31 - 1) =>
      comp32 hash A (UInt32.ofNat (c.1.val + 1), UInt32.ofNat c.2.val) =
        comp32 hash B (UInt32.ofNat (c.1.val + 1), UInt32.ofNat c.2.val)) (coeff_pos (by norm_num))
  have h2 := component32 hash hA hB hm hd
  refine (proportion_mono fun ω hω => ?_).trans (h1.trans ?_)
  · obtain ⟨s, s', e1, e2, h⟩ := hω
    rw [draws_sig32 (hg ω) hash hA, Except.ok.injEq] at e1
    rw [draws_sig32 (hg ω) hash hB, Except.ok.injEq] at e2
    rw [← e1, ← e2, agree_ofFn] at h
    refine h.trans (le_of_eq ?_)
    congr!
  · exact mul_le_mul_of_nonneg_left (pow_le_pow_left₀ (proportion_nonneg _) h2 k) (by positivity)

/-- An id can be returned only if enough components agree. -/
theorem returned_agree {V Id C : Type} [DecidableEq V] [DecidableEq Id] [IdContainer C Id] [LawfulIdContainer C Id]
    {b r k : Nat} {t : ℚ} {h : List V → UInt64} {ops : List (Op V Id)} {id : Id} {s s' : List V} (h0 : 0 < b * r)
    (hn : b * r ≤ 2 ^ 53) (hs : s.length = b * r) (hs' : s'.length = b * r) (hlive : live (b * r) ops id = some s)
    (ht : ((k : ℝ) - 1) / (b * r : ℕ) + 1 / 2 ^ 54 < t) {res : HSet Id}
    (hres : (After C b r (.fin t) h ops).query s' = .ok res) (hid : id ∈ res.elems) : k ≤ agree s s' := by
  obtain ⟨s1, v, h1, hv, hge⟩ := C16_query b r (.fin t) h ops _ res hres id hid
  rw [hlive, Option.some.injEq] at h1
  subst h1
  by_contra hlt
  rw [minhashSimilarity_eq (by rw [hs, hs']) (by rw [hs]; exact h0) (by rw [hs]; exact hn), Except.ok.injEq] at hv
  have hle := agree_le s s'
  rw [hs] at hle hv
  have hu := ratio_unit hle
  have herr := rndQ_err_unit b64_ok hu.1 hu.2
  rw [← hv, ge_fin] at hge
  have herr' : |((rndQ b64 ((agree s s' : ℚ) / (b * r : ℕ)) : ℚ) : ℝ) - (agree s s' : ℝ) / (b * r : ℕ)| ≤ 1 / 2 ^ 54 := by
    have := (Rat.cast_le (K := ℝ)).mpr herr
    simpa [b64] using this
  have hge' : (t : ℝ) ≤ ((rndQ b64 ((agree s s' : ℚ) / (b * r : ℕ)) : ℚ) : ℝ) := by exact_mod_cast hge
  have hk : (agree s s' : ℝ) ≤ (k : ℝ) - 1 := by
    have : agree s s' + 1 ≤ k := by omega
    have : ((agree s s' + 1 : ℕ) : ℝ) ≤ k := by exact_mod_cast this
    push_cast at this
    linarith
  have h0' : (0 : ℝ) < (b * r : ℕ) := by exact_mod_cast h0
  have hdiv : (agree s s' : ℝ) / (b * r : ℕ) ≤ ((k : ℝ) - 1) / (b * r : ℕ) := by gcongr
  have := (abs_le.mp herr').2
  linarith

section index
variable {Id C : Type} [DecidableEq Id] [IdContainer C Id] [LawfulIdContainer C Id]

/-- C110: so an index of `b` bands of `r` rows whose threshold asks for at least `k` agreeing components returns an
unrelated document with at most this probability, whatever else it contains. -/
theorem C110_false_positives_64 (b r k : Nat) (hk : k ≤ b * r) (t : ℚ) (h : List UInt64 → UInt64) (hash : Tok → UInt64)
    (seed : UInt64) (g : (Fin (b * r) → Coeff (2 ^ 61 - 1)) → Rng) (hg : ∀ ω, Draws (2 ^ 61 - 1) (b * r) (g ω) seed ω)
    (A B : List Tok) (hA : A ≠ []) (hB : B ≠ []) (m : Nat) (hm : m ≤ 64)
    (hd : ∀ t ∈ A, ∀ u ∈ B, (hash t).toNat % 2 ^ m ≠ (hash u).toNat % 2 ^ m) (h0 : 0 < b * r) (hn : b * r ≤ 2 ^ 53)
    (ht : ((k : ℝ) - 1) / (b * r : ℕ) + 1 / 2 ^ 54 < t) (id : Id)
    (ops : (Fin (b * r) → Coeff (2 ^ 61 - 1)) → List (Op UInt64 Id))
    (hlive : ∀ ω, ∃ s, (MinHasher64.newWithHasherAndSeed (g ω) (b * r) hash seed).createSignature A = .ok s ∧
      live (b * r) (ops ω) id = some s) :
    proportion (fun ω => ∃ s' res, (MinHasher64.newWithHasherAndSeed (g ω) (b * r) hash seed).createSignature B = .ok s' ∧
      (After C b r (.fin t) h (ops ω)).query s' = .ok res ∧ id ∈ res.elems) ≤
      (b * r).choose k * (A.length * B.length * (max 16 (2 ^ (m - 4)) / (2 ^ 61 - 2))) ^ k := by
  refine (proportion_mono fun ω hω => ?_).trans (C110_agree_64 (b * r) k hk hash seed g hg A B hA hB m hm hd)
  obtain ⟨s', res, e', hres, hid⟩ := hω
  obtain ⟨s, e, hl⟩ := hlive ω
  obtain ⟨s1, e1, l1⟩ := sig64_length (g ω) (b * r) hash seed A
  obtain ⟨s2, e2, l2⟩ := sig64_length (g ω) (b * r) hash seed B
  rw [e, Except.ok.injEq] at e1
  rw [e', Except.ok.injEq] at e2
  subst e1 e2
  exact ⟨s, s', e, e', returned_agree h0 hn l1 l2 hl ht hres hid⟩

/-- C110 for `MinHasher32`. -/
theorem C110_false_positives_32 (b r k : Nat) (hk : k ≤ b * r) (t : ℚ) (h : List UInt32 → UInt64) (hash : Tok → UInt64)
    (seed : UInt64) (g : (Fin (b * r) → Coeff (2 ^ 31 - 1)) → Rng) (hg : ∀ ω, Draws (2 ^ 31 - 1) (b * r) (g ω) seed ω)
    (A B : List Tok) (hA : A ≠ []) (hB : B ≠ []) (m : Nat) (hm : m ≤ 32)
    (hd : ∀ t ∈ A, ∀ u ∈ B, (hash t).toNat % 2 ^ m ≠ (hash u).toNat % 2 ^ m) (h0 : 0 < b * r) (hn : b * r ≤ 2 ^ 53)
    (ht : ((k : ℝ) - 1) / (b * r : ℕ) + 1 / 2 ^ 54 < t) (id : Id)
    (ops : (Fin (b * r) → Coeff (2 ^ 31 - 1)) → List (Op UInt32 Id))
    (hlive : ∀ ω, ∃ s, (MinHasherN.newWithHasherAndSeed (g ω) (b * r) hash seed).sig32 A = .ok s ∧
      live (b * r) (ops ω) id = some s) :
    proportion (fun ω => ∃ s' res, (MinHasherN.newWithHasherAndSeed (g ω) (b * r) hash seed).sig32 B = .ok s' ∧
      (After C b r (.fin t) h (ops ω)).query s' = .ok res ∧ id ∈ res.elems) ≤
      (b * r).choose k * (A.length * B.length * (max 4 (2 ^ (m - 2)) / (2 ^ 31 - 2))) ^ k := by
  refine (proportion_mono fun ω hω => ?_).trans (C110_agree_32 (b * r) k hk hash seed g hg A B hA hB m hm hd)
  obtain ⟨s', res, e', hres, hid⟩ := hω
  obtain ⟨s, e, hl⟩ := hlive ω
  obtain ⟨s1, e1, l1⟩ := sigN_length (fun h => h) 0 (g ω) (b * r) hash seed A
  obtain ⟨s2, e2, l2⟩ := sigN_length (fun h => h) 0 (g ω) (b * r) hash seed B
  have e1 := e.symm.trans e1
  have e2 := e'.symm.trans e2
  rw [Except.ok.injEq] at e1 e2
  subst e1 e2
  exact ⟨s, s', e, e', returned_agree h0 hn l1 l2 hl ht hres hid⟩

end index

/-! ### Hashes that agree in many low bits -/

/-- If only high bits differ, the hashes collide exactly for the slopes that are multiples of a power of two. -/
theorem affine_high_iff {W K p v a b x y : Nat} (hp : 0 < p) (hodd : (p : ℤ) % 2 = 1) (hK : 2 ^ W ≤ (K + 1) * p)
    (hKv : K < 2 ^ v) (hv : v ≤ W) {c : ℤ} (hc : c % 2 = 1) (e : (x : ℤ) - y = 2 ^ v * c) :
    affineNat W p a b x = affineNat W p a b y ↔ 2 ^ (W - v) ∣ a := by
  constructor
  · intro h
    obtain ⟨k, h2, h3, h4⟩ := affine_multiple hp hK h
    rw [e] at h4
    have h5 : (2 : ℤ) ^ v ∣ k * p := by
      have h6 : (2 : ℤ) ^ v ∣ 2 ^ W := pow_dvd_pow _ hv
      have h7 : (2 : ℤ) ^ v ∣ a * (2 ^ v * c) := ⟨a * c, by ring⟩
      have := dvd_sub h7 (h6.trans h4)
      rwa [sub_sub_cancel] at this
    have h8 : (2 : ℤ) ^ v ∣ k := (two_pow_coprime_odd hodd).dvd_of_dvd_mul_right h5
    have hK' : (K : ℤ) < 2 ^ v := by exact_mod_cast hKv
    have h0 : k = 0 := Int.eq_zero_of_abs_lt_dvd h8 (by rw [abs_lt]; omega)
    rw [h0, zero_mul, sub_zero] at h4
    have := two_pow_dvd_of_mul hv hc h4
    exact_mod_cast this
  · rintro ⟨d, rfl⟩
    unfold affineNat
    congr 1
    have h1 : (y * (2 ^ (W - v) * d) + b : ℤ) ≡ x * (2 ^ (W - v) * d) + b [ZMOD ((2 ^ W : ℕ) : ℤ)] := by
      rw [Int.modEq_iff_dvd]
      refine ⟨c * d, ?_⟩
      have e' : (x : ℤ) = y + 2 ^ v * c := by linarith
      have hw : ((2 ^ W : ℕ) : ℤ) = 2 ^ v * 2 ^ (W - v) := by push_cast; rw [← pow_add]; congr 1; omega
      rw [e', hw]
      ring
    have h2 := (Int.natCast_modEq_iff (a := y * (2 ^ (W - v) * d) + b) (b := x * (2 ^ (W - v) * d) + b)).mp (by
      push_cast
      push_cast at h1
      exact h1)
    exact h2.symm

open Classical in
theorem collide_high {W K p v x y : Nat} (hp : 1 < p) (hodd : (p : ℤ) % 2 = 1) (hK : 2 ^ W ≤ (K + 1) * p)
    (hKv : K < 2 ^ v) (hv : v ≤ W) {c : ℤ} (hc : c % 2 = 1) (e : (x : ℤ) - y = 2 ^ v * c) :
    proportion (fun c : Coeff p => affineNat W p (c.1.val + 1) c.2.val x = affineNat W p (c.1.val + 1) c.2.val y) =
      (((p - 1) / 2 ^ (W - v) : ℕ) : ℝ) / ((p - 1 : ℕ) : ℝ) := by
  rw [proportion_eq]
  have h1 : (Finset.univ.filter fun c : Coeff p =>
      affineNat W p (c.1.val + 1) c.2.val x = affineNat W p (c.1.val + 1) c.2.val y) =
      (Finset.univ.filter fun a : Fin (p - 1) => 2 ^ (W - v) ∣ a.val + 1) ×ˢ Finset.univ := by
    ext d
    simp only [Finset.mem_filter, Finset.mem_univ, true_and, Finset.mem_product, and_true]
    exact affine_high_iff (by omega) hodd hK hKv hv hc e
  have h2 : (Finset.univ.filter fun a : Fin (p - 1) => 2 ^ (W - v) ∣ a.val + 1).card = (p - 1) / 2 ^ (W - v) := by
    rw [← Nat.Ioc_filter_dvd_card_eq_div]
    refine Finset.card_bij (fun a _ => a.val + 1) ?_ ?_ ?_
    · intro a ha
      have := a.isLt
      exact Finset.mem_filter.mpr ⟨Finset.mem_Ioc.mpr ⟨by omega, by omega⟩, (Finset.mem_filter.mp ha).2⟩
    · intro a _ a' _ h
      exact Fin.ext (by simpa using h)
    · intro a ha
      obtain ⟨ha, hd⟩ := Finset.mem_filter.mp ha
      obtain ⟨h3, h4⟩ := Finset.mem_Ioc.mp ha
      exact ⟨⟨a - 1, by omega⟩, Finset.mem_filter.mpr ⟨Finset.mem_univ _, by
        show 2 ^ (W - v) ∣ a - 1 + 1
        rwa [Nat.sub_add_cancel h3]⟩, by show a - 1 + 1 = a; omega⟩
  rw [h1, Finset.card_product, Finset.card_univ, Fintype.card_fin, h2, Fintype.card_prod, Fintype.card_fin, Fintype.card_fin]
  have hp0 : (0 : ℝ) < p := by exact_mod_cast (by omega : 0 < p)
  push_cast
  rw [mul_div_mul_right _ _ hp0.ne']

/-- The first difference is at bit `v`. -/
theorem difference_bit {v x y : Nat} (h : x % 2 ^ v = y % 2 ^ v) (hb : x / 2 ^ v % 2 ≠ y / 2 ^ v % 2) :
    ∃ c : ℤ, c % 2 = 1 ∧ (x : ℤ) - y = 2 ^ v * c := by
  refine ⟨(x / 2 ^ v : ℕ) - (y / 2 ^ v : ℕ), by omega, ?_⟩
  have h1 := congrArg (fun n : Nat => (n : ℤ)) (Nat.div_add_mod x (2 ^ v))
  have h2 := congrArg (fun n : Nat => (n : ℤ)) (Nat.div_add_mod y (2 ^ v))
  rw [h] at h1
  obtain ⟨qx, e1⟩ : ∃ q, q = x / 2 ^ v := ⟨_, rfl⟩
  obtain ⟨qy, e2⟩ : ∃ q, q = y / 2 ^ v := ⟨_, rfl⟩
  obtain ⟨r, e3⟩ : ∃ q, q = y % 2 ^ v := ⟨_, rfl⟩
  rw [← e1, ← e3] at h1
  rw [← e2, ← e3] at h2
  rw [← e1, ← e2]
  simp only [Nat.cast_add, Nat.cast_mul, Nat.cast_pow, Nat.cast_ofNat] at h1 h2
  linear_combination h2 - h1

theorem pow_div_lemma {N s v : Nat} (h1 : s < v) (h2 : v < N) :
    (2 ^ (N - s) - 1 - 1) / 2 ^ (N - v) = 2 ^ (v - s) - 1 := by
  have e : 2 ^ (N - s) = 2 ^ (v - s) * 2 ^ (N - v) := by rw [← pow_add]; congr 1; omega
  have hP : 1 ≤ 2 ^ (v - s) := Nat.one_le_two_pow
  have hQ : 2 ≤ 2 ^ (N - v) := by
    calc 2 = 2 ^ 1 := rfl
      _ ≤ 2 ^ (N - v) := Nat.pow_le_pow_right (by norm_num) (by omega)
  rw [e]
  obtain ⟨P, hP'⟩ : ∃ P, 2 ^ (v - s) = P + 1 := ⟨2 ^ (v - s) - 1, by omega⟩
  obtain ⟨Q, hQ'⟩ : ∃ Q, 2 ^ (N - v) = Q + 2 := ⟨2 ^ (N - v) - 2, by omega⟩
  rw [hP', hQ', Nat.add_sub_cancel]
  rw [show (P + 1) * (Q + 2) - 1 - 1 = Q + P * (Q + 2) by
    have : (P + 1) * (Q + 2) = P * (Q + 2) + Q + 2 := by ring
    omega]
  rw [Nat.add_mul_div_right _ _ (by omega), Nat.div_eq_of_lt (by omega), Nat.zero_add]

/-- C110, exact: two tokens whose hashes agree in the low `v` bits (`v` at least 4) and differ in bit `v` have the same
component of `MinHasher64V1` with probability `(2^(v-3) - 1) / (2^61 - 2)`: the bound is attained up to 1, and for
hashes that differ only in the highest bit a component agrees with probability one half. -/
theorem C110_exact_64 (n : Nat) (i : Fin n) (hash : Tok → UInt64) (seed : UInt64)
    (g : (Fin n → Coeff (2 ^ 61 - 1)) → Rng) (hg : ∀ ω, Draws (2 ^ 61 - 1) n (g ω) seed ω) (t u : Tok) (v : Nat)
    (hv : 4 ≤ v) (hv' : v < 64) (h : (hash t).toNat % 2 ^ v = (hash u).toNat % 2 ^ v)
    (hb : (hash t).toNat / 2 ^ v % 2 ≠ (hash u).toNat / 2 ^ v % 2) :
    proportion (fun ω => ∃ s s', (MinHasher64.newWithHasherAndSeed (g ω) n hash seed).createSignature [t] = .ok s ∧
      (MinHasher64.newWithHasherAndSeed (g ω) n hash seed).createSignature [u] = .ok s' ∧ s[i.val]? = s'[i.val]?) =
      (2 ^ (v - 3) - 1) / (2 ^ 61 - 2) := by
  classical
  obtain ⟨c, hc, e⟩ := difference_bit h hb
  have h8 : 8 < 2 ^ v := lt_of_lt_of_le (by norm_num) (Nat.pow_le_pow_right (by norm_num) hv)
  have h1 := collide_high (W := 64) (K := 8) (p := 2 ^ 61 - 1) (by norm_num) (by norm_num) (by norm_num) h8 (by omega) hc e
  rw [← proportion_entry n i _ (coeff_pos (by norm_num)), show (2 ^ 61 - 1 - 1) / 2 ^ (64 - v) = 2 ^ (v - 3) - 1 from
    pow_div_lemma (N := 64) (s := 3) (by omega) hv'] at h1
  have hcast : ((2 ^ (v - 3) - 1 : ℕ) : ℝ) = 2 ^ (v - 3) - 1 := by
    rw [Nat.cast_sub Nat.one_le_two_pow]; push_cast; rfl
  rw [hcast, show ((2 ^ 61 - 1 - 1 : ℕ) : ℝ) = 2 ^ 61 - 2 by norm_num] at h1
  rw [← h1]
  congr 1
  funext ω
  apply propext
  have hs : ∀ x : Tok, comp64 hash [x] (UInt64.ofNat ((ω i).1.val + 1), UInt64.ofNat (ω i).2.val) =
      affine64 (UInt64.ofNat ((ω i).1.val + 1)) (UInt64.ofNat (ω i).2.val) (hash x) := fun x => rfl
  have hn : ∀ x : Tok, (affine64 (UInt64.ofNat ((ω i).1.val + 1)) (UInt64.ofNat (ω i).2.val) (hash x)).toNat =
      affineNat 64 (2 ^ 61 - 1) ((ω i).1.val + 1) (ω i).2.val (hash x).toNat := by
    intro x
    rw [affine64_toNat, (coeff64_toNat (ω i)).1, (coeff64_toNat (ω i)).2]
    rfl
  constructor
  · rintro ⟨s, s', e1, e2, h⟩
    rw [draws_sig64 (hg ω) hash (by simp), Except.ok.injEq] at e1 e2
    subst e1 e2
    rw [← hn, ← hn, ← hs, ← hs]
    exact congrArg UInt64.toNat (by simpa using h)
  · intro h
    rw [← hn, ← hn] at h
    rw [← hs, ← hs] at h
    have h' := UInt64.toNat_inj.mp h
    refine ⟨_, _, draws_sig64 (hg ω) hash (by simp), draws_sig64 (hg ω) hash (by simp), ?_⟩
    simpa using h'

/-- C110, exact, for `MinHasher32`: the low 32 bits of the hashes agree in the low `v` bits and differ in bit `v`. -/
theorem C110_exact_32 (n : Nat) (i : Fin n) (hash : Tok → UInt64) (seed : UInt64)
    (g : (Fin n → Coeff (2 ^ 31 - 1)) → Rng) (hg : ∀ ω, Draws (2 ^ 31 - 1) n (g ω) seed ω) (t u : Tok) (v : Nat)
    (hv : 2 ≤ v) (hv' : v < 32) (h : (hash t).toNat % 2 ^ v = (hash u).toNat % 2 ^ v)
    (hb : (hash t).toNat / 2 ^ v % 2 ≠ (hash u).toNat / 2 ^ v % 2) :
    proportion (fun ω => ∃ s s', (MinHasherN.newWithHasherAndSeed (g ω) n hash seed).sig32 [t] = .ok s ∧
      (MinHasherN.newWithHasherAndSeed (g ω) n hash seed).sig32 [u] = .ok s' ∧ s[i.val]? = s'[i.val]?) =
      (2 ^ (v - 1) - 1) / (2 ^ 31 - 2) := by
  classical
  have hlow : ∀ x : Tok, (hash x).toUInt32.toNat = (hash x).toNat % 2 ^ 32 := fun x => by rw [UInt64.toNat_toUInt32]
  have hp : (2 : ℕ) ^ 32 = 2 ^ v * 2 ^ (32 - v) := by rw [← pow_add]; congr 1; omega
  obtain ⟨c, hc, e⟩ := difference_bit (x := (hash t).toUInt32.toNat) (y := (hash u).toUInt32.toNat) (v := v)
    (by rw [hlow, hlow, Nat.mod_mod_of_dvd _ (pow_dvd_pow 2 hv'.le), Nat.mod_mod_of_dvd _ (pow_dvd_pow 2 hv'.le), h])
    (by
      have hq : ∀ x : Nat, x % 2 ^ 32 / 2 ^ v % 2 = x / 2 ^ v % 2 := by
        intro x
        rw [hp, Nat.mod_mul_right_div_self]
        exact Nat.mod_mod_of_dvd _ (dvd_pow_self 2 (by omega))
      rw [hlow, hlow, hq, hq]
      exact hb)
  have h8 : 2 < 2 ^ v := lt_of_lt_of_le (by norm_num) (Nat.pow_le_pow_right (by norm_num) hv)
  have h1 := collide_high (W := 32) (K := 2) (p := 2 ^ 31 - 1) (by norm_num) (by norm_num) (by norm_num) h8 (by omega) hc e
  rw [← proportion_entry n i _ (coeff_pos (by norm_num)), show (2 ^ 31 - 1 - 1) / 2 ^ (32 - v) = 2 ^ (v - 1) - 1 from
    pow_div_lemma (N := 32) (s := 1) (by omega) hv'] at h1
  have hcast : ((2 ^ (v - 1) - 1 : ℕ) : ℝ) = 2 ^ (v - 1) - 1 := by
    rw [Nat.cast_sub Nat.one_le_two_pow]; push_cast; rfl
  rw [hcast, show ((2 ^ 31 - 1 - 1 : ℕ) : ℝ) = 2 ^ 31 - 2 by norm_num] at h1
  rw [← h1]
  congr 1
  funext ω
  apply propext
  have hs : ∀ x : Tok, comp32 hash [x] (UInt32.ofNat ((ω i).1.val + 1), UInt32.ofNat (ω i).2.val) =
      affine32 (UInt32.ofNat ((ω i).1.val + 1)) (UInt32.ofNat (ω i).2.val) (hash x).toUInt32 := fun x => rfl
  have hn : ∀ x : Tok, (affine32 (UInt32.ofNat ((ω i).1.val + 1)) (UInt32.ofNat (ω i).2.val) (hash x).toUInt32).toNat =
      affineNat 32 (2 ^ 31 - 1) ((ω i).1.val + 1) (ω i).2.val (hash x).toUInt32.toNat := by
    intro x
    rw [affine32_toNat, (coeff32_toNat (ω i)).1, (coeff32_toNat (ω i)).2]
    rfl
  constructor
  · rintro ⟨s, s', e1, e2, h⟩
    rw [draws_sig32 (hg ω) hash (by simp), Except.ok.injEq] at e1 e2
    subst e1 e2
    rw [← hn, ← hn, ← hs, ← hs]
    exact congrArg UInt32.toNat (by simpa using h)
  · intro h
    rw [← hn, ← hn] at h
    rw [← hs, ← hs] at h
    have h' := UInt32.toNat_inj.mp h
    refine ⟨_, _, draws_sig32 (hg ω) hash (by simp), draws_sig32 (hg ω) hash (by simp), ?_⟩
    simpa using h'

/-! ### Generators -/

/-- A generator that returns the numbers of a list, where the range allows it. -/
def listRng (l : List Nat) : Rng where
  State := Nat
  seedFromU64 := fun _ => 0
  uniform := fun lo hi s => (if lo ≤ l.getD s 0 ∧ l.getD s 0 < hi then l.getD s 0 else lo, s + 1)
  uniform_range := fun lo hi s h => by
    show lo ≤ (if lo ≤ l.getD s 0 ∧ l.getD s 0 < hi then l.getD s 0 else lo) ∧
      (if lo ≤ l.getD s 0 ∧ l.getD s 0 < hi then l.getD s 0 else lo) < hi
    split_ifs with hc
    · exact hc
    · exact ⟨le_rfl, h⟩

theorem sampleN_list (l : List Nat) (lo hi : Nat) (xs : List Nat) (pre post : List Nat) (hl : l = pre ++ xs ++ post)
    (hx : ∀ x ∈ xs, lo ≤ x ∧ x < hi) :
    (listRng l).sampleN lo hi xs.length (pre.length : Nat) = (xs, (pre.length + xs.length : Nat)) := by
  induction xs generalizing pre with
  | nil => rfl
  | cons x xs ih =>
    have hg : l.getD pre.length 0 = x := by rw [hl]; simp
    have hc := hx x List.mem_cons_self
    have ih' := ih (pre ++ [x]) (by rw [hl]; simp) fun y hy => hx y (List.mem_cons_of_mem _ hy)
    rw [List.length_append, List.length_singleton] at ih'
    show ((if lo ≤ l.getD pre.length 0 ∧ l.getD pre.length 0 < hi then l.getD pre.length 0 else lo) ::
      ((listRng l).sampleN lo hi xs.length (pre.length + 1 : Nat)).1,
      ((listRng l).sampleN lo hi xs.length (pre.length + 1 : Nat)).2) = _
    rw [hg, if_pos hc, ih']
    exact Prod.ext rfl (by
      show (pre.length + 1 + xs.length : Nat) = pre.length + (x :: xs).length
      rw [List.length_cons]
      omega)

/-- C110: every table of coefficients is drawn by some generator, and every generator draws some table. -/
theorem C110_generators (p n : Nat) (hp : 1 < p) (seed : UInt64) :
    (∀ ω : Fin n → Coeff p, ∃ g, Draws p n g seed ω) ∧ ∀ g, ∃ ω : Fin n → Coeff p, Draws p n g seed ω := by
  constructor
  · intro ω
    let xs := List.ofFn fun i => (ω i).1.val + 1
    let ys := List.ofFn fun i => (ω i).2.val
    have hx : xs.length = n := List.length_ofFn
    have hy : ys.length = n := List.length_ofFn
    have h1 := sampleN_list (xs ++ ys) 1 p xs [] ys (by simp) (by
      intro x hx
      obtain ⟨i, rfl⟩ := (List.mem_ofFn).mp hx
      have := (ω i).1.isLt
      omega)
    have h2 := sampleN_list (xs ++ ys) 0 p ys xs [] (by simp) (by
      intro x hx
      obtain ⟨i, rfl⟩ := (List.mem_ofFn).mp hx
      exact ⟨Nat.zero_le _, (ω i).2.isLt⟩)
    rw [hx] at h1
    rw [hy, hx] at h2
    refine ⟨listRng (xs ++ ys), draws_iff.mpr ⟨?_, ?_⟩⟩
    · show ((listRng (xs ++ ys)).sampleN 1 p n (0 : Nat)).1 = xs
      have : ((listRng (xs ++ ys)).sampleN 1 p n (0 : Nat)) = _ := h1
      rw [this]
    · have e : ((listRng (xs ++ ys)).sampleN 1 p n (0 : Nat)) = _ := h1
      show ((listRng (xs ++ ys)).sampleN 0 p n ((listRng (xs ++ ys)).sampleN 1 p n (0 : Nat)).2).1 = ys
      rw [e]
      have : (([] : List Nat).length + n) = n := by simp
      rw [this, h2]
  · intro g
    have l1 := sampleN_length g 1 p n (g.seedFromU64 seed)
    have l2 := sampleN_length g 0 p n (g.sampleN 1 p n (g.seedFromU64 seed)).2
    have r1 := sampleN_range g 1 p n hp (g.seedFromU64 seed)
    have r2 := sampleN_range g 0 p n (by omega) (g.sampleN 1 p n (g.seedFromU64 seed)).2
    refine ⟨fun i => (⟨(g.sampleN 1 p n (g.seedFromU64 seed)).1[i.val] - 1, ?_⟩,
      ⟨(g.sampleN 0 p n (g.sampleN 1 p n (g.seedFromU64 seed)).2).1[i.val], ?_⟩), draws_iff.mpr ⟨?_, ?_⟩⟩
    · have := r1 _ (List.getElem_mem (by rw [l1]; exact i.isLt : i.val < _))
      omega
    · exact (r2 _ (List.getElem_mem (by rw [l2]; exact i.isLt : i.val < _))).2
    · apply List.ext_getElem
      · exact l1.trans List.length_ofFn.symm
      · intro i h1 h2
        have := r1 _ (List.getElem_mem h1)
        simp only [List.getElem_ofFn]
        omega
    · apply List.ext_getElem
      · exact l2.trans List.length_ofFn.symm
      · intro i h1 h2
        simp only [List.getElem_ofFn]

/-- The hypotheses above are met: an index of 4 bands of 2 rows and threshold 1/2, which asks for 4 agreeing components,
with the document `[0, 1]`, and the query `[2, 3]`; and the bound is tiny. -/
example : ∃ (g : (Fin (4 * 2) → Coeff (2 ^ 61 - 1)) → Rng) (ops : (Fin (4 * 2) → Coeff (2 ^ 61 - 1)) → List (Op UInt64 Nat)),
    (∀ ω, Draws (2 ^ 61 - 1) (4 * 2) (g ω) 3 ω) ∧
    (∀ t ∈ [0, 1], ∀ u ∈ [2, 3], (UInt64.ofNat t).toNat % 2 ^ 2 ≠ (UInt64.ofNat u).toNat % 2 ^ 2) ∧
    (∀ ω, ∃ s, (MinHasher64.newWithHasherAndSeed (g ω) (4 * 2) UInt64.ofNat 3).createSignature [0, 1] = .ok s ∧
      live (4 * 2) (ops ω) 7 = some s) ∧
    (((4 : ℕ) : ℝ) - 1) / (4 * 2 : ℕ) + 1 / 2 ^ 54 < ((1 / 2 : ℚ) : ℝ) ∧
    (((4 * 2).choose 4 : ℕ) : ℝ) * (2 * 2 * (max 16 (2 ^ (2 - 4)) / (2 ^ 61 - 2))) ^ 4 < 1 / 10 ^ 60 := by
  choose g hg using (C110_generators (2 ^ 61 - 1) (4 * 2) (by norm_num) 3).1
  choose s hs hl using fun ω => sig64_length (g ω) (4 * 2) UInt64.ofNat 3 [0, 1]
  refine ⟨g, fun ω => [.insert 7 (s ω)], hg, by decide, fun ω => ⟨s ω, hs ω, ?_⟩, by norm_num, ?_⟩
  · simp only [live, touch, List.reverse_cons, List.reverse_nil, List.nil_append, List.findSome?, hl ω, if_true, and_self]
    rfl
  · rw [show Nat.choose (4 * 2) 4 = 70 by decide]
    norm_num

/-- And two tokens whose hashes differ only in the highest bit: a component agrees with probability exactly 1/2. -/
example : ((2 : ℝ) ^ (63 - 3) - 1) / (2 ^ 61 - 2) = 1 / 2 ∧
    (UInt64.ofNat 5).toNat % 2 ^ 63 = (UInt64.ofNat (5 + 2 ^ 63)).toNat % 2 ^ 63 ∧
    (UInt64.ofNat 5).toNat / 2 ^ 63 % 2 ≠ (UInt64.ofNat (5 + 2 ^ 63)).toNat / 2 ^ 63 % 2 := by
  refine ⟨by norm_num, by decide, by decide⟩

end Verif.Props
