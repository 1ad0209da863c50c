import Verif.Props.AffineAccuracy
import Mathlib.Combinatorics.Pigeonhole

/-!
# Property C119: what truncated signatures can tell apart

The 16- and 8-bit hashers truncate 31-bit minima. The low bits of a minimum depend, up to a carry, only on the low bits
of the token hash.
-/
namespace Verif.Props
open Verif.Spec

/-! ### The low bits of a hash value -/

/-- How often the modulus fits into the wrapped sum. -/
def carry (a b x : Nat) : Nat := (x * a + b) % 2 ^ 32 / (2 ^ 31 - 1)

theorem carry_le (a b x : Nat) : carry a b x ≤ 2 := by
  unfold carry
  have := Nat.mod_lt (x * a + b) (show 0 < 2 ^ 32 by positivity)
  omega

theorem narrow_eq {w : Nat} (hw : w ≤ 31) (a b x : Nat) :
    affineNat 32 (2 ^ 31 - 1) a b x % 2 ^ w = (x * a + b + carry a b x) % 2 ^ w := by
  have h1 := Nat.div_add_mod ((x * a + b) % 2 ^ 32) (2 ^ 31 - 1)
  have h2 := Nat.div_add_mod (x * a + b) (2 ^ 32)
  unfold affineNat carry
  generalize (x * a + b) % 2 ^ 32 / (2 ^ 31 - 1) = q at *
  generalize (x * a + b) / 2 ^ 32 = d at *
  generalize (x * a + b) % 2 ^ 32 % (2 ^ 31 - 1) = r at *
  obtain ⟨k, hk⟩ : 2 ^ w ∣ 2 ^ 31 := pow_dvd_pow 2 hw
  have h3 : x * a + b + q = r + 2 ^ w * (k * q + 2 * k * d) := by
    have e : 2 ^ w * (k * q + 2 * k * d) = 2 ^ 31 * q + 2 ^ 32 * d := by
      rw [show (2 : ℕ) ^ 32 = 2 * 2 ^ 31 by norm_num, hk]; ring
    rw [e]
    omega
  rw [h3, Nat.add_mul_mod_self_left]

/-! ### Four single tokens -/

variable {Tok V : Type}

/-- The truncation keeps exactly the low `w` bits. -/
def KeepsLow (w : Nat) (cast : UInt32 → V) : Prop :=
  ∀ u u' : UInt32, cast u = cast u' ↔ u.toNat % 2 ^ w = u'.toNat % 2 ^ w

theorem keepsLow_16 : KeepsLow 16 UInt32.toUInt16 := by
  intro u u'
  rw [← UInt16.toNat_inj, UInt32.toNat_toUInt16, UInt32.toNat_toUInt16]

theorem keepsLow_8 : KeepsLow 8 UInt32.toUInt8 := by
  intro u u'
  rw [← UInt8.toNat_inj, UInt32.toNat_toUInt8, UInt32.toNat_toUInt8]

theorem comp32_single (hash : Tok → UInt64) (t : Tok) (ab : UInt32 × UInt32) :
    (comp32 hash [t] ab).toNat =
      affineNat 32 (2 ^ 31 - 1) ab.1.toNat ab.2.toNat (hash t).toUInt32.toNat := by
  obtain ⟨u, hu, e⟩ := (comp32_spec hash (List.cons_ne_nil t []) ab).1
  rw [List.mem_singleton.mp hu] at e
  rw [e, affine32_toNat]
  rfl

/-- Same low bits, same carry: same component. -/
theorem narrow_agree {w : Nat} (hw : w ≤ 31) {cast : UInt32 → V} (hc : KeepsLow w cast) (hash : Tok → UInt64) {t u : Tok}
    (h : (hash t).toNat % 2 ^ w = (hash u).toNat % 2 ^ w) (ab : UInt32 × UInt32)
    (hq : carry ab.1.toNat ab.2.toNat (hash t).toUInt32.toNat = carry ab.1.toNat ab.2.toNat (hash u).toUInt32.toNat) :
    cast (comp32 hash [t] ab) = cast (comp32 hash [u] ab) := by
  rw [hc, comp32_single, comp32_single, narrow_eq hw, narrow_eq hw, hq]
  have hlow : ∀ x : Tok, (hash x).toUInt32.toNat % 2 ^ w = (hash x).toNat % 2 ^ w := by
    intro x
    rw [UInt64.toNat_toUInt32]
    exact Nat.mod_mod_of_dvd _ (pow_dvd_pow 2 (by omega))
  have h' : (hash t).toUInt32.toNat ≡ (hash u).toUInt32.toNat [MOD 2 ^ w] := by
    show _ % _ = _ % _
    rw [hlow, hlow, h]
  exact ((h'.mul_right _).add_right _).add_right _

theorem agree_map {α : Type} [DecidableEq V] (l : List α) (f f' : α → V) :
    agree (l.map f) (l.map f') = (l.map fun a => if f a = f' a then 1 else 0).sum := by
  rw [← simMatches_eq_agree _ _ (by simp)]
  unfold simMatches
  induction l with
  | nil => rfl
  | cons a l ih =>
    simp only [List.map_cons, List.zip_cons_cons, List.sum_cons, ih]

/-- Among four functions of which two agree everywhere, two agree in a sixth of the places. -/
theorem four_agree {α : Type} [DecidableEq V] (l : List α) (f : Fin 4 → α → V)
    (h : ∀ a ∈ l, ∃ i j, i < j ∧ f i a = f j a) : ∃ i j, i < j ∧ l.length ≤ 6 * agree (l.map (f i)) (l.map (f j)) := by
  have key : l.length ≤ agree (l.map (f 0)) (l.map (f 1)) + agree (l.map (f 0)) (l.map (f 2)) +
      agree (l.map (f 0)) (l.map (f 3)) + agree (l.map (f 1)) (l.map (f 2)) + agree (l.map (f 1)) (l.map (f 3)) +
      agree (l.map (f 2)) (l.map (f 3)) := by
    simp only [agree_map]
    induction l with
    | nil => simp
    | cons a l ih =>
      have ih := ih fun b hb => h b (List.mem_cons_of_mem _ hb)
      have hone : 1 ≤ (if f 0 a = f 1 a then 1 else 0) + (if f 0 a = f 2 a then 1 else 0) +
          (if f 0 a = f 3 a then 1 else 0) + (if f 1 a = f 2 a then 1 else 0) + (if f 1 a = f 3 a then 1 else 0) +
          (if f 2 a = f 3 a then 1 else 0) := by
        obtain ⟨i, j, hij, e⟩ := h a List.mem_cons_self
        fin_cases i <;> fin_cases j <;> first | exact absurd hij (by decide) | (simp at e; simp [e]; try omega)
      simp only [List.map_cons, List.sum_cons, List.length_cons]
      omega
  by_contra hcon
  push Not at hcon
  have h01 := hcon 0 1 (by decide)
  have h02 := hcon 0 2 (by decide)
  have h03 := hcon 0 3 (by decide)
  have h12 := hcon 1 2 (by decide)
  have h13 := hcon 1 3 (by decide)
  have h23 := hcon 2 3 (by decide)
  omega

/-- C119: whatever the seed and the number of hashes, among four tokens whose hashes agree in the low bits that the
signature keeps there are two whose signatures, as documents of one token, agree in at least a sixth of the components. -/
theorem C119_four_tokens [DecidableEq V] (w : Nat) (hw : w ≤ 31) (cast : UInt32 → V) (zero : V) (hc : KeepsLow w cast) (g : Rng)
    (n : Nat) (hash : Tok → UInt64) (seed : UInt64) (t : Fin 4 → Tok)
    (ht : ∀ i j, (hash (t i)).toNat % 2 ^ w = (hash (t j)).toNat % 2 ^ w) :
    ∃ i j s s', i < j ∧ (MinHasherN.newWithHasherAndSeed g n hash seed).createSignature cast zero [t i] = .ok s ∧
      (MinHasherN.newWithHasherAndSeed g n hash seed).createSignature cast zero [t j] = .ok s' ∧ n ≤ 6 * agree s s' := by
  have hlen : ((MinHasherN.newWithHasherAndSeed g n hash seed).a.zip
      (MinHasherN.newWithHasherAndSeed g n hash seed).b).length = n := by
    rw [List.length_zip, new32_a_length, new32_b_length, min_self]
  obtain ⟨i, j, hij, h⟩ := four_agree ((MinHasherN.newWithHasherAndSeed g n hash seed).a.zip
      (MinHasherN.newWithHasherAndSeed g n hash seed).b) (fun i ab => cast (comp32 hash [t i] ab)) (by
    intro ab _
    have hmaps : ∀ i ∈ (Finset.univ : Finset (Fin 4)),
        carry ab.1.toNat ab.2.toNat (hash (t i)).toUInt32.toNat ∈ Finset.range 3 := by
      intro i _
      have := carry_le ab.1.toNat ab.2.toNat (hash (t i)).toUInt32.toNat
      exact Finset.mem_range.mpr (by omega)
    obtain ⟨i, _, j, _, hne, e⟩ := Finset.exists_ne_map_eq_of_card_lt_of_maps_to (by simp) hmaps
    rcases lt_or_gt_of_ne hne with hlt | hlt
    · exact ⟨i, j, hlt, narrow_agree hw hc hash (ht i j) ab e⟩
    · exact ⟨j, i, hlt, narrow_agree hw hc hash (ht j i) ab e.symm⟩)
  rw [hlen] at h
  exact ⟨i, j, _, _, hij, createSignature_cons cast zero _ (List.cons_ne_nil _ _),
    createSignature_cons cast zero _ (List.cons_ne_nil _ _), h⟩

/-- Many tokens: four of them agree in the low bits. -/
theorem four_of_many {w : Nat} (hash : Tok → UInt64) {T : List Tok} (hT : T.Nodup) (hlen : 3 * 2 ^ w < T.length) :
    ∃ t : Fin 4 → Tok, (∀ i, t i ∈ T) ∧ Function.Injective t ∧
      ∀ i j, (hash (t i)).toNat % 2 ^ w = (hash (t j)).toNat % 2 ^ w := by
  classical
  obtain ⟨r, _, hr⟩ := Finset.exists_lt_card_fiber_of_mul_lt_card_of_maps_to (s := T.toFinset)
    (t := Finset.range (2 ^ w)) (f := fun t => (hash t).toNat % 2 ^ w) (n := 3)
    (fun t _ => Finset.mem_range.mpr (Nat.mod_lt _ (by positivity))) (by
      rw [Finset.card_range, List.toFinset_card_of_nodup hT]; omega)
  obtain ⟨S, hS, hcard⟩ := Finset.exists_subset_card_eq (show 4 ≤ _ from hr)
  let e := S.equivFinOfCardEq hcard
  refine ⟨fun i => (e.symm i).val, fun i => ?_, fun i j h => ?_, fun i j => ?_⟩
  · exact List.mem_toFinset.mp (Finset.mem_filter.mp (hS (e.symm i).property)).1
  · exact e.symm.injective (Subtype.ext h)
  · have h1 := (Finset.mem_filter.mp (hS (e.symm i).property)).2
    have h2 := (Finset.mem_filter.mp (hS (e.symm j).property)).2
    exact h1.trans h2.symm

/-- Two of many single tokens look similar. -/
theorem many_tokens [DecidableEq V] {w : Nat} (hw : w ≤ 31) {cast : UInt32 → V} {zero : V} (hc : KeepsLow w cast) (g : Rng)
    {n : Nat} (h0 : 0 < n) (hn : n ≤ 2 ^ 53) (hash : Tok → UInt64) (seed : UInt64) {T : List Tok} (hT : T.Nodup)
    (hlen : 3 * 2 ^ w < T.length) : ∃ t ∈ T, ∃ u ∈ T, t ≠ u ∧ ∃ x : ℚ,
      computeSimilarity ((MinHasherN.newWithHasherAndSeed g n hash seed).createSignature cast zero) [t] [u] = .ok (.fin x) ∧
      5 / 32 ≤ x := by
  obtain ⟨t, hmem, hinj, hlow⟩ := four_of_many hash hT hlen
  obtain ⟨i, j, s, s', hij, e, e', h⟩ := C119_four_tokens w hw cast zero hc g n hash seed t hlow
  refine ⟨t i, hmem i, t j, hmem j, fun h => (ne_of_lt hij) (hinj h), ?_⟩
  obtain ⟨s1, s2, x, e1, e2, -, hx, hnear⟩ := similarity_of_create h0 hn (sigN_length cast zero g n hash seed) [t i] [t j]
  rw [e, Except.ok.injEq] at e1
  rw [e', Except.ok.injEq] at e2
  subst e1 e2
  refine ⟨x, hx, ?_⟩
  have hd : Double (5 / 32) := ⟨5, -5, by norm_num, by norm_num, by norm_num, by norm_num⟩
  have hn' : (0 : ℚ) < n := by exact_mod_cast h0
  have hq : (1 : ℚ) / 6 ≤ (agree s s' : ℚ) / n := by
    rw [div_le_div_iff₀ (by norm_num) hn']
    have : (n : ℚ) ≤ ((6 * agree s s' : ℕ) : ℚ) := by exact_mod_cast h
    push_cast at this
    linarith
  by_contra hlt
  rw [not_le] at hlt
  have h1 := hnear.2.1 _ hd
  rw [abs_of_nonpos (by linarith), abs_of_nonpos (by linarith)] at h1
  linarith

/-- C119: whatever the seed, the hash function and the number of hashes, among any 769 different tokens there are two
that `MinHasher8`, given them as documents of one token, calls similar to more than 15 percent. -/
theorem C119_tokens_8 (g : Rng) (n : Nat) (h0 : 0 < n) (hn : n ≤ 2 ^ 53) (hash : Tok → UInt64) (seed : UInt64)
    (T : List Tok) (hT : T.Nodup) (hlen : 769 ≤ T.length) : ∃ t ∈ T, ∃ u ∈ T, t ≠ u ∧ ∃ x : ℚ,
      computeSimilarity (MinHasherN.newWithHasherAndSeed g n hash seed).sig8 [t] [u] = .ok (.fin x) ∧ 5 / 32 ≤ x :=
  many_tokens (by norm_num) keepsLow_8 g h0 hn hash seed hT (by omega)

/-- C119 for `MinHasher16`: 196609 tokens. -/
theorem C119_tokens_16 (g : Rng) (n : Nat) (h0 : 0 < n) (hn : n ≤ 2 ^ 53) (hash : Tok → UInt64) (seed : UInt64)
    (T : List Tok) (hT : T.Nodup) (hlen : 196609 ≤ T.length) : ∃ t ∈ T, ∃ u ∈ T, t ≠ u ∧ ∃ x : ℚ,
      computeSimilarity (MinHasherN.newWithHasherAndSeed g n hash seed).sig16 [t] [u] = .ok (.fin x) ∧ 5 / 32 ≤ x :=
  many_tokens (by norm_num) keepsLow_16 g h0 hn hash seed hT (by omega)

/-- The hypotheses are met. -/
example : (List.range 769).Nodup ∧ 769 ≤ (List.range 769).length ∧ (0 < 128 ∧ 128 ≤ 2 ^ 53) ∧
    ∀ i j : Fin 4, (UInt64.ofNat (7 + 256 * i.val)).toNat % 2 ^ 8 = (UInt64.ofNat (7 + 256 * j.val)).toNat % 2 ^ 8 :=
  ⟨List.nodup_range, by simp, by norm_num, by decide⟩

/-! ### Hashes that differ in the low bits -/

/-- The slopes for which two hashes at difference `2^v c` can agree in the low `w` bits. -/
noncomputable def lowSlopes (w N : Nat) (δ : ℤ) : Finset Nat :=
  open Classical in (Finset.Ico 1 N).filter fun a => ∃ k : ℤ, -2 ≤ k ∧ k ≤ 2 ∧ (2 : ℤ) ^ w ∣ a * δ - k

theorem low_of_agree {w : Nat} (hw : w ≤ 31) {a b x y : Nat}
    (h : affineNat 32 (2 ^ 31 - 1) a b x % 2 ^ w = affineNat 32 (2 ^ 31 - 1) a b y % 2 ^ w) :
    ∃ k : ℤ, -2 ≤ k ∧ k ≤ 2 ∧ (2 : ℤ) ^ w ∣ a * ((x : ℤ) - y) - k := by
  rw [narrow_eq hw, narrow_eq hw] at h
  have h1 := carry_le a b x
  have h2 := carry_le a b y
  refine ⟨(carry a b y : ℤ) - carry a b x, by omega, by omega, ?_⟩
  have h3 : (y * a + b + carry a b y : ℕ) ≡ x * a + b + carry a b x [MOD 2 ^ w] := h.symm
  rw [← Int.natCast_modEq_iff, Int.modEq_iff_dvd] at h3
  push_cast at h3
  convert h3 using 1
  ring

theorem lowSlopes_card {w v N : Nat} {c : ℤ} (hc : c % 2 = 1) (hv : v < w) (hw : w ≤ 31) (hN : N ≤ 2 ^ 31) :
    (lowSlopes w N (2 ^ v * c)).card ≤ max 6 (2 ^ v) * 2 ^ (31 - w) := by
  classical
  have hk : ∀ a ∈ lowSlopes w N (2 ^ v * c), ∃ k : ℤ, -2 ≤ k ∧ k ≤ 2 ∧ (2 : ℤ) ^ w ∣ a * (2 ^ v * c) - k := by
    intro a ha
    exact (Finset.mem_filter.mp ha).2
  have hr : ∀ a ∈ lowSlopes w N (2 ^ v * c), 1 ≤ a ∧ a < N := by
    intro a ha
    exact Finset.mem_Ico.mp (Finset.mem_filter.mp ha).1
  choose! k hk1 hk2 hk3 using hk
  have hcard : (((Finset.Icc (-2 : ℤ) 2).filter fun k => (2 : ℤ) ^ v ∣ k) ×ˢ Finset.range (2 ^ (31 - w + v))).card ≤
      max 6 (2 ^ v) * 2 ^ (31 - w) := by
    rw [Finset.card_product, Finset.card_range, pow_add, Nat.mul_comm (2 ^ (31 - w)), ← Nat.mul_assoc]
    refine Nat.mul_le_mul_right _ ?_
    rcases Nat.lt_or_ge v 2 with h | h
    · refine le_trans ?_ (le_max_left _ _)
      interval_cases v <;> decide
    · refine le_trans ?_ (le_max_right _ _)
      have h4 : (4 : ℤ) ≤ 2 ^ v := by
        calc (4 : ℤ) = 2 ^ 2 := by norm_num
          _ ≤ 2 ^ v := pow_le_pow_right₀ (by norm_num) h
      have : ((Finset.Icc (-2 : ℤ) 2).filter fun k => (2 : ℤ) ^ v ∣ k) ⊆ {0} := by
        intro z hz
        obtain ⟨h5, h6⟩ := Finset.mem_filter.mp hz
        have h5 := Finset.mem_Icc.mp h5
        exact Finset.mem_singleton.mpr (Int.eq_zero_of_abs_lt_dvd h6 (by rw [abs_lt]; omega))
      have := Finset.card_le_card this
      rw [Finset.card_singleton] at this
      calc _ ≤ 1 * 2 ^ v := Nat.mul_le_mul_right _ this
        _ = _ := Nat.one_mul _
  refine le_trans (Finset.card_le_card_of_injOn (fun a => (k a, a / 2 ^ (w - v))) ?_ ?_) hcard
  · intro a ha
    have hra := hr a ha
    refine Finset.mem_coe.mpr (Finset.mem_product.mpr ⟨Finset.mem_filter.mpr ⟨Finset.mem_Icc.mpr
      ⟨hk1 a ha, hk2 a ha⟩, ?_⟩, Finset.mem_range.mpr ?_⟩)
    · have h6 : (2 : ℤ) ^ v ∣ 2 ^ w := pow_dvd_pow _ hv.le
      have h7 : (2 : ℤ) ^ v ∣ a * (2 ^ v * c) := ⟨a * c, by ring⟩
      have := dvd_sub h7 (h6.trans (hk3 a ha))
      rwa [sub_sub_cancel] at this
    · rw [Nat.div_lt_iff_lt_mul (by positivity), ← pow_add]
      exact lt_of_lt_of_le hra.2 (hN.trans (Nat.pow_le_pow_right (by norm_num) (by omega)))
  · intro a ha a' ha' he
    simp only [Prod.mk.injEq] at he
    obtain ⟨e1, e2⟩ := he
    have h3 := hk3 a ha
    have h3' := hk3 a' ha'
    rw [e1] at h3
    have h4 : (2 : ℤ) ^ w ∣ ((a : ℤ) - a') * (2 ^ v * c) := by
      have := dvd_sub h3 h3'
      rwa [show (a : ℤ) * (2 ^ v * c) - k a' - (a' * (2 ^ v * c) - k a') = ((a : ℤ) - a') * (2 ^ v * c) by ring] at this
    have h5 := two_pow_dvd_of_mul hv.le hc h4
    have h6 : (a' : ℕ) ≡ a [MOD 2 ^ (w - v)] := by
      rw [← Int.natCast_modEq_iff, Int.modEq_iff_dvd]
      exact_mod_cast h5
    rw [← Nat.div_add_mod a (2 ^ (w - v)), ← Nat.div_add_mod a' (2 ^ (w - v)), e2]
    have : a' % 2 ^ (w - v) = a % 2 ^ (w - v) := h6
    rw [this]

/-- How often two hashes agree in the low `w` bits when the coefficients are drawn. -/
theorem narrow_collide {w m x y : Nat} (hm : m ≤ w) (hw : w ≤ 31) (h : x % 2 ^ m ≠ y % 2 ^ m) :
    proportion (fun c : Coeff (2 ^ 31 - 1) => affineNat 32 (2 ^ 31 - 1) (c.1.val + 1) c.2.val x % 2 ^ w =
      affineNat 32 (2 ^ 31 - 1) (c.1.val + 1) c.2.val y % 2 ^ w) ≤
      max 6 (2 ^ (m - 1)) * 2 ^ (31 - w) / (2 ^ 31 - 2) := by
  classical
  obtain ⟨v, c, hv, hc, e⟩ := difference_low h
  have hcard := lowSlopes_card (N := 2 ^ 31 - 1) hc (by omega : v < w) hw (by norm_num)
  rw [proportion_eq, card_coeff (fun a b => affineNat 32 (2 ^ 31 - 1) a b x % 2 ^ w =
      affineNat 32 (2 ^ 31 - 1) a b y % 2 ^ w), card_coeff_all (by norm_num)]
  have h1 : (∑ a ∈ Finset.Ico 1 (2 ^ 31 - 1), ((Finset.range (2 ^ 31 - 1)).filter fun b =>
      affineNat 32 (2 ^ 31 - 1) a b x % 2 ^ w = affineNat 32 (2 ^ 31 - 1) a b y % 2 ^ w).card) ≤
      (max 6 (2 ^ v) * 2 ^ (31 - w)) * (2 ^ 31 - 1) := by
    refine le_trans (b := ∑ a ∈ Finset.Ico 1 (2 ^ 31 - 1), if a ∈ lowSlopes w (2 ^ 31 - 1) (2 ^ v * c) then 2 ^ 31 - 1
      else 0) (Finset.sum_le_sum fun a ha => ?_) ?_
    · split_ifs with hmem
      · refine (Finset.card_filter_le _ _).trans ?_
        rw [Finset.card_range]
      · rw [Nat.le_zero, Finset.card_eq_zero, Finset.filter_eq_empty_iff]
        intro b hb hxy
        apply hmem
        refine Finset.mem_filter.mpr ⟨ha, ?_⟩
        have := low_of_agree hw hxy
        rw [e] at this
        exact this
    · rw [← Finset.sum_filter, Finset.sum_const, smul_eq_mul]
      refine Nat.mul_le_mul_right _ (le_trans (Finset.card_le_card fun a ha => (Finset.mem_filter.mp ha).2) hcard)
  have h2 : max 6 (2 ^ v) ≤ max 6 (2 ^ (m - 1)) := max_le_max le_rfl (Nat.pow_le_pow_right (by norm_num) (by omega))
  have h3 := h1.trans (Nat.mul_le_mul_right (2 ^ 31 - 1) (Nat.mul_le_mul_right (2 ^ (31 - w)) h2))
  have h3' : ((∑ a ∈ Finset.Ico 1 (2 ^ 31 - 1), ((Finset.range (2 ^ 31 - 1)).filter fun b =>
      affineNat 32 (2 ^ 31 - 1) a b x % 2 ^ w = affineNat 32 (2 ^ 31 - 1) a b y % 2 ^ w).card : ℕ) : ℝ) ≤
      (max 6 (2 ^ (m - 1)) * 2 ^ (31 - w)) * (2 ^ 31 - 1) := by
    have hcst : (((max 6 (2 ^ (m - 1)) * 2 ^ (31 - w)) * (2 ^ 31 - 1) : ℕ) : ℝ) =
        (max 6 (2 ^ (m - 1)) * 2 ^ (31 - w)) * (2 ^ 31 - 1) := by
      push_cast
      norm_num
    rw [← hcst]
    exact_mod_cast h3
  have hp : ((2 ^ 31 - 1 : ℕ) : ℝ) = 2 ^ 31 - 1 := by norm_num
  rw [hp, div_le_div_iff₀ (by norm_num) (by norm_num)]
  refine (mul_le_mul_of_nonneg_right h3' (by norm_num)).trans (le_of_eq ?_)
  ring

open Classical in
theorem proportion_exists_sum {P ι : Type} [Fintype P] (l : List ι) (E : ι → P → Prop) (f : ι → ℝ)
    (h : ∀ x ∈ l, proportion (E x) ≤ f x) : proportion (fun ω => ∃ x ∈ l, E x ω) ≤ (l.map f).sum := by
  induction l with
  | nil =>
    rw [proportion_eq]
    simp
  | cons x l ih =>
    have h1 := ih fun y hy => h y (List.mem_cons_of_mem _ hy)
    have h2 := h x List.mem_cons_self
    have h3 := proportion_sub (fun ω => ∃ y ∈ x :: l, E y ω) (E x)
    have h4 : proportion (fun ω => (∃ y ∈ x :: l, E y ω) ∧ ¬ E x ω) ≤ proportion (fun ω => ∃ y ∈ l, E y ω) := by
      refine proportion_mono ?_
      rintro ω ⟨⟨y, hy, hE⟩, hn⟩
      rcases List.mem_cons.mp hy with rfl | hy
      · exact absurd hE hn
      · exact ⟨y, hy, hE⟩
    rw [List.map_cons, List.sum_cons]
    linarith

/-- The sum over all pairs of tokens of `max(6, 2^(m-1))`, where the pair differs in the low `m` bits. -/
noncomputable def pairWeight (m : Tok → Tok → Nat) (A B : List Tok) : ℝ :=
  ((A ×ˢ B).map fun x => max 6 (2 ^ (m x.1 x.2 - 1) : ℝ)).sum

theorem component_narrow {w : Nat} (hw : w ≤ 31) {cast : UInt32 → V} (hc : KeepsLow w cast) (hash : Tok → UInt64)
    {A B : List Tok} (hA : A ≠ []) (hB : B ≠ []) {m : Tok → Tok → Nat} (hm : ∀ t ∈ A, ∀ u ∈ B, m t u ≤ w)
    (hd : ∀ t ∈ A, ∀ u ∈ B, (hash t).toNat % 2 ^ m t u ≠ (hash u).toNat % 2 ^ m t u) :
    proportion (fun c : Coeff (2 ^ 31 - 1) =>
      cast (comp32 hash A (UInt32.ofNat (c.1.val + 1), UInt32.ofNat c.2.val)) =
        cast (comp32 hash B (UInt32.ofNat (c.1.val + 1), UInt32.ofNat c.2.val))) ≤
      pairWeight m A B * (2 ^ (31 - w) / (2 ^ 31 - 2)) := by
  have hlow : ∀ (x : Tok) (k : Nat), k ≤ 31 → (hash x).toUInt32.toNat % 2 ^ k = (hash x).toNat % 2 ^ k := by
    intro x k hk
    rw [UInt64.toNat_toUInt32]
    exact Nat.mod_mod_of_dvd _ (pow_dvd_pow 2 (by omega))
  have h1 := proportion_exists_sum (A ×ˢ B) (fun (x : Tok × Tok) (c : Coeff (2 ^ 31 - 1)) =>
      affineNat 32 (2 ^ 31 - 1) (c.1.val + 1) c.2.val (hash x.1).toUInt32.toNat % 2 ^ w =
        affineNat 32 (2 ^ 31 - 1) (c.1.val + 1) c.2.val (hash x.2).toUInt32.toNat % 2 ^ w)
      (fun x => max 6 (2 ^ (m x.1 x.2 - 1)) * (2 ^ (31 - w) / (2 ^ 31 - 2))) (by
      intro x hx
      have hx := List.pair_mem_product.mp hx
      have hmx := hm _ hx.1 _ hx.2
      refine (narrow_collide hmx hw (by
        rw [hlow _ _ (by omega), hlow _ _ (by omega)]; exact hd _ hx.1 _ hx.2)).trans (le_of_eq ?_)
      rw [mul_div_assoc])
  rw [List.sum_map_mul_right] at h1
  refine le_trans (proportion_mono fun c h => ?_) h1
  obtain ⟨t, ht, e1⟩ := (comp32_spec hash hA (UInt32.ofNat (c.1.val + 1), UInt32.ofNat c.2.val)).1
  obtain ⟨u, hu, e2⟩ := (comp32_spec hash hB (UInt32.ofNat (c.1.val + 1), UInt32.ofNat c.2.val)).1
  refine ⟨(t, u), List.pair_mem_product.mpr ⟨ht, hu⟩, ?_⟩
  have h2 := (hc _ _).mp h
  rw [e1, e2, affine32_toNat, affine32_toNat, (coeff32_toNat c).1, (coeff32_toNat c).2] at h2
  exact h2

/-- C119: draw the coefficients uniformly. If every token hash of `A` differs from every token hash of `B` in the low
bits that the signature keeps (the pair `t`, `u` already in the low `m t u`), then at least `k` components agree with
probability at most `C(n, k) q^k`, where `q` is the sum over the pairs of `max(6, 2^(m-1)) / 2^w`, up to the factor
`2^31 / (2^31 - 2)`. -/
theorem C119_agree_narrow [DecidableEq V] (w : Nat) (hw : w ≤ 31) (cast : UInt32 → V) (zero : V) (hc : KeepsLow w cast)
    (n k : Nat) (hk : k ≤ n) (hash : Tok → UInt64) (seed : UInt64)
    (g : (Fin n → Coeff (2 ^ 31 - 1)) → Rng) (hg : ∀ ω, Draws (2 ^ 31 - 1) n (g ω) seed ω) (A B : List Tok) (hA : A ≠ [])
    (hB : B ≠ []) (m : Tok → Tok → Nat) (hm : ∀ t ∈ A, ∀ u ∈ B, m t u ≤ w)
    (hd : ∀ t ∈ A, ∀ u ∈ B, (hash t).toNat % 2 ^ m t u ≠ (hash u).toNat % 2 ^ m t u) :
    proportion (fun ω => ∃ s s',
      (MinHasherN.newWithHasherAndSeed (g ω) n hash seed).createSignature cast zero A = .ok s ∧
      (MinHasherN.newWithHasherAndSeed (g ω) n hash seed).createSignature cast zero B = .ok s' ∧ k ≤ agree s s') ≤
      n.choose k * (pairWeight m A B * (2 ^ (31 - w) / (2 ^ 31 - 2))) ^ k := by
  classical
  have h1 := proportion_tail n k hk (fun c : Coeff (2 ^ 31 - 1) =>
      cast (comp32 hash A (UInt32.ofNat (c.1.val + 1), UInt32.ofNat c.2.val)) =
        cast (comp32 hash B (UInt32.ofNat (c.1.val + 1), UInt32.ofNat c.2.val))) (coeff_pos (by norm_num))
  have h2 := component_narrow hw hc hash hA hB hm hd
  refine (proportion_mono fun ω hω => ?_).trans (h1.trans ?_)
  · obtain ⟨s, s', e1, e2, h⟩ := hω
    rw [draws_sigN cast zero (hg ω) hash hA, Except.ok.injEq] at e1
    rw [draws_sigN cast zero (hg ω) hash hB, Except.ok.injEq] at e2
    rw [← e1, ← e2, agree_ofFn] at h
    refine h.trans (le_of_eq ?_)
    congr!
  · exact mul_le_mul_of_nonneg_left (pow_le_pow_left₀ (proportion_nonneg _) h2 k) (by positivity)

/-- C119: so an index whose threshold asks for at least `k` agreeing components returns an unrelated document with at
most this probability, whatever else it contains. -/
theorem C119_false_positives {Id C : Type} [DecidableEq Id] [IdContainer C Id] [LawfulIdContainer C Id] [DecidableEq V]
    (w : Nat) (hw : w ≤ 31) (cast : UInt32 → V) (zero : V) (hc : KeepsLow w cast)
    (b r k : Nat) (hk : k ≤ b * r) (t : ℚ) (h : List V → UInt64) (hash : Tok → UInt64)
    (seed : UInt64) (g : (Fin (b * r) → Coeff (2 ^ 31 - 1)) → Rng) (hg : ∀ ω, Draws (2 ^ 31 - 1) (b * r) (g ω) seed ω)
    (A B : List Tok) (hA : A ≠ []) (hB : B ≠ []) (m : Tok → Tok → Nat) (hm : ∀ t ∈ A, ∀ u ∈ B, m t u ≤ w)
    (hd : ∀ t ∈ A, ∀ u ∈ B, (hash t).toNat % 2 ^ m t u ≠ (hash u).toNat % 2 ^ m t u)
    (h0 : 0 < b * r) (hn : b * r ≤ 2 ^ 53) (ht : ((k : ℝ) - 1) / (b * r : ℕ) + 1 / 2 ^ 54 < t) (id : Id)
    (ops : (Fin (b * r) → Coeff (2 ^ 31 - 1)) → List (Op V Id))
    (hlive : ∀ ω, ∃ s, (MinHasherN.newWithHasherAndSeed (g ω) (b * r) hash seed).createSignature cast zero A = .ok s ∧
      live (b * r) (ops ω) id = some s) :
    proportion (fun ω => ∃ s' res,
      (MinHasherN.newWithHasherAndSeed (g ω) (b * r) hash seed).createSignature cast zero B = .ok s' ∧
      (After C b r (.fin t) h (ops ω)).query s' = .ok res ∧ id ∈ res.elems) ≤
      (b * r).choose k * (pairWeight m A B * (2 ^ (31 - w) / (2 ^ 31 - 2))) ^ k := by
  refine (proportion_mono fun ω hω => ?_).trans
    (C119_agree_narrow w hw cast zero hc (b * r) k hk hash seed g hg A B hA hB m hm hd)
  obtain ⟨s', res, e', hres, hid⟩ := hω
  obtain ⟨s, e, hl⟩ := hlive ω
  obtain ⟨s1, e1, l1⟩ := sigN_length cast zero (g ω) (b * r) hash seed A
  obtain ⟨s2, e2, l2⟩ := sigN_length cast zero (g ω) (b * r) hash seed B
  have e1 := e.symm.trans e1
  have e2 := e'.symm.trans e2
  rw [Except.ok.injEq] at e1 e2
  subst e1 e2
  exact ⟨s, s', e, e', returned_agree h0 hn l1 l2 hl ht hres hid⟩

/-- The hypotheses are met, and the bound is small: two documents of two tokens, 16 bits kept, at least 32 of 64
components (a threshold of one half). -/
example : ∃ g : (Fin (8 * 8) → Coeff (2 ^ 31 - 1)) → Rng, (∀ ω, Draws (2 ^ 31 - 1) (8 * 8) (g ω) 3 ω) ∧
    (∀ t ∈ [0, 1], ∀ u ∈ [2, 3], (UInt64.ofNat t).toNat % 2 ^ 2 ≠ (UInt64.ofNat u).toNat % 2 ^ 2) ∧
    (((32 : ℕ) : ℝ) - 1) / (8 * 8 : ℕ) + 1 / 2 ^ 54 < ((1 / 2 : ℚ) : ℝ) ∧
    (((8 * 8).choose 32 : ℕ) : ℝ) * (pairWeight (fun _ _ : ℕ => 2) [0, 1] [2, 3] * (2 ^ (31 - 16) / (2 ^ 31 - 2))) ^ 32 <
      1 / 10 ^ 80 := by
  choose g hg using (C110_generators (2 ^ 31 - 1) (8 * 8) (by norm_num) 3).1
  refine ⟨g, hg, by decide, by norm_num, ?_⟩
  have hw : pairWeight (fun _ _ : ℕ => 2) [0, 1] [2, 3] = 24 := by
    unfold pairWeight
    simp only [List.product, SProd.sprod, List.flatMap_cons, List.flatMap_nil, List.map_cons, List.map_nil, List.append_nil,
      List.cons_append, List.nil_append, List.sum_cons, List.sum_nil]
    norm_num
  have hch : Nat.choose (8 * 8) 32 ≤ 2 ^ 64 := by
    have := Nat.choose_le_two_pow (8 * 8) 32
    simpa using this
  have hch' : (((8 * 8).choose 32 : ℕ) : ℝ) ≤ 2 ^ 64 := by exact_mod_cast hch
  rw [hw]
  refine lt_of_le_of_lt (mul_le_mul_of_nonneg_right hch' (by norm_num)) ?_
  norm_num

end Verif.Props
