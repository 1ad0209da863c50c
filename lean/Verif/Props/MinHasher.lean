import Verif.Lemmas.MinHasher

/-!
# Properties C01 - C07: signature generation

Hashers are those built by the constructors, for every random number generator, seed, item hash function and
number of hashes.
-/
namespace Verif.Props
open Verif.Spec

variable {Tok : Type}

/-- A concrete generator used in the non-vacuity examples: counts up from the lower end of the range. -/
def exRng : Rng where
  State := Nat
  seedFromU64 := fun s => s.toNat
  uniform := fun lo hi s => (lo + s % (hi - lo), s + 1)
  uniform_range := by
    intro lo hi s h
    have := Nat.mod_lt s (show hi - lo > 0 by omega)
    constructor
    · simp
    · simp only; omega

/-! ## C01 -/

/-- C01 for MinHasher32. -/
theorem C01_length_32 (g : Rng) (n : Nat) (hash : Tok → UInt64) (seed : UInt64) (toks : List Tok) :
    ∃ s, (MinHasherN.newWithHasherAndSeed g n hash seed).sig32 toks = .ok s ∧ s.length = n :=
  sigN_length _ _ g n hash seed toks

/-- C01 for MinHasher16. -/
theorem C01_length_16 (g : Rng) (n : Nat) (hash : Tok → UInt64) (seed : UInt64) (toks : List Tok) :
    ∃ s, (MinHasherN.newWithHasherAndSeed g n hash seed).sig16 toks = .ok s ∧ s.length = n :=
  sigN_length _ _ g n hash seed toks

/-- C01 for MinHasher8. -/
theorem C01_length_8 (g : Rng) (n : Nat) (hash : Tok → UInt64) (seed : UInt64) (toks : List Tok) :
    ∃ s, (MinHasherN.newWithHasherAndSeed g n hash seed).sig8 toks = .ok s ∧ s.length = n :=
  sigN_length _ _ g n hash seed toks

/-- C01 for MinHasher64V1. -/
theorem C01_length_64 (g : Rng) (n : Nat) (hash : Tok → UInt64) (seed : UInt64) (toks : List Tok) :
    ∃ s, (MinHasher64.newWithHasherAndSeed g n hash seed).createSignature toks = .ok s ∧ s.length = n :=
  sig64_length g n hash seed toks

/-- C01: the empty token sequence yields zeros. -/
theorem C01_empty (g : Rng) (n : Nat) (hash : Tok → UInt64) (seed : UInt64) :
    (MinHasherN.newWithHasherAndSeed g n hash seed).sig32 [] = .ok (List.replicate n 0) ∧
    (MinHasherN.newWithHasherAndSeed g n hash seed).sig16 [] = .ok (List.replicate n 0) ∧
    (MinHasherN.newWithHasherAndSeed g n hash seed).sig8 [] = .ok (List.replicate n 0) ∧
    (MinHasher64.newWithHasherAndSeed g n hash seed).createSignature [] = .ok (List.replicate n 0) :=
  ⟨createSignature_nil _ _ _, createSignature_nil _ _ _, createSignature_nil _ _ _,
    createSignature64_nil _⟩

/-- C01 instance: a real signature. -/
example : (MinHasherN.newWithHasherAndSeed exRng 2 (fun t : Nat => UInt64.ofNat (t * 7)) 3).sig32 [5, 9]
    = .ok [145, 181] := by decide +kernel

/-! ## C02 -/

theorem comp32_congr (hash : Tok → UInt64) {l l' : List Tok} (h : ∀ t, t ∈ l ↔ t ∈ l')
    (ab : UInt32 × UInt32) : comp32 hash l ab = comp32 hash l' ab := by
  unfold comp32
  rw [min32_congr]
  intro x
  simp [h]

theorem comp64_congr (hash : Tok → UInt64) {l l' : List Tok} (h : ∀ t, t ∈ l ↔ t ∈ l')
    (ab : UInt64 × UInt64) : comp64 hash l ab = comp64 hash l' ab := by
  unfold comp64
  rw [min64_congr]
  intro x
  simp [h]

theorem sigN_congr {V : Type} (cast : UInt32 → V) (zero : V) (m : MinHasherN Tok) {l l' : List Tok}
    (h : ∀ t, t ∈ l ↔ t ∈ l') : m.createSignature cast zero l = m.createSignature cast zero l' := by
  have hnil : l = [] ↔ l' = [] := by
    simp only [List.eq_nil_iff_forall_not_mem, h]
  by_cases hl : l = []
  · rw [hl, hnil.mp hl]
  · rw [createSignature_cons _ _ _ hl, createSignature_cons _ _ _ (fun hc => hl (hnil.mpr hc))]
    simp only [comp32_congr m.hash h]

/-- C02 for MinHasher32/16/8: the signature depends only on the set of tokens. -/
theorem C02_token_set_narrow (m : MinHasherN Tok) (l l' : List Tok) (h : ∀ t, t ∈ l ↔ t ∈ l') :
    m.sig32 l = m.sig32 l' ∧ m.sig16 l = m.sig16 l' ∧ m.sig8 l = m.sig8 l' :=
  ⟨sigN_congr _ _ m h, sigN_congr _ _ m h, sigN_congr _ _ m h⟩

example : ∀ t : Nat, t ∈ [4, 4, 5] ↔ t ∈ [5, 4] := by
  intro t; simp only [List.mem_cons, List.not_mem_nil, or_false]; omega

/-- C02 for MinHasher64V1. -/
theorem C02_token_set_64 (m : MinHasher64 Tok) (l l' : List Tok) (h : ∀ t, t ∈ l ↔ t ∈ l') :
    m.createSignature l = m.createSignature l' := by
  have hnil : l = [] ↔ l' = [] := by
    simp only [List.eq_nil_iff_forall_not_mem, h]
  by_cases hl : l = []
  · rw [hl, hnil.mp hl]
  · rw [createSignature64_cons _ hl, createSignature64_cons _ (fun hc => hl (hnil.mpr hc))]
    congr 1
    exact List.map_congr_left fun ab _ => comp64_congr m.hash h ab

/-- The hypothesis of C02 holds for a permuted list with repetitions. -/
example : ∀ t : Nat, t ∈ [1, 2, 1, 3] ↔ t ∈ [3, 2, 2, 1] := by
  intro t; simp only [List.mem_cons, List.not_mem_nil, or_false]; omega

/-! ## C03 -/

theorem comp32_append (hash : Tok → UInt64) {l1 l2 : List Tok} (h1 : l1 ≠ []) (h2 : l2 ≠ [])
    (ab : UInt32 × UInt32) : (comp32 hash (l1 ++ l2) ab).toNat =
      min (comp32 hash l1 ab).toNat (comp32 hash l2 ab).toNat := by
  obtain ⟨⟨t, ht, e⟩, hle⟩ := comp32_spec hash (toks := l1 ++ l2) (by simp [h1]) ab
  obtain ⟨⟨t1, ht1, e1⟩, hle1⟩ := comp32_spec hash h1 ab
  obtain ⟨⟨t2, ht2, e2⟩, hle2⟩ := comp32_spec hash h2 ab
  apply le_antisymm
  · apply le_min
    · rw [e1]; exact hle t1 (by simp [ht1])
    · rw [e2]; exact hle t2 (by simp [ht2])
  · rw [e]
    rcases List.mem_append.mp ht with h | h
    · exact (min_le_left _ _).trans (hle1 t h)
    · exact (min_le_right _ _).trans (hle2 t h)

theorem comp64_append (hash : Tok → UInt64) {l1 l2 : List Tok} (h1 : l1 ≠ []) (h2 : l2 ≠ [])
    (ab : UInt64 × UInt64) : (comp64 hash (l1 ++ l2) ab).toNat =
      min (comp64 hash l1 ab).toNat (comp64 hash l2 ab).toNat := by
  obtain ⟨⟨t, ht, e⟩, hle⟩ := comp64_spec hash (toks := l1 ++ l2) (by simp [h1]) ab
  obtain ⟨⟨t1, ht1, e1⟩, hle1⟩ := comp64_spec hash h1 ab
  obtain ⟨⟨t2, ht2, e2⟩, hle2⟩ := comp64_spec hash h2 ab
  apply le_antisymm
  · apply le_min
    · rw [e1]; exact hle t1 (by simp [ht1])
    · rw [e2]; exact hle t2 (by simp [ht2])
  · rw [e]
    rcases List.mem_append.mp ht with h | h
    · exact (min_le_left _ _).trans (hle1 t h)
    · exact (min_le_right _ _).trans (hle2 t h)

/-- C03 for MinHasher32: the signature of a concatenation is the element-wise minimum. -/
theorem C03_union_min_32 (g : Rng) (n : Nat) (hash : Tok → UInt64) (seed : UInt64) (l1 l2 : List Tok)
    (h1 : l1 ≠ []) (h2 : l2 ≠ []) :
    let m := MinHasherN.newWithHasherAndSeed g n hash seed
    ∃ s1 s2 s12, m.sig32 l1 = .ok s1 ∧ m.sig32 l2 = .ok s2 ∧ m.sig32 (l1 ++ l2) = .ok s12 ∧
      s1.length = n ∧ s2.length = n ∧
      s12.map UInt32.toNat = List.zipWith (fun x y => min x.toNat y.toNat) s1 s2 := by
  intro m
  have hz : (m.a.zip m.b).length = n := by
    rw [List.length_zip]
    simp only [m]
    rw [new32_a_length, new32_b_length, min_self]
  refine ⟨_, _, _, createSignature_cons _ _ m h1, createSignature_cons _ _ m h2,
    createSignature_cons _ _ m (by simp [h1]), by simpa using hz, by simpa using hz, ?_⟩
  simp only [List.map_map, List.zipWith_map_left, List.zipWith_map_right, List.zipWith_self]
  apply List.map_congr_left
  intro ab _
  exact comp32_append hash h1 h2 ab

/-- C03 for MinHasher64V1. -/
theorem C03_union_min_64 (g : Rng) (n : Nat) (hash : Tok → UInt64) (seed : UInt64) (l1 l2 : List Tok)
    (h1 : l1 ≠ []) (h2 : l2 ≠ []) :
    let m := MinHasher64.newWithHasherAndSeed g n hash seed
    ∃ s1 s2 s12, m.createSignature l1 = .ok s1 ∧ m.createSignature l2 = .ok s2 ∧
      m.createSignature (l1 ++ l2) = .ok s12 ∧ s1.length = n ∧ s2.length = n ∧
      s12.map UInt64.toNat = List.zipWith (fun x y => min x.toNat y.toNat) s1 s2 := by
  intro m
  have hz : (m.a.zip m.b).length = n := by
    rw [List.length_zip]
    simp only [m]
    rw [new64_a_length, new64_b_length, min_self]
  refine ⟨_, _, _, createSignature64_cons m h1, createSignature64_cons m h2,
    createSignature64_cons m (by simp [h1]), by simpa using hz, by simpa using hz, ?_⟩
  simp only [List.map_map, List.zipWith_map_left, List.zipWith_map_right, List.zipWith_self]
  apply List.map_congr_left
  intro ab _
  exact comp64_append hash h1 h2 ab

/-- C03 instance: the minima come from both lists. -/
example : [[5, 7], [1, 8], [5, 7, 1, 8]].map
      (MinHasherN.newWithHasherAndSeed exRng 3 (fun t : Nat => UInt64.ofNat (t * 2654435761)) 300).sig32 =
    [.ok [606235328, 102426835, 1380789164], .ok [121247308, 628199423, 491275561],
      .ok [121247308, 102426835, 491275561]] := by decide +kernel

/-- A generator that always returns the lower end of the range (so a = 1, b = 0). -/
def lowRng : Rng where
  State := Unit
  seedFromU64 := fun _ => ()
  uniform := fun lo _ s => (lo, s)
  uniform_range := fun _ _ _ h => ⟨le_refl _, h⟩

/-- C03: the 16-bit hasher does not have the union property. -/
theorem C03_union_min_fails_16 :
    ∃ (hash : Nat → UInt64) (l1 l2 : List Nat),
      let m := MinHasherN.newWithHasherAndSeed lowRng 1 hash 3
      m.sig16 l1 = .ok [0] ∧ m.sig16 l2 = .ok [1] ∧ m.sig16 (l1 ++ l2) = .ok [1] :=
  ⟨fun t => UInt64.ofNat t, [65536], [1], by decide +kernel⟩

/-- C03: the 8-bit hasher does not have the union property. -/
theorem C03_union_min_fails_8 :
    ∃ (hash : Nat → UInt64) (l1 l2 : List Nat),
      let m := MinHasherN.newWithHasherAndSeed lowRng 1 hash 3
      m.sig8 l1 = .ok [0] ∧ m.sig8 l2 = .ok [1] ∧ m.sig8 (l1 ++ l2) = .ok [1] :=
  ⟨fun t => UInt64.ofNat t, [256], [1], by decide +kernel⟩

/-! ## C04 -/

theorem affine32_lt (a b h : UInt32) : (affine32 a b h).toNat < mersenne31 := by
  unfold affine32
  rw [UInt32.toNat_mod]
  exact Nat.mod_lt _ (by decide)

theorem affine64_lt (a b h : UInt64) : (affine64 a b h).toNat < mersenne61 := by
  unfold affine64
  rw [UInt64.toNat_mod]
  exact Nat.mod_lt _ (by decide)

/-- C04 for MinHasher32/16/8: there are coefficients `a_i ∈ [1,P)`, `b_i ∈ [0,P)`, the `2n` successive draws of the
generator from the seed and the same for all token types, hash functions and documents, such that component `i` of a non-empty
signature is the (truncated) least value of `((h·a_i + b_i) mod 2^32) mod P` over the low 32 bits `h` of the
token hashes; it is attained, and the 32-bit value is below `P = 2^31-1`. -/
theorem C04_minima_narrow (g : Rng) (n : Nat) (seed : UInt64) :
    ∃ a b : List Nat, a.length = n ∧ b.length = n ∧ (∀ x ∈ a, 1 ≤ x ∧ x < 2 ^ 31 - 1) ∧ (∀ x ∈ b, x < 2 ^ 31 - 1) ∧
    Spec.DrawsLists g (2 ^ 31 - 1) seed a b ∧
    ∀ (Tok : Type) (hash : Tok → UInt64) (toks : List Tok), toks ≠ [] →
    let m := MinHasherN.newWithHasherAndSeed g n hash seed
    ∃ (s32 : List UInt32) (s16 : List UInt16) (s8 : List UInt8),
      m.sig32 toks = .ok s32 ∧ m.sig16 toks = .ok s16 ∧ m.sig8 toks = .ok s8 ∧ s32.length = n ∧
      ∀ i < n, ∃ ai bi : Nat, ∃ x : UInt32, a[i]? = some ai ∧ b[i]? = some bi ∧
        s32[i]? = some x ∧ s16[i]? = some x.toUInt16 ∧ s8[i]? = some x.toUInt8 ∧
        x.toNat < 2 ^ 31 - 1 ∧
        (∃ t ∈ toks, x.toNat = (((hash t).toNat % 2 ^ 32 * ai + bi) % 2 ^ 32) % (2 ^ 31 - 1)) ∧
        ∀ t ∈ toks, x.toNat ≤ (((hash t).toNat % 2 ^ 32 * ai + bi) % 2 ^ 32) % (2 ^ 31 - 1) := by
  obtain ⟨A, hA⟩ : ∃ A, A = (g.sampleN 1 mersenne31 n (g.seedFromU64 seed)).1 := ⟨_, rfl⟩
  obtain ⟨B, hB⟩ : ∃ B, B = (g.sampleN 0 mersenne31 n
    (g.sampleN 1 mersenne31 n (g.seedFromU64 seed)).2).1 := ⟨_, rfl⟩
  have lA : A.length = n := by rw [hA, sampleN_length]
  have lB : B.length = n := by rw [hB, sampleN_length]
  refine ⟨A, B, lA, lB, fun x hx => sampleN_range g 1 mersenne31 n (by decide) _ x (by rw [← hA]; exact hx),
    fun x hx => (sampleN_range g 0 mersenne31 n (by decide) _ x (by rw [← hB]; exact hx)).2,
    (drawsLists_iff g _ n seed lA lB).mpr ⟨hA.symm, hB.symm⟩, ?_⟩
  intro Tok hash toks h m
  have ha : m.a.length = n := new32_a_length g n hash seed
  have hb : m.b.length = n := new32_b_length g n hash seed
  have mA : m.a = A.map UInt32.ofNat := by rw [hA]; rfl
  have mB : m.b = B.map UInt32.ofNat := by rw [hB]; rfl
  have hz : (m.a.zip m.b).length = n := by rw [List.length_zip, ha, hb, min_self]
  refine ⟨_, _, _, createSignature_cons _ _ m h, createSignature_cons _ _ m h,
    createSignature_cons _ _ m h, by simpa using hz, ?_⟩
  intro i hi
  have hai : i < A.length := by omega
  have hbi : i < B.length := by omega
  have rA := sampleN_range g 1 mersenne31 n (by decide) _ A[i] (by rw [← hA]; exact List.getElem_mem hai)
  have rB := sampleN_range g 0 mersenne31 n (by decide) _ B[i] (by rw [← hB]; exact List.getElem_mem hbi)
  have hzi : (m.a.zip m.b)[i]? = some (UInt32.ofNat A[i], UInt32.ofNat B[i]) := by
    rw [List.getElem?_zip_eq_some, mA, mB]
    simp [List.getElem?_eq_getElem hai, List.getElem?_eq_getElem hbi]
  have aff : ∀ t, (affine32 (UInt32.ofNat A[i]) (UInt32.ofNat B[i]) (hash t).toUInt32).toNat =
      (((hash t).toNat % 2 ^ 32 * A[i] + B[i]) % 2 ^ 32) % (2 ^ 31 - 1) := by
    intro t
    unfold affine32
    rw [UInt32.toNat_mod, UInt32.toNat_add, UInt32.toNat_mul, UInt64.toNat_toUInt32,
      UInt32.toNat_ofNat', UInt32.toNat_ofNat', UInt32.toNat_ofNat']
    have e : mersenne31 % 2 ^ 32 = 2 ^ 31 - 1 := by decide
    rw [e]
    have h1 : A[i] % 2 ^ 32 = A[i] := Nat.mod_eq_of_lt (by unfold mersenne31 at rA; omega)
    have h2 : B[i] % 2 ^ 32 = B[i] := Nat.mod_eq_of_lt (by unfold mersenne31 at rB; omega)
    rw [h1, h2, Nat.mod_add_mod]
  obtain ⟨⟨t, ht, e⟩, hle⟩ := comp32_spec hash h (UInt32.ofNat A[i], UInt32.ofNat B[i])
  refine ⟨A[i], B[i], comp32 hash toks (UInt32.ofNat A[i], UInt32.ofNat B[i]),
    List.getElem?_eq_getElem hai, List.getElem?_eq_getElem hbi, ?_, ?_, ?_, ?_, ?_, ?_⟩
  · rw [List.getElem?_map, hzi]; rfl
  · rw [List.getElem?_map, hzi]; rfl
  · rw [List.getElem?_map, hzi]; rfl
  · rw [e]; exact affine32_lt _ _ _
  · exact ⟨t, ht, by rw [e, aff t]⟩
  · intro t' ht'
    rw [← aff t']
    exact hle t' ht'

/-- C04 for MinHasher64V1. -/
theorem C04_minima_64 (g : Rng) (n : Nat) (seed : UInt64) :
    ∃ a b : List Nat, a.length = n ∧ b.length = n ∧ (∀ x ∈ a, 1 ≤ x ∧ x < 2 ^ 61 - 1) ∧ (∀ x ∈ b, x < 2 ^ 61 - 1) ∧
    Spec.DrawsLists g (2 ^ 61 - 1) seed a b ∧
    ∀ (Tok : Type) (hash : Tok → UInt64) (toks : List Tok), toks ≠ [] →
    let m := MinHasher64.newWithHasherAndSeed g n hash seed
    ∃ s : List UInt64, m.createSignature toks = .ok s ∧ s.length = n ∧
      ∀ i < n, ∃ ai bi : Nat, ∃ x : UInt64, a[i]? = some ai ∧ b[i]? = some bi ∧ s[i]? = some x ∧ x.toNat < 2 ^ 61 - 1 ∧
        (∃ t ∈ toks, x.toNat = (((hash t).toNat * ai + bi) % 2 ^ 64) % (2 ^ 61 - 1)) ∧
        ∀ t ∈ toks, x.toNat ≤ (((hash t).toNat * ai + bi) % 2 ^ 64) % (2 ^ 61 - 1) := by
  obtain ⟨A, hA⟩ : ∃ A, A = (g.sampleN 1 mersenne61 n (g.seedFromU64 seed)).1 := ⟨_, rfl⟩
  obtain ⟨B, hB⟩ : ∃ B, B = (g.sampleN 0 mersenne61 n
    (g.sampleN 1 mersenne61 n (g.seedFromU64 seed)).2).1 := ⟨_, rfl⟩
  have lA : A.length = n := by rw [hA, sampleN_length]
  have lB : B.length = n := by rw [hB, sampleN_length]
  refine ⟨A, B, lA, lB, fun x hx => sampleN_range g 1 mersenne61 n (by decide) _ x (by rw [← hA]; exact hx),
    fun x hx => (sampleN_range g 0 mersenne61 n (by decide) _ x (by rw [← hB]; exact hx)).2,
    (drawsLists_iff g _ n seed lA lB).mpr ⟨hA.symm, hB.symm⟩, ?_⟩
  intro Tok hash toks h m
  have ha : m.a.length = n := new64_a_length g n hash seed
  have hb : m.b.length = n := new64_b_length g n hash seed
  have mA : m.a = A.map UInt64.ofNat := by rw [hA]; rfl
  have mB : m.b = B.map UInt64.ofNat := by rw [hB]; rfl
  have hz : (m.a.zip m.b).length = n := by rw [List.length_zip, ha, hb, min_self]
  refine ⟨_, createSignature64_cons m h, by simpa using hz, ?_⟩
  intro i hi
  have hai : i < A.length := by omega
  have hbi : i < B.length := by omega
  have rA := sampleN_range g 1 mersenne61 n (by decide) _ A[i] (by rw [← hA]; exact List.getElem_mem hai)
  have rB := sampleN_range g 0 mersenne61 n (by decide) _ B[i] (by rw [← hB]; exact List.getElem_mem hbi)
  have hzi : (m.a.zip m.b)[i]? = some (UInt64.ofNat A[i], UInt64.ofNat B[i]) := by
    rw [List.getElem?_zip_eq_some, mA, mB]
    simp [List.getElem?_eq_getElem hai, List.getElem?_eq_getElem hbi]
  have aff : ∀ t, (affine64 (UInt64.ofNat A[i]) (UInt64.ofNat B[i]) (hash t)).toNat =
      (((hash t).toNat * A[i] + B[i]) % 2 ^ 64) % (2 ^ 61 - 1) := by
    intro t
    unfold affine64
    rw [UInt64.toNat_mod, UInt64.toNat_add, UInt64.toNat_mul,
      UInt64.toNat_ofNat', UInt64.toNat_ofNat', UInt64.toNat_ofNat']
    have e : mersenne61 % 2 ^ 64 = 2 ^ 61 - 1 := by decide
    rw [e]
    have h1 : A[i] % 2 ^ 64 = A[i] := Nat.mod_eq_of_lt (by unfold mersenne61 at rA; omega)
    have h2 : B[i] % 2 ^ 64 = B[i] := Nat.mod_eq_of_lt (by unfold mersenne61 at rB; omega)
    rw [h1, h2, Nat.mod_add_mod]
  obtain ⟨⟨t, ht, e⟩, hle⟩ := comp64_spec hash h (UInt64.ofNat A[i], UInt64.ofNat B[i])
  refine ⟨A[i], B[i], comp64 hash toks (UInt64.ofNat A[i], UInt64.ofNat B[i]),
    List.getElem?_eq_getElem hai, List.getElem?_eq_getElem hbi, ?_, ?_, ?_, ?_⟩
  · rw [List.getElem?_map, hzi]; rfl
  · rw [e]; exact affine64_lt _ _ _
  · exact ⟨t, ht, by rw [e, aff t]⟩
  · intro t' ht'
    rw [← aff t']
    exact hle t' ht'

/-- C04 instance: the components of a signature of two tokens come from different tokens when the order of their
hashes is reversed by the affine map. -/
example : (MinHasher64.newWithHasherAndSeed exRng 2 (fun t : Nat => UInt64.ofNat (t * 2 ^ 60)) 3).createSignature [1, 9]
      = (MinHasher64.newWithHasherAndSeed exRng 2 (fun t : Nat => UInt64.ofNat (t * 2 ^ 60)) 3).createSignature [9, 1] ∧
    ([1, 9] : List Nat) ≠ [] := by decide +kernel

/-! ## C05 -/

/-- C05: narrow signatures are truncations of the 32-bit signature. -/
theorem C05_truncation (m : MinHasherN Tok) (toks : List Tok) (s : List UInt32)
    (hs : m.sig32 toks = .ok s) :
    m.sig16 toks = .ok (s.map UInt32.toUInt16) ∧ m.sig8 toks = .ok (s.map UInt32.toUInt8) := by
  unfold MinHasherN.sig32 at hs
  unfold MinHasherN.sig16 MinHasherN.sig8
  by_cases h : toks = []
  · subst h
    rw [createSignature_nil] at hs ⊢
    rw [createSignature_nil]
    cases hs
    simp
  · rw [createSignature_cons _ _ _ h] at hs ⊢
    rw [createSignature_cons _ _ _ h]
    cases hs
    simp [Function.comp_def]

theorem agree_map_le {α β : Type} [DecidableEq α] [DecidableEq β] (f : α → β) (a b : List α) :
    agree a b ≤ agree (a.map f) (b.map f) := by
  unfold agree
  rw [List.length_map]
  apply Finset.card_le_card
  intro i
  simp only [Finset.mem_filter, Finset.mem_range, List.getElem?_map]
  rintro ⟨h1, h2⟩
  exact ⟨h1, by rw [h2]⟩

/-- C05: truncation never loses agreements, so the similarity estimate never drops. -/
theorem C05_no_lost_agreement (m : MinHasherN Tok) (l1 l2 : List Tok) (s1 s2 : List UInt32)
    (h1 : m.sig32 l1 = .ok s1) (h2 : m.sig32 l2 = .ok s2) :
    ∃ u1 u2 v1 v2, m.sig16 l1 = .ok u1 ∧ m.sig16 l2 = .ok u2 ∧ m.sig8 l1 = .ok v1 ∧ m.sig8 l2 = .ok v2 ∧
      agree s1 s2 ≤ agree u1 u2 ∧ agree s1 s2 ≤ agree v1 v2 :=
  ⟨_, _, _, _, (C05_truncation m l1 s1 h1).1, (C05_truncation m l2 s2 h2).1,
    (C05_truncation m l1 s1 h1).2, (C05_truncation m l2 s2 h2).2, agree_map_le _ _ _, agree_map_le _ _ _⟩

/-- The hypothesis of C05 is met by every hasher from the constructor (C01), for instance this one. -/
example : ∃ s, (MinHasherN.newWithHasherAndSeed exRng 2 (fun t : Nat => UInt64.ofNat (t * 70000)) 3).sig32
    [5, 9] = .ok s ∧ s ≠ s.map (fun x => x.toUInt16.toUInt32) :=
  ⟨[1400005, 1750006], by decide +kernel⟩

/-! ## C06 -/

/-- C06: bulk creation returns the individual signatures in input order, for every schedule, and never
panics, for all four hashers. -/
theorem C06_bulk_64 (g : Rng) (n : Nat) (hash : Tok → UInt64) (seed : UInt64) (batch : List (List Tok))
    (sched : List Nat) :
    let m := MinHasher64.newWithHasherAndSeed g n hash seed
    ∃ out, bulkCreateSignature m.createSignature batch sched = .ok out ∧
      List.Forall₂ (fun toks s => m.createSignature toks = .ok s) batch out := by
  intro m
  unfold bulkCreateSignature
  rw [parMap_eq_map, List.mapM_map]
  obtain ⟨r, hr⟩ := mapM_isOk (f := m.createSignature) (l := batch)
    (fun toks _ => by
      obtain ⟨s, hs, _⟩ := sig64_length g n hash seed toks
      exact ⟨s, hs⟩)
  exact ⟨r, hr, (mapM_ok_iff _ _ _).mp hr⟩

theorem bulkN {V : Type} (cast : UInt32 → V) (zero : V) (g : Rng) (n : Nat) (hash : Tok → UInt64)
    (seed : UInt64) (batch : List (List Tok)) (sched : List Nat) :
    let m := MinHasherN.newWithHasherAndSeed g n hash seed
    ∃ out, bulkCreateSignature (m.createSignature cast zero) batch sched = .ok out ∧
      List.Forall₂ (fun toks s => m.createSignature cast zero toks = .ok s) batch out := by
  intro m
  unfold bulkCreateSignature
  rw [parMap_eq_map, List.mapM_map]
  obtain ⟨r, hr⟩ := mapM_isOk (f := m.createSignature cast zero) (l := batch)
    (fun toks _ => by
      obtain ⟨s, hs, _⟩ := sigN_length cast zero g n hash seed toks
      exact ⟨s, hs⟩)
  exact ⟨r, hr, (mapM_ok_iff _ _ _).mp hr⟩

/-- C06 for MinHasher32/16/8. -/
theorem C06_bulk_narrow (g : Rng) (n : Nat) (hash : Tok → UInt64) (seed : UInt64)
    (batch : List (List Tok)) (sched : List Nat) :
    let m := MinHasherN.newWithHasherAndSeed g n hash seed
    (∃ out, bulkCreateSignature m.sig32 batch sched = .ok out ∧
      List.Forall₂ (fun toks s => m.sig32 toks = .ok s) batch out) ∧
    (∃ out, bulkCreateSignature m.sig16 batch sched = .ok out ∧
      List.Forall₂ (fun toks s => m.sig16 toks = .ok s) batch out) ∧
    (∃ out, bulkCreateSignature m.sig8 batch sched = .ok out ∧
      List.Forall₂ (fun toks s => m.sig8 toks = .ok s) batch out) :=
  ⟨bulkN _ _ g n hash seed batch sched, bulkN _ _ g n hash seed batch sched,
    bulkN _ _ g n hash seed batch sched⟩

/-- C06 instance: three documents, one empty, under an interleaved schedule. -/
example : bulkCreateSignature (MinHasherN.newWithHasherAndSeed exRng 2 (fun t : Nat => UInt64.ofNat (t * 7)) 3).sig32
    [[5, 9], [], [1]] [2, 0, 7, 1] = .ok [[145, 181], [0, 0], [33, 41]] := by decide +kernel

/-! ## C07 -/

/-- C07: the in-place variant panics iff the buffer has the wrong length. -/
theorem C07_panics_iff (g : Rng) (n : Nat) (hash : Tok → UInt64) (seed : UInt64) (toks : List Tok)
    (ret : List UInt64) :
    (∃ e, (MinHasher64.newWithHasherAndSeed g n hash seed).getMinHashesIntoVec toks ret = .error e) ↔
      ret.length ≠ n := by
  set m := MinHasher64.newWithHasherAndSeed g n hash seed with hm
  have ha : m.a.length = n := new64_a_length g n hash seed
  have hb : m.b.length = n := new64_b_length g n hash seed
  have hn : m.numHashes = n := rfl
  unfold MinHasher64.getMinHashesIntoVec
  rw [hn]
  by_cases hl : n = ret.length
  · rw [if_pos hl]
    simp only [hl, ne_eq, not_true_eq_false, iff_false, not_exists]
    intro e
    by_cases ht : toks = []
    · subst ht; simp
    · have : ¬ (toks.map m.hash).isEmpty = true := by simpa using ht
      rw [if_neg this, intoVecLoop_eq m ht ret 0 (by omega) (by omega)]
      simp
  · rw [if_neg hl]
    simp [Ne.symm hl]

/-- C07: with a buffer of the right length it writes exactly what `create_signature` returns for a non-empty
token sequence, and leaves the buffer unchanged for an empty one. -/
theorem C07_agrees (g : Rng) (n : Nat) (hash : Tok → UInt64) (seed : UInt64) (toks : List Tok)
    (ret : List UInt64) (hl : ret.length = n) :
    let m := MinHasher64.newWithHasherAndSeed g n hash seed
    (toks ≠ [] → m.getMinHashesIntoVec toks ret = m.createSignature toks) ∧
    (toks = [] → m.getMinHashesIntoVec toks ret = .ok ret) := by
  intro m
  have ha : m.a.length = n := new64_a_length g n hash seed
  have hb : m.b.length = n := new64_b_length g n hash seed
  have hn : m.numHashes = ret.length := by rw [hl]; rfl
  unfold MinHasher64.getMinHashesIntoVec
  rw [if_pos hn]
  constructor
  · intro ht
    have : ¬ (toks.map m.hash).isEmpty = true := by simpa using ht
    simp only
    rw [if_neg this, intoVecLoop_eq m ht ret 0 (by omega) (by omega), createSignature64_cons m ht]
    rw [List.drop_zero, List.take_of_length_le (by rw [List.length_zip]; omega)]
  · rintro rfl; simp

/-- C07 instance: a dirty buffer is overwritten. -/
example : (MinHasher64.newWithHasherAndSeed exRng 2 (fun t : Nat => UInt64.ofNat (t * 7)) 3).getMinHashesIntoVec
    [5, 9] [99, 98] = .ok [145, 181] := by decide +kernel

end Verif.Props
