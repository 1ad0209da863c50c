import Verif.Lemmas.Affine
import Verif.Props.MinHasher
import Verif.Props.Similarity

/-! # Properties C97, C98: `compute_similarity`, and how the components spread the token hashes -/
namespace Verif.Props
open Verif.Spec
variable {Tok V : Type}

/-! ## C97 -/

theorem similarity_of_create [DecidableEq V] {create : List Tok → Except Panic (List V)} {n : Nat} (h0 : 0 < n)
    (hn : n ≤ 2 ^ 53) (hc : ∀ l, ∃ s, create l = .ok s ∧ s.length = n) (l1 l2 : List Tok) :
    ∃ s1 s2 x, create l1 = .ok s1 ∧ create l2 = .ok s2 ∧ s1.length = n ∧
      computeSimilarity create l1 l2 = .ok (.fin x) ∧ NearestEven Double ((agree s1 s2 : ℚ) / n) x := by
  obtain ⟨s1, h1, e1⟩ := hc l1
  obtain ⟨s2, h2, e2⟩ := hc l2
  obtain ⟨x, h3, h4⟩ := C08_nearest_double s1 s2 (e1.trans e2.symm) (by omega) (by omega)
  refine ⟨s1, s2, x, h1, h2, e1, ?_, by rwa [e1] at h4⟩
  unfold computeSimilarity
  rw [h1, h2]
  exact h3

/-- C97: `compute_similarity` is the double nearest to the fraction of equal positions of the two signatures
(`MinHasher64V1`). -/
theorem C97_similarity_64 (g : Rng) (n : Nat) (hash : Tok → UInt64) (seed : UInt64) (h0 : 0 < n) (hn : n ≤ 2 ^ 53)
    (l1 l2 : List Tok) :
    let m := MinHasher64.newWithHasherAndSeed g n hash seed
    ∃ s1 s2 x, m.createSignature l1 = .ok s1 ∧ m.createSignature l2 = .ok s2 ∧ s1.length = n ∧
      computeSimilarity m.createSignature l1 l2 = .ok (.fin x) ∧ NearestEven Double ((agree s1 s2 : ℚ) / n) x :=
  similarity_of_create h0 hn (sig64_length g n hash seed) l1 l2

/-- C97 for the narrow hashers. -/
theorem C97_similarity_narrow (g : Rng) (n : Nat) (hash : Tok → UInt64) (seed : UInt64) (h0 : 0 < n) (hn : n ≤ 2 ^ 53)
    (l1 l2 : List Tok) :
    let m := MinHasherN.newWithHasherAndSeed g n hash seed
    (∃ s1 s2 x, m.sig32 l1 = .ok s1 ∧ m.sig32 l2 = .ok s2 ∧ s1.length = n ∧
      computeSimilarity m.sig32 l1 l2 = .ok (.fin x) ∧ NearestEven Double ((agree s1 s2 : ℚ) / n) x) ∧
    (∃ s1 s2 x, m.sig16 l1 = .ok s1 ∧ m.sig16 l2 = .ok s2 ∧ s1.length = n ∧
      computeSimilarity m.sig16 l1 l2 = .ok (.fin x) ∧ NearestEven Double ((agree s1 s2 : ℚ) / n) x) ∧
    ∃ s1 s2 x, m.sig8 l1 = .ok s1 ∧ m.sig8 l2 = .ok s2 ∧ s1.length = n ∧
      computeSimilarity m.sig8 l1 l2 = .ok (.fin x) ∧ NearestEven Double ((agree s1 s2 : ℚ) / n) x :=
  ⟨similarity_of_create h0 hn (sigN_length _ _ g n hash seed) l1 l2,
    similarity_of_create h0 hn (sigN_length _ _ g n hash seed) l1 l2,
    similarity_of_create h0 hn (sigN_length _ _ g n hash seed) l1 l2⟩

theorem similarity_sets [DecidableEq V] {create : List Tok → Except Panic (List V)} {n : Nat} (h0 : 0 < n)
    (hn : n ≤ 2 ^ 53) (hc : ∀ l, ∃ s, create l = .ok s ∧ s.length = n)
    (hs : ∀ l l', (∀ t, t ∈ l ↔ t ∈ l') → create l = create l') :
    (∀ l1 l2, computeSimilarity create l1 l2 = computeSimilarity create l2 l1) ∧
    (∀ l1 l1' l2 l2', (∀ t, t ∈ l1 ↔ t ∈ l1') → (∀ t, t ∈ l2 ↔ t ∈ l2') →
      computeSimilarity create l1 l2 = computeSimilarity create l1' l2') ∧
    ∀ l1 l2, (∀ t, t ∈ l1 ↔ t ∈ l2) → computeSimilarity create l1 l2 = .ok (.fin 1) := by
  refine ⟨fun l1 l2 => ?_, fun l1 l1' l2 l2' h1 h2 => ?_, fun l1 l2 h => ?_⟩
  · obtain ⟨s1, h1, e1⟩ := hc l1
    obtain ⟨s2, h2, e2⟩ := hc l2
    unfold computeSimilarity
    rw [h1, h2]
    exact C08_symmetric s1 s2
  · unfold computeSimilarity
    rw [hs l1 l1' h1, hs l2 l2' h2]
  · obtain ⟨s, h1, e1⟩ := hc l2
    unfold computeSimilarity
    rw [hs l1 l2 h, h1]
    exact (C08_one_iff_equal s s rfl (by omega) (by omega)).mpr rfl

/-- C97: `compute_similarity` is symmetric, depends only on the two sets of tokens, and is 1 for equal sets. -/
theorem C97_sets_64 (g : Rng) (n : Nat) (hash : Tok → UInt64) (seed : UInt64) (h0 : 0 < n) (hn : n ≤ 2 ^ 53) :
    let m := MinHasher64.newWithHasherAndSeed g n hash seed
    (∀ l1 l2, computeSimilarity m.createSignature l1 l2 = computeSimilarity m.createSignature l2 l1) ∧
    (∀ l1 l1' l2 l2', (∀ t, t ∈ l1 ↔ t ∈ l1') → (∀ t, t ∈ l2 ↔ t ∈ l2') →
      computeSimilarity m.createSignature l1 l2 = computeSimilarity m.createSignature l1' l2') ∧
    ∀ l1 l2, (∀ t, t ∈ l1 ↔ t ∈ l2) → computeSimilarity m.createSignature l1 l2 = .ok (.fin 1) :=
  similarity_sets h0 hn (sig64_length g n hash seed) (C02_token_set_64 _)

/-- C97 for the narrow hashers. -/
theorem C97_sets_narrow (g : Rng) (n : Nat) (hash : Tok → UInt64) (seed : UInt64) (h0 : 0 < n) (hn : n ≤ 2 ^ 53) :
    let m := MinHasherN.newWithHasherAndSeed g n hash seed
    ((∀ l1 l2, computeSimilarity m.sig32 l1 l2 = computeSimilarity m.sig32 l2 l1) ∧
    (∀ l1 l1' l2 l2', (∀ t, t ∈ l1 ↔ t ∈ l1') → (∀ t, t ∈ l2 ↔ t ∈ l2') →
      computeSimilarity m.sig32 l1 l2 = computeSimilarity m.sig32 l1' l2') ∧
    ∀ l1 l2, (∀ t, t ∈ l1 ↔ t ∈ l2) → computeSimilarity m.sig32 l1 l2 = .ok (.fin 1)) ∧
    ((∀ l1 l2, computeSimilarity m.sig16 l1 l2 = computeSimilarity m.sig16 l2 l1) ∧
    (∀ l1 l1' l2 l2', (∀ t, t ∈ l1 ↔ t ∈ l1') → (∀ t, t ∈ l2 ↔ t ∈ l2') →
      computeSimilarity m.sig16 l1 l2 = computeSimilarity m.sig16 l1' l2') ∧
    ∀ l1 l2, (∀ t, t ∈ l1 ↔ t ∈ l2) → computeSimilarity m.sig16 l1 l2 = .ok (.fin 1)) ∧
    (∀ l1 l2, computeSimilarity m.sig8 l1 l2 = computeSimilarity m.sig8 l2 l1) ∧
    (∀ l1 l1' l2 l2', (∀ t, t ∈ l1 ↔ t ∈ l1') → (∀ t, t ∈ l2 ↔ t ∈ l2') →
      computeSimilarity m.sig8 l1 l2 = computeSimilarity m.sig8 l1' l2') ∧
    ∀ l1 l2, (∀ t, t ∈ l1 ↔ t ∈ l2) → computeSimilarity m.sig8 l1 l2 = .ok (.fin 1) := by
  intro m
  exact ⟨similarity_sets h0 hn (sigN_length _ _ g n hash seed) fun l l' h => (C02_token_set_narrow m l l' h).1,
    similarity_sets h0 hn (sigN_length _ _ g n hash seed) fun l l' h => (C02_token_set_narrow m l l' h).2.1,
    similarity_sets h0 hn (sigN_length _ _ g n hash seed) fun l l' h => (C02_token_set_narrow m l l' h).2.2⟩

/-- One of three positions agrees. -/
example : computeSimilarity (MinHasherN.newWithHasherAndSeed exRng 3 (fun t : Nat => UInt64.ofNat (t * 2654435761)) 300).sig32
    [5, 7] [5, 7, 1, 8] = .ok (rnd b64 (1 / 3)) := by decide +kernel

/-! ## C98 -/

theorem single64 (m : MinHasher64 Tok) (t : Tok) :
    m.createSignature [t] = .ok ((m.a.zip m.b).map fun ab => affine64 ab.1 ab.2 (m.hash t)) := by
  rw [createSignature64_cons _ (by simp)]
  rfl

theorem single32 (m : MinHasherN Tok) (t : Tok) :
    m.sig32 [t] = .ok ((m.a.zip m.b).map fun ab => affine32 ab.1 ab.2 (m.hash t).toUInt32) := by
  unfold MinHasherN.sig32
  rw [createSignature_cons _ _ _ (by simp)]
  rfl

theorem slopes64 (g : Rng) (n : Nat) (seed : UInt64) : ∃ ab : List (UInt64 × UInt64), ab.length = n ∧
    (∀ x ∈ ab, 1 ≤ x.1.toNat ∧ x.1.toNat < mersenne61) ∧
    ∀ {Tok : Type} (hash : Tok → UInt64), (MinHasher64.newWithHasherAndSeed g n hash seed).a.zip
      (MinHasher64.newWithHasherAndSeed g n hash seed).b = ab := by
  refine ⟨(MinHasher64.newWithHasherAndSeed g n (fun t : UInt64 => t) seed).a.zip
    (MinHasher64.newWithHasherAndSeed g n (fun t : UInt64 => t) seed).b, ?_, ?_, fun hash => rfl⟩
  · rw [List.length_zip, new64_a_length, new64_b_length, min_self]
  · rintro ⟨a, b⟩ hab
    have hmem := (List.of_mem_zip hab).1
    have e : (MinHasher64.newWithHasherAndSeed g n (fun t : UInt64 => t) seed).a =
      ((g.sampleN 1 mersenne61 n (g.seedFromU64 seed)).1).map UInt64.ofNat := rfl
    rw [e] at hmem
    obtain ⟨x, hx, rfl⟩ := List.mem_map.mp hmem
    obtain ⟨h1, h2⟩ := sampleN_range g 1 mersenne61 n (by norm_num [mersenne61]) _ x hx
    have hx64 : x < 2 ^ 64 := lt_trans h2 (by norm_num [mersenne61])
    show 1 ≤ (UInt64.ofNat x).toNat ∧ (UInt64.ofNat x).toNat < _
    rw [UInt64.toNat_ofNat_of_lt' hx64]
    exact ⟨h1, h2⟩

theorem slopes32 (g : Rng) (n : Nat) (seed : UInt64) : ∃ ab : List (UInt32 × UInt32), ab.length = n ∧
    (∀ x ∈ ab, 1 ≤ x.1.toNat ∧ x.1.toNat < mersenne31) ∧
    ∀ {Tok : Type} (hash : Tok → UInt64), (MinHasherN.newWithHasherAndSeed g n hash seed).a.zip
      (MinHasherN.newWithHasherAndSeed g n hash seed).b = ab := by
  refine ⟨(MinHasherN.newWithHasherAndSeed g n (fun t : UInt64 => t) seed).a.zip
    (MinHasherN.newWithHasherAndSeed g n (fun t : UInt64 => t) seed).b, ?_, ?_, fun hash => rfl⟩
  · rw [List.length_zip, new32_a_length, new32_b_length, min_self]
  · rintro ⟨a, b⟩ hab
    have hmem := (List.of_mem_zip hab).1
    have e : (MinHasherN.newWithHasherAndSeed g n (fun t : UInt64 => t) seed).a =
      ((g.sampleN 1 mersenne31 n (g.seedFromU64 seed)).1).map UInt32.ofNat := rfl
    rw [e] at hmem
    obtain ⟨x, hx, rfl⟩ := List.mem_map.mp hmem
    obtain ⟨h1, h2⟩ := sampleN_range g 1 mersenne31 n (by norm_num [mersenne31]) _ x hx
    have hx64 : x < 2 ^ 32 := lt_trans h2 (by norm_num [mersenne31])
    show 1 ≤ (UInt32.ofNat x).toNat ∧ (UInt32.ofNat x).toNat < _
    rw [UInt32.toNat_ofNat_of_lt' hx64]
    exact ⟨h1, h2⟩

/-- C98: every component of `MinHasher64V1` has a number `k` of low bits of the token hash, at least 4, such that the
component of a token depends only on these bits, and at most nine patterns of these bits share a value. -/
theorem C98_spread_64 (g : Rng) (n : Nat) (seed : UInt64) : ∃ k : Nat → Nat, (∀ i < n, 4 ≤ k i ∧ k i ≤ 64) ∧
    ∀ {Tok : Type} (hash : Tok → UInt64), ∃ sig : Tok → List UInt64,
      (∀ t, (MinHasher64.newWithHasherAndSeed g n hash seed).createSignature [t] = .ok (sig t)) ∧
      ∀ i < n,
        (∀ t u, (hash t).toNat % 2 ^ k i = (hash u).toNat % 2 ^ k i → (sig t)[i]? = (sig u)[i]?) ∧
        ∀ T : Finset Tok, (∀ t ∈ T, ∀ u ∈ T, t ≠ u → (hash t).toNat % 2 ^ k i ≠ (hash u).toNat % 2 ^ k i) →
          (∀ t ∈ T, ∀ u ∈ T, (sig t)[i]? = (sig u)[i]?) → T.card ≤ 9 := by
  obtain ⟨ab, hlen, hrange, hab⟩ := slopes64 g n seed
  have hslope : ∀ i < n, ∃ v o, v ≤ 60 ∧ o % 2 = 1 ∧ (ab[i]!).1.toNat = 2 ^ v * o := by
    intro i hi
    have hi' : i < ab.length := by omega
    rw [getElem!_pos _ i hi']
    obtain ⟨h1, h2⟩ := hrange _ (List.getElem_mem hi')
    obtain ⟨v, o, e1, ho⟩ := odd_part (show 0 < ab[i].1.toNat by omega)
    refine ⟨v, o, ?_, ho, e1⟩
    by_contra hv
    have h3 : 2 ^ 61 ≤ 2 ^ v := Nat.pow_le_pow_right (by omega) (by omega)
    have h4 : 2 ^ v * 1 ≤ 2 ^ v * o := Nat.mul_le_mul_left _ (by omega)
    have h5 : ab[i].1.toNat < 2 ^ 61 := lt_trans h2 (by norm_num [mersenne61])
    omega
  choose! v o hv ho e using hslope
  refine ⟨fun i => 64 - v i, fun i hi => by
    have := hv i hi
    show _ ≤ _ - v i ∧ _ - v i ≤ _
    omega, fun {Tok} hash => ?_⟩
  refine ⟨fun t => ab.map fun ab => affine64 ab.1 ab.2 (hash t), fun t => by rw [single64, hab]; rfl, fun i hi => ?_⟩
  have hi' : i < ab.length := by omega
  have hget : ∀ t : Tok, (ab.map fun ab => affine64 ab.1 ab.2 (hash t))[i]? =
      some (affine64 (ab[i]!).1 (ab[i]!).2 (hash t)) := by
    intro t
    rw [List.getElem?_map, List.getElem?_eq_getElem hi', getElem!_pos _ i hi']
    rfl
  have hval : ∀ t u : Tok, affine64 (ab[i]!).1 (ab[i]!).2 (hash t) = affine64 (ab[i]!).1 (ab[i]!).2 (hash u) ↔
      affineNat 64 mersenne61 (2 ^ v i * o i) (ab[i]!).2.toNat (hash t).toNat =
        affineNat 64 mersenne61 (2 ^ v i * o i) (ab[i]!).2.toNat (hash u).toNat := by
    intro t u
    rw [← UInt64.toNat_inj, affine64_toNat, affine64_toNat, e i hi]
  constructor
  · intro t u h
    rw [hget, hget, Option.some.injEq, hval]
    unfold affineNat
    rw [(affine_inner_iff (ho i hi) (by have := hv i hi; omega)).mpr h]
  · intro T hd he
    refine (affine_few (W := 64) (p := mersenne61) (b := (ab[i]!).2.toNat) (ho i hi) (by have := hv i hi; omega)
      (fun t => (hash t).toNat) T hd fun t ht u hu => ?_).trans
        (by norm_num [mersenne61, mersenne31])
    have := he t ht u hu
    rw [hget, hget, Option.some.injEq, hval] at this
    exact this

/-- C98 for `MinHasher32`, which uses the low 32 bits of the token hash: at least 2 of them count, and at most three
patterns share a value. -/
theorem C98_spread_32 (g : Rng) (n : Nat) (seed : UInt64) : ∃ k : Nat → Nat, (∀ i < n, 2 ≤ k i ∧ k i ≤ 32) ∧
    ∀ {Tok : Type} (hash : Tok → UInt64), ∃ sig : Tok → List UInt32,
      (∀ t, (MinHasherN.newWithHasherAndSeed g n hash seed).sig32 [t] = .ok (sig t)) ∧
      ∀ i < n,
        (∀ t u, (hash t).toNat % 2 ^ k i = (hash u).toNat % 2 ^ k i → (sig t)[i]? = (sig u)[i]?) ∧
        ∀ T : Finset Tok, (∀ t ∈ T, ∀ u ∈ T, t ≠ u → (hash t).toNat % 2 ^ k i ≠ (hash u).toNat % 2 ^ k i) →
          (∀ t ∈ T, ∀ u ∈ T, (sig t)[i]? = (sig u)[i]?) → T.card ≤ 3 := by
  obtain ⟨ab, hlen, hrange, hab⟩ := slopes32 g n seed
  have hslope : ∀ i < n, ∃ v o, v ≤ 30 ∧ o % 2 = 1 ∧ (ab[i]!).1.toNat = 2 ^ v * o := by
    intro i hi
    have hi' : i < ab.length := by omega
    rw [getElem!_pos _ i hi']
    obtain ⟨h1, h2⟩ := hrange _ (List.getElem_mem hi')
    obtain ⟨v, o, e1, ho⟩ := odd_part (show 0 < ab[i].1.toNat by omega)
    refine ⟨v, o, ?_, ho, e1⟩
    by_contra hv
    have h3 : 2 ^ 31 ≤ 2 ^ v := Nat.pow_le_pow_right (by omega) (by omega)
    have h4 : 2 ^ v * 1 ≤ 2 ^ v * o := Nat.mul_le_mul_left _ (by omega)
    have h5 : ab[i].1.toNat < 2 ^ 31 := lt_trans h2 (by norm_num [mersenne31])
    omega
  choose! v o hv ho e using hslope
  refine ⟨fun i => 32 - v i, fun i hi => by
    have := hv i hi
    show _ ≤ _ - v i ∧ _ - v i ≤ _
    omega, fun {Tok} hash => ?_⟩
  refine ⟨fun t => ab.map fun ab => affine32 ab.1 ab.2 (hash t).toUInt32, fun t => by rw [single32, hab]; rfl, fun i hi => ?_⟩
  have hi' : i < ab.length := by omega
  have hget : ∀ t : Tok, (ab.map fun ab => affine32 ab.1 ab.2 (hash t).toUInt32)[i]? =
      some (affine32 (ab[i]!).1 (ab[i]!).2 (hash t).toUInt32) := by
    intro t
    rw [List.getElem?_map, List.getElem?_eq_getElem hi', getElem!_pos _ i hi']
    rfl
  have hlow : ∀ t : Tok, (hash t).toUInt32.toNat % 2 ^ (32 - v i) = (hash t).toNat % 2 ^ (32 - v i) := by
    intro t
    rw [UInt64.toNat_toUInt32]
    exact Nat.mod_mod_of_dvd _ (pow_dvd_pow 2 (by omega))
  have hval : ∀ t u : Tok, affine32 (ab[i]!).1 (ab[i]!).2 (hash t).toUInt32 = affine32 (ab[i]!).1 (ab[i]!).2 (hash u).toUInt32 ↔
      affineNat 32 mersenne31 (2 ^ v i * o i) (ab[i]!).2.toNat (hash t).toUInt32.toNat =
        affineNat 32 mersenne31 (2 ^ v i * o i) (ab[i]!).2.toNat (hash u).toUInt32.toNat := by
    intro t u
    rw [← UInt32.toNat_inj, affine32_toNat, affine32_toNat, e i hi]
  constructor
  · intro t u h
    rw [hget, hget, Option.some.injEq, hval]
    unfold affineNat
    rw [(affine_inner_iff (ho i hi) (by have := hv i hi; omega)).mpr ((hlow t).trans (h.trans (hlow u).symm))]
  · intro T hd he
    refine (affine_few (W := 32) (v := v i) (o := o i) (p := mersenne31) (b := (ab[i]!).2.toNat) (ho i hi)
      (by have := hv i hi; omega) (fun t => (hash t).toUInt32.toNat) T (fun t ht u hu hne => ?_) fun t ht u hu => ?_).trans
        (by norm_num [mersenne61, mersenne31])
    · rw [hlow, hlow]; exact hd t ht u hu hne
    · have := he t ht u hu
      rw [hget, hget, Option.some.injEq, hval] at this
      exact this

/-- C98: no component is constant. -/
theorem C98_not_constant (g : Rng) (n : Nat) (seed : UInt64) (hash : Tok → UInt64) (hh : Function.Surjective hash)
    (i : Nat) (hi : i < n) :
    (∃ t u s s', (MinHasher64.newWithHasherAndSeed g n hash seed).createSignature [t] = .ok s ∧
      (MinHasher64.newWithHasherAndSeed g n hash seed).createSignature [u] = .ok s' ∧ s[i]? ≠ s'[i]?) ∧
    ∃ t u s s', (MinHasherN.newWithHasherAndSeed g n hash seed).sig32 [t] = .ok s ∧
      (MinHasherN.newWithHasherAndSeed g n hash seed).sig32 [u] = .ok s' ∧ s[i]? ≠ s'[i]? := by
  classical
  choose f hf using hh
  have hmod : ∀ (k : Nat) (x : Fin 16), 4 ≤ k → (UInt64.ofNat x.val).toNat % 2 ^ k = x.val := by
    intro k x hk
    rw [UInt64.toNat_ofNat_of_lt' (lt_trans x.isLt (by decide))]
    exact Nat.mod_eq_of_lt (lt_of_lt_of_le x.isLt (Nat.pow_le_pow_right (n := 2) (by omega) hk))
  have hmod4 : ∀ (k : Nat) (x : Fin 4), 2 ≤ k → (UInt64.ofNat x.val).toNat % 2 ^ k = x.val := by
    intro k x hk
    rw [UInt64.toNat_ofNat_of_lt' (lt_trans x.isLt (by decide))]
    exact Nat.mod_eq_of_lt (lt_of_lt_of_le x.isLt (Nat.pow_le_pow_right (n := 2) (by omega) hk))
  constructor
  · obtain ⟨k, hk, h⟩ := C98_spread_64 g n seed
    obtain ⟨sig, hs, h⟩ := h hash
    by_contra hc
    push Not at hc
    have hinj : Function.Injective fun x : Fin 16 => f (UInt64.ofNat x.val) := by
      intro x y hxy
      have := congrArg (fun t => (hash t).toNat % 2 ^ k i) hxy
      simp only [hf, hmod _ _ (hk i hi).1] at this
      exact Fin.ext this
    have := (h i hi).2 (Finset.univ.image fun x : Fin 16 => f (UInt64.ofNat x.val)) (by
      intro t ht u hu hne
      obtain ⟨x, _, rfl⟩ := Finset.mem_image.mp ht
      obtain ⟨y, _, rfl⟩ := Finset.mem_image.mp hu
      rw [hf, hf, hmod _ _ (hk i hi).1, hmod _ _ (hk i hi).1]
      intro e
      exact hne (by rw [Fin.ext e])) (fun t _ u _ => hc t u _ _ (hs t) (hs u))
    rw [Finset.card_image_of_injective _ hinj] at this
    simp at this
  · obtain ⟨k, hk, h⟩ := C98_spread_32 g n seed
    obtain ⟨sig, hs, h⟩ := h hash
    by_contra hc
    push Not at hc
    have hinj : Function.Injective fun x : Fin 4 => f (UInt64.ofNat x.val) := by
      intro x y hxy
      have := congrArg (fun t => (hash t).toNat % 2 ^ k i) hxy
      simp only [hf, hmod4 _ _ (hk i hi).1] at this
      exact Fin.ext this
    have := (h i hi).2 (Finset.univ.image fun x : Fin 4 => f (UInt64.ofNat x.val)) (by
      intro t ht u hu hne
      obtain ⟨x, _, rfl⟩ := Finset.mem_image.mp ht
      obtain ⟨y, _, rfl⟩ := Finset.mem_image.mp hu
      rw [hf, hf, hmod4 _ _ (hk i hi).1, hmod4 _ _ (hk i hi).1]
      intro e
      exact hne (by rw [Fin.ext e])) (fun t _ u _ => hc t u _ _ (hs t) (hs u))
    rw [Finset.card_image_of_injective _ hinj] at this
    simp at this

/-- A generator that returns `c` where the range allows it. -/
def constRng (c : Nat) : Rng where
  State := Unit
  seedFromU64 := fun _ => ()
  uniform := fun lo hi s => (if lo ≤ c ∧ c < hi then c else lo, s)
  uniform_range := fun lo hi _ h => by
    show lo ≤ (if lo ≤ c ∧ c < hi then c else lo) ∧ (if lo ≤ c ∧ c < hi then c else lo) < hi
    split_ifs with hc
    · exact hc
    · exact ⟨le_rfl, h⟩

theorem sampleN_const (c lo hi n : Nat) (h : lo ≤ c ∧ c < hi) (s : (constRng c).State) :
    ((constRng c).sampleN lo hi n s).1 = List.replicate n c := by
  induction n generalizing s with
  | zero => rfl
  | succ n ih =>
    rw [List.replicate_succ, ← ih ((constRng c).uniform lo hi s).2]
    show (if lo ≤ c ∧ c < hi then c else lo) :: _ = _
    rw [if_pos h]
    rfl

/-- C98: the bounds on the number of bits are attained. Even slopes are not excluded, and the slope 2^60 makes every
component depend on the lowest four bits only: tokens whose hashes agree there have equal signatures. -/
theorem C98_four_bits (n : Nat) (seed : UInt64) (hash : Tok → UInt64) (t u : Tok)
    (h : (hash t).toNat % 16 = (hash u).toNat % 16) :
    (MinHasher64.newWithHasherAndSeed (constRng (2 ^ 60)) n hash seed).createSignature [t] =
      (MinHasher64.newWithHasherAndSeed (constRng (2 ^ 60)) n hash seed).createSignature [u] := by
  rw [single64, single64]
  congr 1
  refine List.map_congr_left fun ab hab => ?_
  have ha : ab.1 ∈ (MinHasher64.newWithHasherAndSeed (constRng (2 ^ 60)) n hash seed).a :=
    (List.of_mem_zip (show (ab.1, ab.2) ∈ _ from hab)).1
  have e : ab.1 = UInt64.ofNat (2 ^ 60) := by
    have : (MinHasher64.newWithHasherAndSeed (constRng (2 ^ 60)) n hash seed).a =
        (((constRng (2 ^ 60)).sampleN 1 mersenne61 n ((constRng (2 ^ 60)).seedFromU64 seed)).1).map UInt64.ofNat := rfl
    rw [this, sampleN_const _ _ _ _ (by decide), List.map_replicate] at ha
    exact List.eq_of_mem_replicate ha
  rw [← UInt64.toNat_inj, affine64_toNat, affine64_toNat, e]
  unfold affineNat
  show ((hash t).toNat * (2 ^ 60 * 1) + _) % _ % _ = ((hash u).toNat * (2 ^ 60 * 1) + _) % _ % _
  rw [(affine_inner_iff (W := 64) (v := 60) (o := 1) rfl (by omega)).mpr h]

/-- The hypotheses are met by different token hashes. -/
example : (3 : UInt64).toNat % 16 = (19 : UInt64).toNat % 16 ∧ (3 : UInt64) ≠ 19 ∧
    Function.Surjective (fun t : UInt64 => t) := ⟨by decide, by decide, fun t => ⟨t, rfl⟩⟩

end Verif.Props
