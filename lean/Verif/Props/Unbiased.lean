import Verif.Props.MinHasher
import Verif.Spec.Similarity
import Mathlib.GroupTheory.Perm.Basic
import Mathlib.Data.Fintype.Perm
import Mathlib.Algebra.BigOperators.Group.Finset.Basic
import Mathlib.Algebra.BigOperators.Group.Finset.Sigma
import Mathlib.Algebra.BigOperators.Ring.Finset
import Mathlib.Algebra.Order.BigOperators.Group.Finset
import Mathlib.Data.Finset.Max

/-!
# Property C78: signature agreement estimates the Jaccard similarity without bias

The only randomness left in a hasher with fixed coefficients is the item hash. Averaged over all ways to assign the same
hash values to the tokens of a finite universe, the number of agreeing components is exactly the Jaccard similarity
times the number of components.
-/
namespace Verif.Props
open Verif.Spec

variable {Tok : Type}

section counting
variable [Fintype Tok] [DecidableEq Tok]

/-- The permutations that give `u` the least value among the members of `U`. -/
def leastAt (F : Tok → Nat) (U : Finset Tok) (u : Tok) : Finset (Equiv.Perm Tok) :=
  Finset.univ.filter fun π => ∀ v ∈ U, F (π u) ≤ F (π v)

theorem leastAt_card_eq (F : Tok → Nat) {U : Finset Tok} {u u' : Tok} (hu : u ∈ U) (hu' : u' ∈ U) :
    (leastAt F U u).card = (leastAt F U u').card := by
  have hU : ∀ v, Equiv.swap u u' v ∈ U ↔ v ∈ U := by
    intro v
    by_cases h1 : v = u
    · subst h1; simp [hu, hu']
    · by_cases h2 : v = u'
      · subst h2; simp [hu, hu']
      · rw [Equiv.swap_apply_of_ne_of_ne h1 h2]
  refine Finset.card_bij (fun π _ => π * Equiv.swap u u') ?_ ?_ ?_
  · intro π hπ
    have hπ := (Finset.mem_filter.mp hπ).2
    refine Finset.mem_filter.mpr ⟨Finset.mem_univ _, fun v hv => ?_⟩
    simp only [Equiv.Perm.mul_apply, Equiv.swap_apply_right]
    exact hπ _ ((hU v).mpr hv)
  · intro π _ π' _ h
    exact mul_right_cancel h
  · intro π hπ
    have hπ := (Finset.mem_filter.mp hπ).2
    refine ⟨π * Equiv.swap u u', Finset.mem_filter.mpr ⟨Finset.mem_univ _, fun v hv => ?_⟩, ?_⟩
    · simp only [Equiv.Perm.mul_apply, Equiv.swap_apply_left]
      exact hπ _ ((hU v).mpr hv)
    · rw [mul_assoc, Equiv.swap_mul_self, mul_one]

theorem leastAt_disjoint {F : Tok → Nat} (hF : Function.Injective F) {U : Finset Tok} {u u' : Tok} (hu : u ∈ U)
    (hu' : u' ∈ U) (h : u ≠ u') : Disjoint (leastAt F U u) (leastAt F U u') := by
  rw [Finset.disjoint_left]
  intro π h1 h2
  have h1 := (Finset.mem_filter.mp h1).2 u' hu'
  have h2 := (Finset.mem_filter.mp h2).2 u hu
  exact h (π.injective (hF (le_antisymm h1 h2)))

/-- In how many permutations the least value of `U` falls on a member of `S`. -/
theorem least_in_subset {F : Tok → Nat} (hF : Function.Injective F) {S U : Finset Tok} (hS : S ⊆ U) (hU : U.Nonempty) :
    (Finset.univ.filter fun π : Equiv.Perm Tok => ∃ u ∈ S, ∀ v ∈ U, F (π u) ≤ F (π v)).card * U.card =
      Fintype.card (Equiv.Perm Tok) * S.card := by
  obtain ⟨u0, hu0⟩ := hU
  have key : ∀ S : Finset Tok, S ⊆ U →
      (Finset.univ.filter fun π : Equiv.Perm Tok => ∃ u ∈ S, ∀ v ∈ U, F (π u) ≤ F (π v)).card =
        S.card * (leastAt F U u0).card := by
    intro S hS
    have : (Finset.univ.filter fun π : Equiv.Perm Tok => ∃ u ∈ S, ∀ v ∈ U, F (π u) ≤ F (π v)) =
        S.biUnion (leastAt F U) := by
      ext π; simp [leastAt]
    rw [this, Finset.card_biUnion fun x hx y hy hxy => leastAt_disjoint hF (hS hx) (hS hy) hxy,
      Finset.sum_const_nat fun u hu => leastAt_card_eq F (hS hu) hu0]
  have hall : (Finset.univ.filter fun π : Equiv.Perm Tok => ∃ u ∈ U, ∀ v ∈ U, F (π u) ≤ F (π v)) = Finset.univ := by
    rw [Finset.filter_true_of_mem]
    intro π _
    exact Finset.exists_min_image U (fun v => F (π v)) ⟨u0, hu0⟩
  have h1 := key U (Finset.Subset.refl U)
  rw [hall, Finset.card_univ] at h1
  rw [key S hS, h1]
  ac_rfl

end counting

/-- Minima over two sets are equal exactly if the token with the least value is common. -/
theorem min_eq_iff [DecidableEq Tok] {F : Tok → Nat} (hF : Function.Injective F) {A B : List Tok} {x y : Nat}
    (hx : ∃ t ∈ A, x = F t) (hx' : ∀ t ∈ A, x ≤ F t) (hy : ∃ t ∈ B, y = F t) (hy' : ∀ t ∈ B, y ≤ F t) :
    x = y ↔ ∃ u ∈ A.toFinset ∩ B.toFinset, ∀ v ∈ A.toFinset ∪ B.toFinset, F u ≤ F v := by
  simp only [Finset.mem_inter, Finset.mem_union, List.mem_toFinset]
  obtain ⟨a, ha, rfl⟩ := hx
  obtain ⟨b, hb, rfl⟩ := hy
  constructor
  · intro h
    have hab := hF h
    subst hab
    refine ⟨a, ⟨ha, hb⟩, ?_⟩
    rintro v (hv | hv)
    · exact hx' v hv
    · exact hy' v hv
  · rintro ⟨u, ⟨h1, h2⟩, h⟩
    have e1 := le_antisymm (hx' u h1) (h a (.inl ha))
    have e2 := le_antisymm (hy' u h2) (h b (.inr hb))
    exact e1.trans e2.symm

/-- What `create_signature` computes for a list of tokens (`F i` is the hash function of component `i`). -/
structure IsMinima {V : Type} (val : V → Nat) (n : Nat) (F : Nat → Tok → Nat) (l : List Tok) (s : List V) : Prop where
  length : s.length = n
  comp : ∀ i < n, ∃ x, s[i]? = some x ∧ (∃ t ∈ l, val x = F i t) ∧ ∀ t ∈ l, val x ≤ F i t

section generic
variable {V : Type} [DecidableEq V] {val : V → Nat} (hval : Function.Injective val) {n : Nat}
include hval

theorem IsMinima.agree_iff [DecidableEq Tok] {F : Nat → Tok → Nat} {A B : List Tok} {s s' : List V}
    (h : IsMinima val n F A s) (h' : IsMinima val n F B s') {i : Nat} (hi : i < n)
    (hF : Function.Injective (F i)) :
    s[i]? = s'[i]? ↔ ∃ u ∈ A.toFinset ∩ B.toFinset, ∀ v ∈ A.toFinset ∪ B.toFinset, F i u ≤ F i v := by
  obtain ⟨x, hx, hx1, hx2⟩ := h.comp i hi
  obtain ⟨y, hy, hy1, hy2⟩ := h'.comp i hi
  rw [hx, hy, Option.some_inj, ← hval.eq_iff]
  exact min_eq_iff hF hx1 hx2 hy1 hy2

/-- Injectivity of the component functions, seen in the signatures of single tokens. -/
theorem injective_of_singles {F : Nat → Tok → Nat} {sig : List Tok → List V}
    (hsig : ∀ l, l ≠ [] → IsMinima val n F l (sig l)) (hinj : ∀ t t', t ≠ t' → agree (sig [t]) (sig [t']) = 0)
    {i : Nat} (hi : i < n) : Function.Injective (F i) := by
  intro t t' h
  by_contra hne
  have h0 := hinj t t' hne
  unfold agree at h0
  rw [Finset.card_eq_zero, Finset.filter_eq_empty_iff] at h0
  refine h0 (x := i) (by rw [(hsig [t] (by simp)).length]; exact Finset.mem_range.mpr hi) ?_
  obtain ⟨x, hx, ⟨u, hu, e⟩, _⟩ := (hsig [t] (by simp)).comp i hi
  obtain ⟨y, hy, ⟨u', hu', e'⟩, _⟩ := (hsig [t'] (by simp)).comp i hi
  rw [List.mem_singleton] at hu hu'
  subst hu; subst hu'
  rw [hx, hy, Option.some_inj]
  exact hval (e.trans (h.trans e'.symm))

theorem average [Fintype Tok] [DecidableEq Tok] {F : Nat → Tok → Nat} (hF : ∀ i < n, Function.Injective (F i))
    {sig : Equiv.Perm Tok → List Tok → List V}
    (hsig : ∀ π l, l ≠ [] → IsMinima val n (fun i t => F i (π t)) l (sig π l)) {A B : List Tok} (hA : A ≠ [])
    (hB : B ≠ []) :
    (∑ π : Equiv.Perm Tok, agree (sig π A) (sig π B)) * (A.toFinset ∪ B.toFinset).card =
      n * Fintype.card (Equiv.Perm Tok) * (A.toFinset ∩ B.toFinset).card := by
  have hU : (A.toFinset ∪ B.toFinset).Nonempty := by
    obtain ⟨a, ha⟩ := List.exists_mem_of_ne_nil A hA
    exact ⟨a, by simp [ha]⟩
  have h1 : ∀ π, agree (sig π A) (sig π B) = ∑ i ∈ Finset.range n,
      if (∃ u ∈ A.toFinset ∩ B.toFinset, ∀ v ∈ A.toFinset ∪ B.toFinset, F i (π u) ≤ F i (π v)) then 1 else 0 := by
    intro π
    unfold agree
    rw [(hsig π A hA).length, Finset.card_filter]
    refine Finset.sum_congr rfl fun i hi => ?_
    have hi := Finset.mem_range.mp hi
    exact if_congr ((hsig π A hA).agree_iff hval (hsig π B hB) hi ((hF i hi).comp π.injective)) rfl rfl
  simp_rw [h1]
  rw [Finset.sum_comm, Finset.sum_mul, Finset.sum_congr rfl fun i hi => ?_, Finset.sum_const, Finset.card_range,
    smul_eq_mul, mul_assoc]
  rw [← Finset.card_filter]
  exact least_in_subset (hF i (Finset.mem_range.mp hi)) (fun x hx => by
    rw [Finset.mem_inter] at hx; rw [Finset.mem_union]; exact .inl hx.1) hU

end generic

/-! ### The hashers -/

theorem sig64_isMinima (g : Rng) (n : Nat) (hash : Tok → UInt64) (seed : UInt64) : ∃ F : Nat → UInt64 → Nat,
    ∀ {X : Type} (hash : X → UInt64) (l : List X), l ≠ [] → ∃ s,
      (MinHasher64.newWithHasherAndSeed g n hash seed).createSignature l = .ok s ∧
      IsMinima UInt64.toNat n (fun i t => F i (hash t)) l s := by
  let m := MinHasher64.newWithHasherAndSeed g n hash seed
  refine ⟨fun i h => (affine64 (m.a.zip m.b)[i]!.1 (m.a.zip m.b)[i]!.2 h).toNat, ?_⟩
  intro X hash' l hl
  have e : ((MinHasher64.newWithHasherAndSeed g n hash' seed).a.zip
      (MinHasher64.newWithHasherAndSeed g n hash' seed).b) = m.a.zip m.b := rfl
  have hlen : (m.a.zip m.b).length = n := by
    rw [List.length_zip]
    show min (MinHasher64.newWithHasherAndSeed g n hash seed).a.length
      (MinHasher64.newWithHasherAndSeed g n hash seed).b.length = n
    rw [new64_a_length, new64_b_length, min_self]
  refine ⟨_, createSignature64_cons _ hl, ?_, ?_⟩
  · rw [e, List.length_map, hlen]
  · intro i hi
    have hi' : i < (m.a.zip m.b).length := by omega
    rw [e]
    obtain ⟨⟨t, ht, h1⟩, h2⟩ := comp64_spec hash' hl (m.a.zip m.b)[i]!
    refine ⟨comp64 hash' l (m.a.zip m.b)[i]!, ?_, ⟨t, ht, congrArg _ h1⟩, h2⟩
    rw [List.getElem?_map, List.getElem?_eq_getElem hi', getElem!_pos _ i hi']
    rfl

theorem sig32_isMinima (g : Rng) (n : Nat) (hash : Tok → UInt64) (seed : UInt64) : ∃ F : Nat → UInt64 → Nat,
    ∀ {X : Type} (hash : X → UInt64) (l : List X), l ≠ [] → ∃ s,
      (MinHasherN.newWithHasherAndSeed g n hash seed).sig32 l = .ok s ∧
      IsMinima UInt32.toNat n (fun i t => F i (hash t)) l s := by
  let m := MinHasherN.newWithHasherAndSeed g n hash seed
  refine ⟨fun i h => (affine32 (m.a.zip m.b)[i]!.1 (m.a.zip m.b)[i]!.2 h.toUInt32).toNat, ?_⟩
  intro X hash' l hl
  have e : ((MinHasherN.newWithHasherAndSeed g n hash' seed).a.zip
      (MinHasherN.newWithHasherAndSeed g n hash' seed).b) = m.a.zip m.b := rfl
  have hlen : (m.a.zip m.b).length = n := by
    rw [List.length_zip]
    show min (MinHasherN.newWithHasherAndSeed g n hash seed).a.length
      (MinHasherN.newWithHasherAndSeed g n hash seed).b.length = n
    rw [new32_a_length, new32_b_length, min_self]
  refine ⟨_, createSignature_cons _ _ _ hl, ?_, ?_⟩
  · rw [e, List.length_map, hlen]
  · intro i hi
    have hi' : i < (m.a.zip m.b).length := by omega
    rw [e]
    obtain ⟨⟨t, ht, h1⟩, h2⟩ := comp32_spec hash' hl (m.a.zip m.b)[i]!
    refine ⟨comp32 hash' l (m.a.zip m.b)[i]!, ?_, ⟨t, ht, congrArg _ h1⟩, h2⟩
    rw [List.getElem?_map, List.getElem?_eq_getElem hi', getElem!_pos _ i hi']
    rfl

/-- No two tokens share a component of their one-token signatures. -/
def Separates {V : Type} [DecidableEq V] (create : List Tok → Except Panic (List V)) : Prop :=
  ∀ t t' s s', t ≠ t' → create [t] = .ok s → create [t'] = .ok s' → agree s s' = 0

/-- C78 for MinHasher64V1, one hasher: if no two tokens share a component, two signatures agree at a component exactly
if the token that is least there (by its one-token signature) among the tokens of both sets is in both sets. -/
theorem C78_agreement_64 [DecidableEq Tok] (g : Rng) (n : Nat) (hash : Tok → UInt64) (seed : UInt64)
    (hsep : Separates (MinHasher64.newWithHasherAndSeed g n hash seed).createSignature) (A B : List Tok)
    (hA : A ≠ []) (hB : B ≠ []) :
    ∃ sig : List Tok → List UInt64,
      (∀ l, (MinHasher64.newWithHasherAndSeed g n hash seed).createSignature l = .ok (sig l)) ∧
      ∀ i < n, (sig A)[i]? = (sig B)[i]? ↔ ∃ t, t ∈ A ∧ t ∈ B ∧ ∀ u, u ∈ A ∨ u ∈ B → ∀ x y,
        (sig [t])[i]? = some x → (sig [u])[i]? = some y → x.toNat ≤ y.toNat := by
  obtain ⟨F, hF⟩ := sig64_isMinima g n hash seed
  choose! sig hsig _ using sig64_length g n hash seed
  refine ⟨sig, hsig, fun i hi => ?_⟩
  have hm : ∀ l, l ≠ [] → IsMinima UInt64.toNat n (fun i t => F i (hash t)) l (sig l) := by
    intro l hl
    obtain ⟨s, h1, h2⟩ := hF hash l hl
    rw [hsig l] at h1
    cases h1
    exact h2
  have hinj := injective_of_singles (fun x y h => UInt64.toNat_inj.mp h) hm
    (fun t t' hne => hsep t t' _ _ hne (hsig [t]) (hsig [t'])) hi
  have hone : ∀ t x, (sig [t])[i]? = some x → x.toNat = F i (hash t) := by
    intro t x hx
    obtain ⟨x', hx', ⟨u, hu, e⟩, _⟩ := (hm [t] (by simp)).comp i hi
    rw [hx] at hx'
    cases hx'
    rw [List.mem_singleton] at hu
    subst hu
    exact e
  rw [(hm A hA).agree_iff (fun x y h => UInt64.toNat_inj.mp h) (hm B hB) hi hinj]
  simp only [Finset.mem_inter, Finset.mem_union, List.mem_toFinset]
  constructor
  · rintro ⟨t, ⟨h1, h2⟩, h⟩
    refine ⟨t, h1, h2, fun u hu x y hx hy => ?_⟩
    rw [hone t x hx, hone u y hy]
    exact h u hu
  · rintro ⟨t, h1, h2, h⟩
    refine ⟨t, ⟨h1, h2⟩, fun u hu => ?_⟩
    obtain ⟨x, hx, _⟩ := (hm [t] (by simp)).comp i hi
    obtain ⟨y, hy, _⟩ := (hm [u] (by simp)).comp i hi
    have := h u hu x y hx hy
    rwa [hone t x hx, hone u y hy] at this

/-- C78 for MinHasher64V1: over all permutations of the hash values of a finite token universe, the total number of
agreeing components of the signatures of two non-empty token lists is exactly `num_hashes * |A∩B| / |A∪B|` per
permutation (written without division). -/
theorem C78_unbiased_64 [Fintype Tok] [DecidableEq Tok] (g : Rng) (n : Nat) (hash : Tok → UInt64) (seed : UInt64)
    (hsep : Separates (MinHasher64.newWithHasherAndSeed g n hash seed).createSignature) (A B : List Tok)
    (hA : A ≠ []) (hB : B ≠ []) :
    ∃ sig : Equiv.Perm Tok → List Tok → List UInt64,
      (∀ π l, (MinHasher64.newWithHasherAndSeed g n (fun t => hash (π t)) seed).createSignature l = .ok (sig π l)) ∧
      (∑ π : Equiv.Perm Tok, agree (sig π A) (sig π B)) * (A.toFinset ∪ B.toFinset).card =
        n * Fintype.card (Equiv.Perm Tok) * (A.toFinset ∩ B.toFinset).card := by
  obtain ⟨F, hF⟩ := sig64_isMinima g n hash seed
  choose sig hsig _ using fun (π : Equiv.Perm Tok) l => sig64_length g n (fun t => hash (π t)) seed l
  refine ⟨sig, hsig, ?_⟩
  have hm : ∀ π l, l ≠ [] → IsMinima UInt64.toNat n (fun i t => F i (hash (π t))) l (sig π l) := by
    intro π l hl
    obtain ⟨s, h1, h2⟩ := hF (fun t => hash (π t)) l hl
    rw [hsig π l] at h1
    cases h1
    exact h2
  refine average (F := fun i t => F i (hash t)) (fun x y h => UInt64.toNat_inj.mp h) (fun i hi => ?_) hm hA hB
  exact injective_of_singles (F := fun i t => F i (hash t)) (fun x y h => UInt64.toNat_inj.mp h) (hm 1)
    (fun t t' hne => hsep t t' _ _ hne (hsig 1 [t]) (hsig 1 [t'])) hi

/-- A check of `Separates` that computes. -/
theorem separates_of_check {V : Type} [DecidableEq V] {create : List Tok → Except Panic (List V)}
    (h : ∀ t t', t ≠ t' → agree ((create [t]).toOption.getD []) ((create [t']).toOption.getD []) = 0) :
    Separates create := by
  intro t t' s s' hne h1 h2
  have := h t t' hne
  rwa [h1, h2] at this

/-- The hypothesis holds for six tokens and three components. -/
example : Separates (MinHasher64.newWithHasherAndSeed exRng 3 (fun t : Fin 6 => UInt64.ofNat (t.val * 0x9E3779B97F4A7C15))
    5).createSignature := separates_of_check (by decide +kernel)

/-- The numbers for three tokens: 6 permutations, 2 components, sets `{0, 1}` and `{1, 2}`; 4 agreements in all. -/
example : ([[0, 1, 2], [0, 2, 1], [1, 0, 2], [1, 2, 0], [2, 0, 1], [2, 1, 0]].map fun p =>
    let m := MinHasher64.newWithHasherAndSeed exRng 2 (fun t : Fin 3 =>
      UInt64.ofNat ((p.getD t.val 0) * 0x9E3779B97F4A7C15)) 5
    agree ((m.createSignature [0, 1]).toOption.getD []) ((m.createSignature [1, 2]).toOption.getD [])).sum = 4 := by
  decide +kernel

/-- C78 for MinHasher32. -/
theorem C78_unbiased_32 [Fintype Tok] [DecidableEq Tok] (g : Rng) (n : Nat) (hash : Tok → UInt64) (seed : UInt64)
    (hsep : Separates (MinHasherN.newWithHasherAndSeed g n hash seed).sig32) (A B : List Tok)
    (hA : A ≠ []) (hB : B ≠ []) :
    ∃ sig : Equiv.Perm Tok → List Tok → List UInt32,
      (∀ π l, (MinHasherN.newWithHasherAndSeed g n (fun t => hash (π t)) seed).sig32 l = .ok (sig π l)) ∧
      (∑ π : Equiv.Perm Tok, agree (sig π A) (sig π B)) * (A.toFinset ∪ B.toFinset).card =
        n * Fintype.card (Equiv.Perm Tok) * (A.toFinset ∩ B.toFinset).card := by
  obtain ⟨F, hF⟩ := sig32_isMinima g n hash seed
  choose sig hsig _ using fun (π : Equiv.Perm Tok) l =>
    sigN_length (fun h => h) 0 g n (fun t => hash (π t)) seed l
  refine ⟨sig, hsig, ?_⟩
  have hm : ∀ π l, l ≠ [] → IsMinima UInt32.toNat n (fun i t => F i (hash (π t))) l (sig π l) := by
    intro π l hl
    obtain ⟨s, h1, h2⟩ := hF (fun t => hash (π t)) l hl
    have h1' := (hsig π l).symm.trans h1
    cases h1'
    exact h2
  refine average (F := fun i t => F i (hash t)) (fun x y h => UInt32.toNat_inj.mp h) (fun i hi => ?_) hm hA hB
  exact injective_of_singles (F := fun i t => F i (hash t)) (fun x y h => UInt32.toNat_inj.mp h) (hm 1)
    (fun t t' hne => hsep t t' _ _ hne (hsig 1 [t]) (hsig 1 [t'])) hi

example : Separates (MinHasherN.newWithHasherAndSeed exRng 3 (fun t : Fin 6 => UInt64.ofNat (t.val * 0x9E3779B1))
    5).sig32 := separates_of_check (by decide +kernel)

end Verif.Props
