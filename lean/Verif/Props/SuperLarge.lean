import Verif.Spec.Shuffles
import Verif.Props.MeanSimilarity
import Verif.Props.ExactProbability

/-!
# Property C148: SuperMinHash signatures (V1) of large documents
-/
set_option linter.unusedSectionVars false
namespace Verif.Props
open Verif.Spec Verif.SuperMinHasher

section components
variable {Tok : Type}

theorem rowQ_get_unit (g : SuperRng) (ps : List Nat) (s : g.State) (j : Nat) (hj : j < ps.length) :
    ∃ r, 0 ≤ r ∧ r < 1 ∧ rnd b32 r = .fin r ∧ (rowQ g ps s)[j]? = some (superQ r ps[j]) := by
  induction ps generalizing s j with
  | nil => simp at hj
  | cons p ps ih =>
    cases j with
    | zero => exact ⟨(g.unit s).1, (g.unit_range s).1, (g.unit_range s).2, g.unit_single s, by simp [rowQ]⟩
    | succ j =>
      obtain ⟨r, h0, h1, h2, h⟩ := ih (g.unit s).2 j (by simpa using hj)
      exact ⟨r, h0, h1, h2, by simpa [rowQ] using h⟩

theorem superQ_zero {r : ℚ} (h0 : 0 ≤ r) (h1 : r < 1) (h : rnd b32 r = .fin r) : superQ r 0 = r := by
  have e : rndQ b32 ((0 : Nat) : ℚ) = 0 := by
    have := rndQ_of_repr (f := b32) (q := ((0 : Nat) : ℚ)) (by simp [b32]) (repr_nat b32_ok (by simp [b32]))
    simpa using this
  unfold superQ
  rw [e, add_zero]
  rw [rnd_of_bounds b32_ok (k := 0) h0 (by simp [b32]) (by simp [b32]) (by simpa using h1.le)] at h
  exact Fl.fin.inj h

/-- The value of a token at a position is the shuffled position or one more, and 0 exactly if the shuffled position is. -/
theorem super_rank (g : SuperRng) (m : SuperMinHasher Tok) (hn : m.numHashes ≤ 2 ^ 24) (t : Tok) (j p : Nat)
    (hp : (g.shuffle (List.range m.numHashes) (g.seedFromU64 (m.hash t))).1[j]? = some p) :
    (castQ ((tokQ g m t).getD j 0) = p ∨ castQ ((tokQ g m t).getD j 0) = p + 1) ∧
      (castQ ((tokQ g m t).getD j 0) = 0 ↔ p = 0) := by
  obtain ⟨hj, rfl⟩ := List.getElem?_eq_some_iff.mp hp
  obtain ⟨r, h0, h1, h2, h⟩ := rowQ_get_unit g _ (g.shuffle (List.range m.numHashes) (g.seedFromU64 (m.hash t))).2 j hj
  have e : (tokQ g m t).getD j 0 = superQ r (g.shuffle (List.range m.numHashes) (g.seedFromU64 (m.hash t))).1[j] := by
    unfold tokQ
    rw [List.getD_eq_getElem?_getD, h]
    rfl
  rw [e]
  have hlt := List.mem_range.mp ((g.shuffle_perm (List.range m.numHashes) _).mem_iff.mp (List.getElem_mem hj))
  generalize (g.shuffle (List.range m.numHashes) (g.seedFromU64 (m.hash t))).1[j] = p at hlt ⊢
  obtain ⟨a, b⟩ := superQ_bounds h0 h1 (show p < 2 ^ 24 by omega)
  have hc := castQ_between (by omega) a b
  refine ⟨hc, fun hz => by omega, ?_⟩
  rintro rfl
  rw [superQ_zero h0 h1 h2]
  unfold castQ
  rw [Int.floor_eq_zero_iff.mpr ⟨h0, h1⟩]
  rfl

/-- Every component of a signature is the least value of a token there. -/
theorem super_minima (g : SuperRng) (m : SuperMinHasher Tok) (hn : m.numHashes ≤ 2 ^ 24) (toks : List Tok) (h : toks ≠ []) :
    ∃ s, createSignature1 g m toks = .ok s ∧ s.length = m.numHashes ∧
      ∀ j (hj : j < m.numHashes), ∃ x, s[j]? = some x ∧ (∃ t ∈ toks, x.toNat = castQ ((tokQ g m t).getD j 0)) ∧
        ∀ t ∈ toks, x.toNat ≤ castQ ((tokQ g m t).getD j 0) := by
  refine ⟨_, sig1_eq g m (by omega) toks, by simp [finalQ_eq], fun j hj => ?_⟩
  simp only [finalQ_eq, List.getElem?_map, List.getElem?_range hj, Option.map_some, Option.some.injEq]
  refine ⟨_, rfl, ?_⟩
  rw [superCast_fin]
  constructor
  · rcases posQ_cases (fun t => (tokQ g m t).getD j 0) toks 100000000 with e | ⟨t, ht, e⟩
    · obtain ⟨t, ht⟩ := List.exists_mem_of_ne_nil _ h
      have hle := posQ_le_mem (fun t => (tokQ g m t).getD j 0) toks 100000000 ht
      obtain ⟨π, h1, h2⟩ := tokQ_bounds g m hn t
      have hjl : j < π.length := by rw [h1.length_eq, List.length_range]; exact hj
      have hb := (h2 j _ (List.getElem?_eq_getElem hjl)).2
      have hp : π[j] < m.numHashes := List.mem_range.mp (h1.mem_iff.mp (List.getElem_mem hjl))
      have hp' : ((π[j] : Nat) : ℚ) < 16777216 := by
        have : π[j] < 16777216 := by omega
        exact_mod_cast this
      rw [e] at hle
      linarith
    · exact ⟨t, ht, by rw [e]⟩
  · intro t ht
    exact castQ_mono (posQ_le_mem (fun t => (tokQ g m t).getD j 0) toks 100000000 ht)

/-- C148: a component of a signature is 0 exactly if the shuffle of some token of the document puts 0 at this position:
the random fraction that should tell the tokens apart is cut off. -/
theorem C148_zero (g : SuperRng) (m : SuperMinHasher Tok) (hn : m.numHashes ≤ 2 ^ 24) (toks : List Tok) :
    ∃ s, createSignature1 g m toks = .ok s ∧ s.length = m.numHashes ∧ ∀ j < m.numHashes, (s[j]? = some 0 ↔
      ∃ t ∈ toks, (g.shuffle (List.range m.numHashes) (g.seedFromU64 (m.hash t))).1[j]? = some 0) := by
  by_cases h : toks = []
  · subst h
    refine ⟨_, C90_empty g m, by simp, fun j hj => ?_⟩
    simp [List.getElem?_replicate, hj]
  · obtain ⟨s, e, hl, hs⟩ := super_minima g m hn toks h
    refine ⟨s, e, hl, fun j hj => ?_⟩
    obtain ⟨x, hx, ⟨t, ht, h1⟩, h2⟩ := hs j hj
    have hrow : ∀ t, ∃ p, (g.shuffle (List.range m.numHashes) (g.seedFromU64 (m.hash t))).1[j]? = some p := fun t =>
      ⟨_, List.getElem?_eq_getElem (by rw [(g.shuffle_perm _ _).length_eq, List.length_range]; exact hj)⟩
    rw [hx, Option.some.injEq]
    constructor
    · rintro rfl
      obtain ⟨p, hp⟩ := hrow t
      refine ⟨t, ht, ?_⟩
      rw [hp, ((super_rank g m hn t j p hp).2.mp h1.symm)]
    · rintro ⟨u, hu, hp⟩
      have := h2 u hu
      rw [((super_rank g m hn u j 0 hp).2.mpr rfl)] at this
      exact UInt32.toNat_inj.mp (Nat.le_zero.mp this)

end components

/-! ### Independent choices -/

section product
variable {Tok P : Type} [Fintype Tok] [DecidableEq Tok] [Fintype P]

theorem proportion_pi (E : Tok → P → Prop) :
    proportion (fun σ : Tok → P => ∀ t, E t (σ t)) = ∏ t, proportion (E t) := by
  classical
  have e : (Finset.univ.filter fun σ : Tok → P => ∀ t, E t (σ t)) = Fintype.piFinset fun t => Finset.univ.filter (E t) := by
    ext σ
    simp
  rw [proportion_eq, e, Fintype.card_piFinset, Fintype.card_pi, Nat.cast_prod, Nat.cast_prod, ← Finset.prod_div_distrib]
  exact Finset.prod_congr rfl fun t _ => (proportion_eq _).symm

theorem proportion_true [Nonempty P] : proportion (fun _ : P => True) = 1 := by
  classical
  rw [proportion_eq, Finset.filter_true, Finset.card_univ]
  exact div_self (by exact_mod_cast Fintype.card_ne_zero)

/-- The choices at the members of a set are independent. -/
theorem proportion_forall_mem [Nonempty P] (S : Finset Tok) (E : P → Prop) :
    proportion (fun σ : Tok → P => ∀ t ∈ S, E (σ t)) = proportion E ^ S.card := by
  classical
  rw [proportion_pi fun t x => t ∈ S → E x]
  have : ∀ t, proportion (fun x : P => t ∈ S → E x) = if t ∈ S then proportion E else 1 := by
    intro t
    split
    · rename_i h; simp only [h, forall_const]
    · rename_i h; simp only [h, false_imp_iff]; exact proportion_true
  simp only [this]
  rw [Finset.prod_ite_mem, Finset.univ_inter, Finset.prod_const]

/-- The choices at two places are independent. -/
theorem proportion_two [Nonempty P] {t u : Tok} (htu : t ≠ u) (E F : P → Prop) :
    proportion (fun σ : Tok → P => E (σ t) ∧ F (σ u)) = proportion E * proportion F := by
  classical
  have e : (fun σ : Tok → P => E (σ t) ∧ F (σ u)) = fun σ => ∀ v, (v = t → E (σ v)) ∧ (v = u → F (σ v)) := by
    funext σ
    apply propext
    constructor
    · rintro ⟨h1, h2⟩ v
      exact ⟨by rintro rfl; exact h1, by rintro rfl; exact h2⟩
    · intro h
      exact ⟨(h t).1 rfl, (h u).2 rfl⟩
  rw [e, proportion_pi fun v x => (v = t → E x) ∧ (v = u → F x)]
  have : ∀ v, proportion (fun x : P => (v = t → E x) ∧ (v = u → F x)) =
      (if v = t then proportion E else 1) * if v = u then proportion F else 1 := by
    intro v
    by_cases h1 : v = t
    · have h2 : v ≠ u := h1 ▸ htu
      simp [h1, htu]
    · by_cases h2 : v = u
      · simp [h2, Ne.symm htu]
      · simp [h1, h2, proportion_true]
  simp only [this]
  rw [Finset.prod_mul_distrib, Finset.prod_ite_eq' , Finset.prod_ite_eq']
  simp

end product

/-- A uniformly random permutation takes a position to every value with the same probability. -/
theorem proportion_perm_value {n : Nat} (j a : Fin n) : proportion (fun σ : Equiv.Perm (Fin n) => σ j = a) = 1 / n := by
  classical
  have hn : (0 : ℝ) < n := by exact_mod_cast (lt_of_le_of_lt (Nat.zero_le _) j.isLt)
  have hsame : ∀ b, (Finset.univ.filter fun σ : Equiv.Perm (Fin n) => σ j = b).card =
      (Finset.univ.filter fun σ : Equiv.Perm (Fin n) => σ j = a).card := by
    intro b
    refine Finset.card_bij (fun σ _ => Equiv.swap a b * σ) ?_ ?_ ?_
    · intro σ h
      simp only [Finset.mem_filter, Finset.mem_univ, true_and] at h ⊢
      simp [h]
    · intro σ _ τ _ h
      exact mul_left_cancel h
    · intro σ h
      simp only [Finset.mem_filter, Finset.mem_univ, true_and] at h
      exact ⟨Equiv.swap a b * σ, by simp [h], by rw [← mul_assoc, Equiv.swap_mul_self, one_mul]⟩
  have hsum := Finset.card_eq_sum_card_fiberwise (s := (Finset.univ : Finset (Equiv.Perm (Fin n))))
    (t := (Finset.univ : Finset (Fin n))) (f := fun σ => σ j) (fun _ _ => Finset.mem_univ _)
  simp only [hsame, Finset.sum_const, Finset.card_univ, Fintype.card_fin, smul_eq_mul] at hsum
  rw [proportion_eq, hsum]
  have hc : (0 : ℝ) < (Finset.univ.filter fun σ : Equiv.Perm (Fin n) => σ j = a).card := by
    have : 0 < Fintype.card (Equiv.Perm (Fin n)) := Fintype.card_pos
    rw [hsum] at this
    exact_mod_cast Nat.pos_of_mul_pos_left this
  push_cast
  field_simp

section random
variable {Tok : Type} [Fintype Tok] [DecidableEq Tok] {n : Nat}

/-- C148: with independent, uniformly random shuffles for the tokens, a component of the signature of a document is 0
exactly with the probability `1 - (1 - 1/n)^k`, where `k` is the number of different tokens. -/
theorem C148_probability (hn : n ≤ 2 ^ 24) (hash : Tok → UInt64) (g : (Tok → Equiv.Perm (Fin n)) → SuperRng)
    (hg : ∀ σ, Shuffles n (g σ) hash σ) (A : List Tok) (j : Fin n) :
    proportion (fun σ => ∃ s, createSignature1 (g σ) ⟨hash, n⟩ A = .ok s ∧ s[j.val]? = some 0) =
      1 - (1 - 1 / n : ℝ) ^ A.toFinset.card := by
  classical
  have hpos : 0 < n := lt_of_le_of_lt (Nat.zero_le _) j.isLt
  have h0 : proportion (fun σ : Equiv.Perm (Fin n) => ¬ σ j = ⟨0, hpos⟩) = 1 - 1 / n := by
    have := proportion_compl fun σ : Equiv.Perm (Fin n) => σ j = ⟨0, hpos⟩
    rw [proportion_perm_value] at this
    linarith
  have h1 := proportion_forall_mem (Tok := Tok) A.toFinset fun σ : Equiv.Perm (Fin n) => ¬ σ j = ⟨0, hpos⟩
  rw [h0] at h1
  have h2 := proportion_compl fun σ : Tok → Equiv.Perm (Fin n) => ∀ t ∈ A.toFinset, ¬ σ t j = ⟨0, hpos⟩
  have e : (fun σ => ∃ s, createSignature1 (g σ) ⟨hash, n⟩ A = .ok s ∧ s[j.val]? = some 0) =
      fun σ : Tok → Equiv.Perm (Fin n) => ¬ ∀ t ∈ A.toFinset, ¬ σ t j = ⟨0, hpos⟩ := by
    funext σ
    apply propext
    obtain ⟨s, e, _, hs⟩ := C148_zero (g σ) ⟨hash, n⟩ hn A
    have hz : ∀ t, ((g σ).shuffle (List.range n) ((g σ).seedFromU64 (hash t))).1[j.val]? = some 0 ↔ σ t j = ⟨0, hpos⟩ := by
      intro t
      rw [hg σ t]
      simp [Fin.ext_iff]
    have hs' := hs j.val j.isLt
    simp only [hz] at hs'
    push Not
    simp only [List.mem_toFinset]
    rw [← hs']
    constructor
    · rintro ⟨s', e', h⟩
      cases e.symm.trans e'
      exact h
    · exact fun h => ⟨s, e, h⟩
  rw [e]
  linarith

/-- C148: whatever two documents have in common, a component of their signatures agrees at least with the probability
`1 - (1 - 1/n)^k - (1 - 1/n)^l`, where `k` and `l` are the numbers of their tokens. -/
theorem C148_alike (hn : n ≤ 2 ^ 24) (hash : Tok → UInt64) (g : (Tok → Equiv.Perm (Fin n)) → SuperRng)
    (hg : ∀ σ, Shuffles n (g σ) hash σ) (A B : List Tok) (j : Fin n) :
    1 - (1 - 1 / n : ℝ) ^ A.toFinset.card - (1 - 1 / n : ℝ) ^ B.toFinset.card ≤
      proportion (fun σ => ∃ s s', createSignature1 (g σ) ⟨hash, n⟩ A = .ok s ∧ createSignature1 (g σ) ⟨hash, n⟩ B = .ok s' ∧
        s[j.val]? = s'[j.val]?) := by
  have hA := C148_probability hn hash g hg A j
  have hB := C148_probability hn hash g hg B j
  have nA := proportion_compl fun σ => ∃ s, createSignature1 (g σ) ⟨hash, n⟩ A = .ok s ∧ s[j.val]? = some 0
  have nB := proportion_compl fun σ => ∃ s, createSignature1 (g σ) ⟨hash, n⟩ B = .ok s ∧ s[j.val]? = some 0
  have hor := proportion_or (fun σ => ¬ ∃ s, createSignature1 (g σ) ⟨hash, n⟩ A = .ok s ∧ s[j.val]? = some 0)
    (fun σ => ¬ ∃ s, createSignature1 (g σ) ⟨hash, n⟩ B = .ok s ∧ s[j.val]? = some 0)
  have hE := proportion_compl fun σ => ∃ s s', createSignature1 (g σ) ⟨hash, n⟩ A = .ok s ∧
    createSignature1 (g σ) ⟨hash, n⟩ B = .ok s' ∧ s[j.val]? = s'[j.val]?
  have hmono := proportion_mono (P := fun σ => ¬ ∃ s s', createSignature1 (g σ) ⟨hash, n⟩ A = .ok s ∧
    createSignature1 (g σ) ⟨hash, n⟩ B = .ok s' ∧ s[j.val]? = s'[j.val]?)
    (Q := fun σ => (¬ ∃ s, createSignature1 (g σ) ⟨hash, n⟩ A = .ok s ∧ s[j.val]? = some 0) ∨
      ¬ ∃ s, createSignature1 (g σ) ⟨hash, n⟩ B = .ok s ∧ s[j.val]? = some 0) (fun σ h => by
        by_contra hc
        rw [not_or, not_not, not_not] at hc
        obtain ⟨⟨s, e, h1⟩, s', e', h2⟩ := hc
        exact h ⟨s, s', e, e', h1.trans h2.symm⟩)
  linarith

/-- C148 is false of the code: two documents without a common token, each with at least `k * n` different tokens, agree in
every component with a probability of at least `1 - 2 exp(-k)`. -/
theorem C148_large_false (hn : n ≤ 2 ^ 24) (hash : Tok → UInt64) (g : (Tok → Equiv.Perm (Fin n)) → SuperRng)
    (hg : ∀ σ, Shuffles n (g σ) hash σ) (A B : List Tok) (hAB : ∀ t ∈ A, t ∉ B) (k : Nat) (hA : k * n ≤ A.toFinset.card)
    (hB : k * n ≤ B.toFinset.card) (j : Fin n) :
    jaccard A B = 0 ∧ 1 - 2 * Real.exp (-k) ≤
      proportion (fun σ => ∃ s s', createSignature1 (g σ) ⟨hash, n⟩ A = .ok s ∧ createSignature1 (g σ) ⟨hash, n⟩ B = .ok s' ∧
        s[j.val]? = s'[j.val]?) := by
  have hpos : (0 : ℝ) < n := by exact_mod_cast (lt_of_le_of_lt (Nat.zero_le _) j.isLt)
  have hone : (1 : ℝ) / n ≤ 1 := by
    rw [div_le_one hpos]
    exact_mod_cast (lt_of_le_of_lt (Nat.zero_le _) j.isLt)
  have key : ∀ c : Nat, k * n ≤ c → (1 - 1 / n : ℝ) ^ c ≤ Real.exp (-k) := by
    intro c hc
    calc (1 - 1 / n : ℝ) ^ c ≤ (1 - 1 / n) ^ (k * n) :=
          pow_le_pow_of_le_one (by linarith) (by linarith [show (0 : ℝ) < 1 / n by positivity]) hc
      _ ≤ Real.exp (-(1 / n)) ^ (k * n) := by
          have := Real.add_one_le_exp (-(1 / n : ℝ))
          exact pow_le_pow_left₀ (by linarith) (by linarith) _
      _ = Real.exp (-k) := by
          rw [← Real.exp_nat_mul]
          congr 1
          push_cast
          field_simp
  refine ⟨?_, ?_⟩
  · have : A.toFinset ∩ B.toFinset = ∅ := by
      ext t
      simp only [Finset.mem_inter, List.mem_toFinset, Finset.notMem_empty, iff_false, not_and]
      exact hAB t
    simp [jaccard, this]
  · have := C148_alike hn hash g hg A B j
    linarith [key _ hA, key _ hB]

/-- C148, the part that holds: two small documents without a common token rarely agree: in every component with a
probability of at most `3 k l / n` (their numbers of tokens being `k` and `l`). Missing: large documents, for which the
estimate is wrong, and the exact value for documents with common tokens. -/
theorem C148_small_partial (hn : n ≤ 2 ^ 24) (hash : Tok → UInt64) (g : (Tok → Equiv.Perm (Fin n)) → SuperRng)
    (hg : ∀ σ, Shuffles n (g σ) hash σ) (A B : List Tok) (hA : A ≠ []) (hB : B ≠ []) (hAB : ∀ t ∈ A, t ∉ B) (j : Fin n) :
    jaccard A B = 0 ∧
      proportion (fun σ => ∃ s s', createSignature1 (g σ) ⟨hash, n⟩ A = .ok s ∧ createSignature1 (g σ) ⟨hash, n⟩ B = .ok s' ∧
        s[j.val]? = s'[j.val]?) ≤ 3 * A.toFinset.card * B.toFinset.card / n := by
  classical
  have hpos : (0 : ℝ) < n := by exact_mod_cast (lt_of_le_of_lt (Nat.zero_le _) j.isLt)
  refine ⟨?_, ?_⟩
  · have : A.toFinset ∩ B.toFinset = ∅ := by
      ext t
      simp only [Finset.mem_inter, List.mem_toFinset, Finset.notMem_empty, iff_false, not_and]
      exact hAB t
    simp [jaccard, this]
  -- values of a pair of tokens that are at most one apart
  let near : List (Fin n × Fin n) := ((Finset.univ : Finset (Fin n × Fin n)).filter fun x =>
    x.1.val = x.2.val ∨ x.1.val = x.2.val + 1 ∨ x.1.val + 1 = x.2.val).toList
  have hnear : (near.length : ℝ) ≤ 3 * n := by
    have hc : ((Finset.univ : Finset (Fin n × Fin n)).filter fun x =>
        x.1.val = x.2.val ∨ x.1.val = x.2.val + 1 ∨ x.1.val + 1 = x.2.val).card ≤ 3 * n := by
      have hin : ((Finset.univ : Finset (Fin n × Fin n)).filter fun x =>
        x.1.val = x.2.val ∨ x.1.val = x.2.val + 1 ∨ x.1.val + 1 = x.2.val).card ≤
          ((Finset.univ : Finset (Fin 3 × Fin n))).card := by
        refine Finset.card_le_card_of_injOn
          (fun x => (if x.1.val = x.2.val then 0 else if x.1.val = x.2.val + 1 then 1 else 2, x.1)) (fun _ _ => Finset.mem_univ _) ?_
        intro x hx y hy hxy
        simp only [Finset.coe_filter, Set.mem_setOf_eq, Finset.mem_univ, true_and] at hx hy
        simp only [Prod.mk.injEq] at hxy
        obtain ⟨h1, h2⟩ := hxy
        refine Prod.ext h2 (Fin.ext ?_)
        rw [h2] at h1 hx
        split at h1 <;> split at h1 <;> (try split at h1) <;> (try split at h1) <;> first | omega | simp at h1
      simpa using hin
    rw [Finset.length_toList]
    exact_mod_cast hc
  have hpair : ∀ t u : Tok, t ≠ u → proportion (fun σ : Tok → Equiv.Perm (Fin n) => (σ t j, σ u j) ∈ near) ≤ 3 / n := by
    intro t u htu
    have h1 := proportion_exists_sum near (fun x (σ : Tok → Equiv.Perm (Fin n)) => σ t j = x.1 ∧ σ u j = x.2)
      (fun _ => 1 / n * (1 / n)) fun x _ => by
        rw [proportion_two htu (fun σ : Equiv.Perm (Fin n) => σ j = x.1) (fun σ : Equiv.Perm (Fin n) => σ j = x.2),
          proportion_perm_value, proportion_perm_value]
    refine le_trans (proportion_mono fun σ h => ⟨_, h, rfl, rfl⟩) (h1.trans ?_)
    rw [List.map_const', List.sum_replicate, nsmul_eq_mul]
    calc (near.length : ℝ) * (1 / n * (1 / n)) ≤ 3 * n * (1 / n * (1 / n)) := by gcongr
      _ = 3 / n := by field_simp
  have h2 := proportion_exists_sum (A.dedup ×ˢ B.dedup) (fun x (σ : Tok → Equiv.Perm (Fin n)) => (σ x.1 j, σ x.2 j) ∈ near)
    (fun _ => 3 / n) fun x hx => hpair x.1 x.2 fun h => by
      obtain ⟨h1, h2⟩ := List.mem_product.mp hx
      rw [List.mem_dedup] at h1 h2
      exact hAB _ h1 (h ▸ h2)
  rw [List.map_const', List.sum_replicate, nsmul_eq_mul, List.length_product] at h2
  refine le_trans (proportion_mono fun σ h => ?_) (h2.trans (le_of_eq ?_))
  · obtain ⟨s, s', e, e', hs⟩ := h
    obtain ⟨s1, e1, _, h1⟩ := super_minima (g σ) ⟨hash, n⟩ hn A hA
    obtain ⟨s2, e2, _, h2⟩ := super_minima (g σ) ⟨hash, n⟩ hn B hB
    cases e.symm.trans e1
    cases e'.symm.trans e2
    obtain ⟨x, hx, ⟨t, ht, hxt⟩, _⟩ := h1 j.val j.isLt
    obtain ⟨y, hy, ⟨u, hu, hyu⟩, _⟩ := h2 j.val j.isLt
    rw [hx, hy, Option.some.injEq] at hs
    subst hs
    have hval : ∀ t, ((g σ).shuffle (List.range n) ((g σ).seedFromU64 (hash t))).1[j.val]? = some (σ t j).val := by
      intro t
      rw [hg σ t]
      simp
    have r1 := (super_rank (g σ) ⟨hash, n⟩ hn t j.val _ (hval t)).1
    have r2 := (super_rank (g σ) ⟨hash, n⟩ hn u j.val _ (hval u)).1
    refine ⟨(t, u), List.mem_product.mpr ⟨List.mem_dedup.mpr ht, List.mem_dedup.mpr hu⟩, ?_⟩
    rw [Finset.mem_toList, Finset.mem_filter]
    refine ⟨Finset.mem_univ _, ?_⟩
    simp only
    omega
  · rw [List.card_toFinset, List.card_toFinset]
    push_cast
    ring

end random

/-! ### Examples -/

theorem ofFn_perm_range {n : Nat} (σ : Equiv.Perm (Fin n)) : (List.ofFn fun j => (σ j).val).Perm (List.range n) := by
  have h : (List.ofFn fun j : Fin n => j.val) = List.range n := by
    apply List.ext_getElem <;> simp
  rw [← h]
  exact Equiv.Perm.ofFn_comp_perm σ fun j : Fin n => j.val

/-- A generator that shuffles as told by a table, for tokens `0, …, m - 1` hashed to their number. -/
def tableRng {n m : Nat} (σ : Fin m → Equiv.Perm (Fin n)) : SuperRng where
  State := Nat
  seedFromU64 := fun s => s.toNat
  uniform := fun lo _ s => (lo, s)
  uniform_range := fun _ _ _ h => ⟨Nat.le_refl _, h⟩
  shuffle := fun l s => (if h : s < m ∧ l = List.range n then List.ofFn (fun j => (σ ⟨s, h.1⟩ j).val) else l, s)
  unit := fun s => (1 / 2, s)
  shuffle_perm := fun l s => by
    change List.Perm (if h : s < m ∧ l = List.range n then List.ofFn (fun j => (σ ⟨s, h.1⟩ j).val) else l) l
    split
    · rename_i h
      exact h.2 ▸ ofFn_perm_range (σ ⟨s, h.1⟩)
    · exact List.Perm.refl _
  unit_range := fun s => by
    change 0 ≤ (1 / 2 : ℚ) ∧ (1 / 2 : ℚ) < 1
    norm_num
  unit_single := fun s => by
    change rnd b32 (1 / 2 : ℚ) = .fin (1 / 2 : ℚ)
    decide +kernel

theorem tableRng_shuffles {n m : Nat} (hm : m < 2 ^ 64) (σ : Fin m → Equiv.Perm (Fin n)) :
    Shuffles n (tableRng σ) (fun t : Fin m => UInt64.ofNat t.val) σ := by
  intro t
  have e : (UInt64.ofNat t.val).toNat = t.val := by
    rw [UInt64.toNat_ofNat']
    exact Nat.mod_eq_of_lt (by omega)
  change (if h : (UInt64.ofNat t.val).toNat < m ∧ List.range n = List.range n then
    List.ofFn (fun j => (σ ⟨(UInt64.ofNat t.val).toNat, h.1⟩ j).val) else List.range n) = _
  rw [dif_pos ⟨by rw [e]; exact t.isLt, rfl⟩]
  congr 1
  funext j
  congr 3
  exact Fin.ext e

/-- Two documents of 30 tokens each without a common one and ten hashes: their similarity is 0, but every component agrees
with a probability of at least 0.89. -/
example : jaccard ((List.range 30).map (Fin.ofNat 60)) ((List.range 30).map fun i => Fin.ofNat 60 (i + 30)) = 0 ∧
    0.89 ≤ proportion (fun σ : Fin 60 → Equiv.Perm (Fin 10) => ∃ s s',
      createSignature1 (tableRng σ) ⟨fun t => UInt64.ofNat t.val, 10⟩ ((List.range 30).map (Fin.ofNat 60)) = .ok s ∧
      createSignature1 (tableRng σ) ⟨fun t => UInt64.ofNat t.val, 10⟩ ((List.range 30).map fun i => Fin.ofNat 60 (i + 30)) =
        .ok s' ∧ s[7]? = s'[7]?) := by
  obtain ⟨h1, h2⟩ := C148_large_false (n := 10) (by norm_num) (fun t : Fin 60 => UInt64.ofNat t.val) tableRng
    (tableRng_shuffles (by norm_num)) ((List.range 30).map (Fin.ofNat 60))
    ((List.range 30).map fun i => Fin.ofNat 60 (i + 30)) (by decide) 3 (by decide) (by decide) 7
  refine ⟨h1, le_trans ?_ h2⟩
  have h2 : (2.71 : ℝ) < Real.exp 1 := lt_trans (by norm_num) Real.exp_one_gt_d9
  have e3 : Real.exp (-3) ≤ 0.055 := by
    rw [Real.exp_neg, show Real.exp 3 = Real.exp 1 ^ 3 by rw [← Real.exp_nat_mul]; norm_num, inv_le_comm₀ (by positivity)
      (by norm_num)]
    calc ((0.055 : ℝ))⁻¹ ≤ 2.71 ^ 3 := by norm_num
      _ ≤ Real.exp 1 ^ 3 := by gcongr
  push_cast
  linarith

/-- Two documents of one token each and 200 hashes: every component agrees with a probability of at most 0.015. -/
example : proportion (fun σ : Fin 2 → Equiv.Perm (Fin 200) => ∃ s s',
      createSignature1 (tableRng σ) ⟨fun t : Fin 2 => UInt64.ofNat t.val, 200⟩ [0] = .ok s ∧
      createSignature1 (tableRng σ) ⟨fun t : Fin 2 => UInt64.ofNat t.val, 200⟩ [1] = .ok s' ∧ s[7]? = s'[7]?) ≤ 0.015 := by
  have h := (C148_small_partial (n := 200) (by norm_num) (fun t : Fin 2 => UInt64.ofNat t.val) tableRng
    (tableRng_shuffles (by norm_num)) [0] [1] (by decide) (by decide) (by decide) ⟨7, by norm_num⟩).2
  refine le_trans h ?_
  norm_num

end Verif.Props
