import Verif.Props.Unbiased
import Verif.Props.Params
import Verif.Props.Recall
import Verif.Props.Similarity
import Verif.Spec.Ideal
import Mathlib.Data.Fintype.BigOperators
import Mathlib.Logic.Equiv.Fin.Basic
import Mathlib.Tactic.FieldSimp

/-!
# Property C94: the probability of being found

With ideal hash functions (every component of the signatures uses its own, independent, uniformly distributed
permutation of the tokens) the index finds a document with the probability that the parameter search maximises.
-/
namespace Verif.Props
open Verif.Spec

theorem proportion_eq {Ω : Type} [Fintype Ω] (P : Ω → Prop) [DecidablePred P] :
    proportion P = ((Finset.univ.filter P).card : ℝ) / Fintype.card Ω := by
  unfold proportion
  congr!

theorem proportion_mono {Ω : Type} [Fintype Ω] {P Q : Ω → Prop} (h : ∀ x, P x → Q x) : proportion P ≤ proportion Q := by
  unfold proportion
  gcongr with x
  exact h x

theorem jaccard_le_one {Tok : Type} [DecidableEq Tok] (A B : List Tok) : jaccard A B ≤ 1 := by
  unfold jaccard
  refine div_le_one_of_le₀ ?_ (by positivity)
  exact_mod_cast Finset.card_le_card (Finset.inter_subset_left.trans Finset.subset_union_left)

section counting
variable {P : Type} [Fintype P]

open Classical in
/-- In how many of the tables of `b` rows and `r` columns some row has `E` everywhere. -/
theorem card_some_row (b r : Nat) (E : P → Prop) :
    (Finset.univ.filter fun σ : Fin b → Fin r → P => ¬ ∃ i, ∀ j, E (σ i j)).card =
      (Fintype.card P ^ r - (Finset.univ.filter E).card ^ r) ^ b := by
  have h1 : (Finset.univ.filter fun σ : Fin b → Fin r → P => ¬ ∃ i, ∀ j, E (σ i j)) =
      Fintype.piFinset fun _ : Fin b => (Fintype.piFinset fun _ : Fin r => Finset.univ.filter E)ᶜ := by
    ext σ
    simp [Fintype.mem_piFinset]
  rw [h1, Fintype.card_piFinset]
  simp only [Finset.card_compl, Fintype.card_piFinset, Finset.prod_const, Finset.card_univ, Fintype.card_fin,
    Fintype.card_pi]

open Classical in
theorem proportion_some_row (b r : Nat) (E : P → Prop) (hP : 0 < Fintype.card P) :
    proportion (fun π : Fin (b * r) → P => ∃ i : Fin b, ∀ j : Fin r, E (π (finProdFinEquiv (i, j)))) =
      shareProba (proportion E) b r := by
  have hN : (0 : ℝ) < Fintype.card P := by exact_mod_cast hP
  have hle : (Finset.univ.filter E).card ≤ Fintype.card P := Finset.card_le_univ _
  have hc : (Finset.univ.filter fun π : Fin (b * r) → P => ∃ i : Fin b, ∀ j : Fin r, E (π (finProdFinEquiv (i, j)))).card +
      (Fintype.card P ^ r - (Finset.univ.filter E).card ^ r) ^ b = Fintype.card P ^ (b * r) := by
    rw [← card_some_row]
    have e : (Finset.univ.filter fun π : Fin (b * r) → P => ¬ ∃ i : Fin b, ∀ j : Fin r, E (π (finProdFinEquiv (i, j)))).card =
        (Finset.univ.filter fun σ : Fin b → Fin r → P => ¬ ∃ i, ∀ j, E (σ i j)).card := by
      refine Finset.card_equiv
        ((Equiv.arrowCongr (finProdFinEquiv (m := b) (n := r)).symm (Equiv.refl P)).trans
          (Equiv.curry (Fin b) (Fin r) P)) ?_
      intro π
      simp [Equiv.arrowCongr]
    rw [← e, Finset.card_filter_add_card_filter_not, Finset.card_univ, Fintype.card_pi]
    simp
  rw [proportion_eq, proportion_eq]
  unfold shareProba
  have hc' : ((Finset.univ.filter fun π : Fin (b * r) → P => ∃ i : Fin b, ∀ j : Fin r,
      E (π (finProdFinEquiv (i, j)))).card : ℝ) =
      (Fintype.card P : ℝ) ^ (b * r) - ((Fintype.card P : ℝ) ^ r - ((Finset.univ.filter E).card : ℝ) ^ r) ^ b := by
    rw [eq_sub_iff_add_eq]
    have hp : (Finset.univ.filter E).card ^ r ≤ Fintype.card P ^ r := Nat.pow_le_pow_left hle r
    have := congrArg (Nat.cast (R := ℝ)) hc
    push_cast [Nat.cast_sub hp] at this
    exact this
  have hcard : (Fintype.card (Fin (b * r) → P) : ℝ) = (Fintype.card P : ℝ) ^ (b * r) := by simp
  rw [hc', hcard, sub_div, div_self (by positivity), mul_comm b r, pow_mul, ← div_pow, sub_div, div_self (by positivity),
    div_pow]

end counting

section index
variable {Tok Id : Type} [Fintype Tok] [DecidableEq Tok] [DecidableEq Id]
variable {C : Type} [IdContainer C Id] [LawfulIdContainer C Id]

omit [Fintype Tok] [DecidableEq Tok] in
theorem ideal_length (rank : Tok → Nat) (ps : List (Equiv.Perm Tok)) (A : List Tok) :
    (idealSignature rank ps A).length = ps.length := by simp [idealSignature]

omit [Fintype Tok] in
theorem ideal_isMinima {n : Nat} (rank : Tok → Nat) (π : Fin n → Equiv.Perm Tok) {A : List Tok} (hA : A ≠ []) :
    ∀ i : Fin n, ∃ x, (idealSignature rank (List.ofFn π) A)[i.val]? = some x ∧
      (∃ t ∈ A, x = rank (π i t)) ∧ ∀ t ∈ A, x ≤ rank (π i t) := by
  intro i
  have hne : (A.map fun t => rank (π i t)) ≠ [] := by simpa using hA
  obtain ⟨m, hm⟩ : ∃ m, (A.map fun t => rank (π i t)).min? = some m := by
    cases h : (A.map fun t => rank (π i t)).min? with
    | none => exact absurd (List.min?_eq_none_iff.mp h) hne
    | some m => exact ⟨m, rfl⟩
  have hm' := List.min?_eq_some_iff.mp hm
  refine ⟨m, ?_, ?_, ?_⟩
  · simp [idealSignature, hm]
  · obtain ⟨t, ht, e⟩ := List.mem_map.mp hm'.1
    exact ⟨t, ht, e.symm⟩
  · intro t ht
    exact hm'.2 _ (List.mem_map_of_mem ht)

/-- The event that two ideal signatures agree at a component. -/
def agreeEvent (rank : Tok → Nat) (A B : List Tok) (p : Equiv.Perm Tok) : Prop :=
  ∃ u ∈ A.toFinset ∩ B.toFinset, ∀ v ∈ A.toFinset ∪ B.toFinset, rank (p u) ≤ rank (p v)

omit [Fintype Tok] in
theorem ideal_agree_iff {n : Nat} {rank : Tok → Nat} (hrank : Function.Injective rank) (π : Fin n → Equiv.Perm Tok)
    {A B : List Tok} (hA : A ≠ []) (hB : B ≠ []) (i : Fin n) :
    (idealSignature rank (List.ofFn π) A)[i.val]? = (idealSignature rank (List.ofFn π) B)[i.val]? ↔
      agreeEvent rank A B (π i) := by
  obtain ⟨x, hx, hx1, hx2⟩ := ideal_isMinima rank π hA i
  obtain ⟨y, hy, hy1, hy2⟩ := ideal_isMinima rank π hB i
  rw [hx, hy, Option.some.injEq]
  exact min_eq_iff (F := fun t => rank (π i t)) (hrank.comp (π i).injective) hx1 hx2 hy1 hy2

theorem proportion_agree {rank : Tok → Nat} (hrank : Function.Injective rank) {A B : List Tok} (hA : A ≠ []) :
    proportion (agreeEvent rank A B) = jaccard A B := by
  classical
  have hU : (A.toFinset ∪ B.toFinset).Nonempty := by
    obtain ⟨a, ha⟩ := List.exists_mem_of_ne_nil A hA
    exact ⟨a, by simp [ha]⟩
  have h := least_in_subset hrank (S := A.toFinset ∩ B.toFinset) (U := A.toFinset ∪ B.toFinset)
    (Finset.inter_subset_left.trans Finset.subset_union_left) hU
  unfold jaccard agreeEvent
  rw [proportion_eq]
  have h1 : (0 : ℝ) < (A.toFinset ∪ B.toFinset).card := by exact_mod_cast hU.card_pos
  have h2 : (0 : ℝ) < Fintype.card (Equiv.Perm Tok) := by exact_mod_cast Fintype.card_pos
  rw [div_eq_div_iff h2.ne' h1.ne']
  have := congrArg (Nat.cast (R := ℝ)) h
  push_cast at this
  rw [mul_comm ((A.toFinset ∩ B.toFinset).card : ℝ)]
  exact this

omit [Fintype Tok] in
/-- A document that is found shares all components of a band. -/
theorem found_shares (b r : Nat) (t : Fl) (h : List Nat → UInt64) {rank : Tok → Nat} {A B : List Tok}
    (id : Id) (ops : List (Op Nat Id)) (π : Fin (b * r) → Equiv.Perm Tok)
    (hrank : Function.Injective rank) (hA : A ≠ []) (hB : B ≠ [])
    (hc : Clean (b * r) ops) (hl : RightLengths (b * r) ops)
    (hlive : live (b * r) ops id = some (idealSignature rank (List.ofFn π) A))
    (hinj : ∀ l l' : List Nat, l.length = r → l'.length = r → (∀ x ∈ l ++ l', ∃ u, x = rank u) → h l = h l' → l = l')
    (hf : ∃ res, (After C b r t h ops).query (idealSignature rank (List.ofFn π) B) = .ok res ∧ id ∈ res.elems) :
    ∃ i : Fin b, ∀ j : Fin r, agreeEvent rank A B (π (finProdFinEquiv (i, j))) := by
  have hsA : (idealSignature rank (List.ofFn π) A).length = b * r := by rw [ideal_length, List.length_ofFn]
  have hsB : (idealSignature rank (List.ofFn π) B).length = b * r := by rw [ideal_length, List.length_ofFn]
  have hle : ∀ i < b, (i + 1) * r ≤ b * r := fun i hi => Nat.mul_le_mul_right r hi
  have hlen : ∀ i < b, ∀ s : List Nat, s.length = b * r → (bandOf r s i).length = r := by
    intro i hi s hs
    have := hle i hi
    rw [Nat.add_mul, Nat.one_mul] at this
    simp only [bandOf, List.length_take, List.length_drop]
    omega
  have hmem : ∀ i < b, ∀ l : List Tok, l ≠ [] → ∀ x ∈ bandOf r (idealSignature rank (List.ofFn π) l) i,
      ∃ u, x = rank u := by
    intro i hi l hl x hx
    obtain ⟨k, hk, e⟩ := List.mem_iff_getElem.mp (List.mem_of_mem_drop (List.mem_of_mem_take hx))
    have hk' : k < b * r := by rwa [ideal_length, List.length_ofFn] at hk
    obtain ⟨y, hy, ⟨u, _, hu⟩, _⟩ := ideal_isMinima rank π hl ⟨k, hk'⟩
    simp only at hy
    rw [List.getElem?_eq_getElem hk, e, Option.some.injEq] at hy
    exact ⟨_, hy.trans hu⟩
  obtain ⟨res, hres, _⟩ := C17_query_returns (C := C) b r t h ops (idealSignature rank (List.ofFn π) B) hl hsB
  have hex := C18_exact (C := C) b r t h ops (idealSignature rank (List.ofFn π) B) hc res hres id
  obtain ⟨res', hres', hid⟩ := hf
  rw [hres] at hres'
  cases hres'
  obtain ⟨s, v, hs, ⟨i, hi, hi'⟩, _⟩ := hex.mp hid
  rw [hlive, Option.some.injEq] at hs
  subst hs
  have hband := hinj _ _ (hlen i hi _ hsA) (hlen i hi _ hsB) (by
    intro x hx
    rcases List.mem_append.mp hx with hx | hx
    · exact hmem i hi A hA x hx
    · exact hmem i hi B hB x hx) hi'
  refine ⟨⟨i, hi⟩, fun j => ?_⟩
  rw [← ideal_agree_iff hrank π hA hB]
  have := congrArg (fun l => l[j.val]?) hband
  simp only [bandOf, List.getElem?_take, j.isLt, if_true, List.getElem?_drop] at this
  have e : (finProdFinEquiv (⟨i, hi⟩, j) : Fin (b * r)).val = i * r + j.val := by
    simp [finProdFinEquiv, Nat.mul_comm, Nat.add_comm]
  rw [e]
  exact this

omit [Fintype Tok] in
/-- A document that shares all components of a band is found if the threshold is at most 0. -/
theorem shares_found (b r : Nat) (t : Fl) (h : List Nat → UInt64) {rank : Tok → Nat} {A B : List Tok}
    (id : Id) (ops : List (Op Nat Id)) (π : Fin (b * r) → Equiv.Perm Tok)
    (hrank : Function.Injective rank) (hA : A ≠ []) (hB : B ≠ [])
    (hc : Clean (b * r) ops) (hl : RightLengths (b * r) ops)
    (hlive : live (b * r) ops id = some (idealSignature rank (List.ofFn π) A))
    (h0 : 0 < b * r) (hn : b * r ≤ 2 ^ 53) (ht : Fl.ge (.fin 0) t = true)
    (hs : ∃ i : Fin b, ∀ j : Fin r, agreeEvent rank A B (π (finProdFinEquiv (i, j)))) :
    ∃ res, (After C b r t h ops).query (idealSignature rank (List.ofFn π) B) = .ok res ∧ id ∈ res.elems := by
  have hsA : (idealSignature rank (List.ofFn π) A).length = b * r := by rw [ideal_length, List.length_ofFn]
  have hsB : (idealSignature rank (List.ofFn π) B).length = b * r := by rw [ideal_length, List.length_ofFn]
  have hle : ∀ i < b, (i + 1) * r ≤ b * r := fun i hi => Nat.mul_le_mul_right r hi
  have hlen : ∀ i < b, ∀ s : List Nat, s.length = b * r → (bandOf r s i).length = r := by
    intro i hi s hs
    have := hle i hi
    rw [Nat.add_mul, Nat.one_mul] at this
    simp only [bandOf, List.length_take, List.length_drop]
    omega
  obtain ⟨res, hres, _⟩ := C17_query_returns (C := C) b r t h ops (idealSignature rank (List.ofFn π) B) hl hsB
  have hex := C18_exact (C := C) b r t h ops (idealSignature rank (List.ofFn π) B) hc res hres id
  obtain ⟨i, hall⟩ := hs
  refine ⟨res, hres, hex.mpr ?_⟩
  obtain ⟨x, hx, _, hx0, _⟩ := C08_rounded_ratio (idealSignature rank (List.ofFn π) A)
    (idealSignature rank (List.ofFn π) B) (by rw [hsA, hsB]) (by rw [hsA]; exact h0) (by rw [hsA]; exact hn)
  refine ⟨_, .fin x, hlive, ⟨i, i.isLt, ?_⟩, hx, ge_mono hx0 ht⟩
  congr 1
  apply List.ext_getElem?
  intro j
  by_cases hj : j < r
  · simp only [bandOf, List.getElem?_take, hj, if_true, List.getElem?_drop]
    have := (ideal_agree_iff hrank π hA hB (finProdFinEquiv (i, ⟨j, hj⟩))).mpr (hall ⟨j, hj⟩)
    have e : (finProdFinEquiv (i, (⟨j, hj⟩ : Fin r)) : Fin (b * r)).val = i * r + j := by
      simp [finProdFinEquiv, Nat.mul_comm, Nat.add_comm]
    rwa [e] at this
  · rw [List.getElem?_eq_none (by rw [hlen i i.isLt _ hsA]; omega),
      List.getElem?_eq_none (by rw [hlen i i.isLt _ hsB]; omega)]

/-- C94: let every component of the signatures use its own uniformly distributed permutation. After every history
without overwriting in which the document of `id` is `A`, the probability that a query for `B` returns `id` is
`1 - (1 - s^r)^b` with the Jaccard similarity `s` of `A` and `B`, if the threshold filters nothing and the band hash
has no collisions. -/
theorem C94_band_probability (b r : Nat) (t : Fl) (h : List Nat → UInt64) (rank : Tok → Nat) (A B : List Tok)
    (id : Id) (ops : (Fin (b * r) → Equiv.Perm Tok) → List (Op Nat Id)) (h0 : 0 < b * r) (hn : b * r ≤ 2 ^ 53)
    (hrank : Function.Injective rank) (hA : A ≠ []) (hB : B ≠ [])
    (hinj : ∀ l l' : List Nat, l.length = r → l'.length = r → (∀ x ∈ l ++ l', ∃ u, x = rank u) → h l = h l' → l = l')
    (ht : Fl.ge (.fin 0) t = true) (hc : ∀ π, Clean (b * r) (ops π)) (hl : ∀ π, RightLengths (b * r) (ops π))
    (hlive : ∀ π, live (b * r) (ops π) id = some (idealSignature rank (List.ofFn π) A)) :
    proportion (fun π : Fin (b * r) → Equiv.Perm Tok =>
      ∃ res, (After C b r t h (ops π)).query (idealSignature rank (List.ofFn π) B) = .ok res ∧ id ∈ res.elems) =
      shareProba (jaccard A B) b r := by
  rw [← proportion_agree hrank hA, ← proportion_some_row b r _ Fintype.card_pos]
  congr 1
  funext π
  exact propext ⟨found_shares b r t h id (ops π) π hrank hA hB (hc π) (hl π) (hlive π) hinj,
    shares_found b r t h id (ops π) π hrank hA hB (hc π) (hl π) (hlive π) h0 hn ht⟩

/-- C94: with any threshold this is an upper bound. -/
theorem C94_at_most (b r : Nat) (t : Fl) (h : List Nat → UInt64) (rank : Tok → Nat) (A B : List Tok)
    (id : Id) (ops : (Fin (b * r) → Equiv.Perm Tok) → List (Op Nat Id))
    (hrank : Function.Injective rank) (hA : A ≠ []) (hB : B ≠ [])
    (hinj : ∀ l l' : List Nat, l.length = r → l'.length = r → (∀ x ∈ l ++ l', ∃ u, x = rank u) → h l = h l' → l = l')
    (hc : ∀ π, Clean (b * r) (ops π)) (hl : ∀ π, RightLengths (b * r) (ops π))
    (hlive : ∀ π, live (b * r) (ops π) id = some (idealSignature rank (List.ofFn π) A)) :
    proportion (fun π : Fin (b * r) → Equiv.Perm Tok =>
      ∃ res, (After C b r t h (ops π)).query (idealSignature rank (List.ofFn π) B) = .ok res ∧ id ∈ res.elems) ≤
      shareProba (jaccard A B) b r := by
  rw [← proportion_agree hrank hA, ← proportion_some_row b r _ Fintype.card_pos]
  exact proportion_mono fun π => found_shares b r t h id (ops π) π hrank hA hB (hc π) (hl π) (hlive π) hinj

/-- C94: the bands and rows that the search of `calculate_b_and_r` returns (in real arithmetic) for a Jaccard similarity
`s` and a probability `p` find every document of similarity at least `s` with probability above `p`. -/
theorem C94_requested_probability (b r n : Nat) (s p : ℝ) (t : Fl) (h : List Nat → UInt64) (rank : Tok → Nat)
    (A B : List Tok) (id : Id) (ops : (Fin (b * r) → Equiv.Perm Tok) → List (Op Nat Id)) (hn : n ≤ 2 ^ 53)
    (hn1 : 1 ≤ n) (h0 : 0 ≤ s) (hsearch : realSearch s n p = some (b, r)) (hr : 1 < r) (hs : s ≤ jaccard A B)
    (hrank : Function.Injective rank) (hA : A ≠ []) (hB : B ≠ [])
    (hinj : ∀ l l' : List Nat, l.length = r → l'.length = r → (∀ x ∈ l ++ l', ∃ u, x = rank u) → h l = h l' → l = l')
    (ht : Fl.ge (.fin 0) t = true) (hc : ∀ π, Clean (b * r) (ops π)) (hl : ∀ π, RightLengths (b * r) (ops π))
    (hlive : ∀ π, live (b * r) (ops π) id = some (idealSignature rank (List.ofFn π) A)) :
    p < proportion (fun π : Fin (b * r) → Equiv.Perm Tok =>
      ∃ res, (After C b r t h (ops π)).query (idealSignature rank (List.ofFn π) B) = .ok res ∧ id ∈ res.elems) := by
  have hj := jaccard_le_one A B
  obtain ⟨r', h1, h2, h3, h4, _⟩ := C14_params_optimal s p n hn1 h0 (hs.trans hj)
  rw [hsearch, Option.some.injEq, Prod.mk.injEq] at h1
  obtain ⟨rfl, rfl⟩ := h1
  have hb : 0 < n / r := Nat.div_pos h3 h2
  rw [C94_band_probability (n / r) r t h rank A B id ops (Nat.mul_pos hb h2) ((Nat.div_mul_le_self n r).trans hn) hrank hA
    hB hinj ht hc hl hlive]
  refine (h4 hr).trans_le ?_
  unfold shareProba
  have e1 : s ^ r ≤ jaccard A B ^ r := pow_le_pow_left₀ h0 hs r
  have e2 : jaccard A B ^ r ≤ 1 := pow_le_one₀ (h0.trans hs) hj
  have e3 : (1 - jaccard A B ^ r) ^ (n / r) ≤ (1 - s ^ r) ^ (n / r) := pow_le_pow_left₀ (by linarith) (by linarith) _
  linarith

/-- The hypotheses are met: three tokens, two bands of two rows, one insertion. -/
example : ∃ (h : List Nat → UInt64) (ops : (Fin (2 * 2) → Equiv.Perm (Fin 3)) → List (Op Nat Nat)),
    (∀ l l' : List Nat, l.length = 2 → l'.length = 2 → (∀ x ∈ l ++ l', ∃ u : Fin 3, x = u.val) → h l = h l' → l = l') ∧
    (∀ π, Clean 4 (ops π)) ∧ (∀ π, RightLengths 4 (ops π)) ∧
    ∀ π, live 4 (ops π) 7 = some (idealSignature Fin.val (List.ofFn π) [0, 1]) := by
  refine ⟨fun l => UInt64.ofNat (3 * l.headD 0 + l.getLastD 0), fun π => [.insert 7 (idealSignature Fin.val (List.ofFn π) [0, 1])],
    ?_, ?_, ?_, ?_⟩
  · intro l l' h1 h2 hx hh
    match l, l', h1, h2 with
    | [x, y], [x', y'], _, _ =>
      simp only [List.cons_append, List.nil_append, List.mem_cons, List.not_mem_nil, or_false, forall_eq_or_imp, forall_eq] at hx
      obtain ⟨⟨u, rfl⟩, ⟨v, rfl⟩, ⟨u', rfl⟩, ⟨v', rfl⟩⟩ := hx
      revert hh
      revert u v u' v'
      decide +kernel
  · intro π
    apply clean_of_prefixes
    intro i hi op hop
    have : i = 0 := by simpa using hi
    subst this
    simp at hop
    subst hop
    intro _
    rfl
  · intro π op hop s hs
    simp at hop
    subst hop
    simp [sigsOf] at hs
    subst hs
    rw [ideal_length]
    rfl
  · intro π
    have : (idealSignature Fin.val (List.ofFn π) [0, 1]).length = 4 := by rw [ideal_length, List.length_ofFn]
    simp only [live, touch, List.reverse_cons, List.reverse_nil, List.nil_append, List.findSome?, this, if_true, and_self]
    rfl

/-- The search returns more than one row per band for similarity 1/2, eight hashes and probability 1/2. -/
example : ∃ b r, realSearch (1 / 2) 8 (1 / 2) = some (b, r) ∧ 1 < r := by
  obtain ⟨r, h1, h2, _, _, h5⟩ := C14_params_optimal (1 / 2) (1 / 2) 8 (by norm_num) (by norm_num) (by norm_num)
  refine ⟨_, _, h1, ?_⟩
  by_contra hc
  have hr : r = 1 := by omega
  subst hr
  have := h5 2 (by norm_num) (by norm_num)
  norm_num [shareProba] at this

/-- The numbers there: Jaccard similarity 1/3, found in 17 of 81 cases. -/
example : jaccard ([0, 1] : List (Fin 3)) [1, 2] = 1 / 3 ∧ shareProba (1 / 3) 2 2 = 17 / 81 := by
  constructor
  · unfold jaccard
    rw [show (([0, 1] : List (Fin 3)).toFinset ∩ [1, 2].toFinset).card = 1 by decide,
      show (([0, 1] : List (Fin 3)).toFinset ∪ [1, 2].toFinset).card = 3 by decide]
    norm_num
  · norm_num [shareProba]

end index
end Verif.Props
