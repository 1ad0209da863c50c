import Verif.Props.BandProbability
import Mathlib.RingTheory.Polynomial.Bernstein
import Mathlib.Algebra.BigOperators.Field

/-!
# Property C99: accuracy of the similarity estimate

With ideal hash functions the number of agreeing components is binomially distributed, so the similarity that the
crate computes is close to the Jaccard similarity, and the threshold separates what lies clearly on either side of it.
-/
namespace Verif.Props
open Verif.Spec

section counting
variable {P : Type} [Fintype P]

open Classical in
/-- In how many tables of `n` entries exactly `k` entries have `E`. -/
theorem card_count (n k : Nat) (E : P → Prop) :
    (Finset.univ.filter fun π : Fin n → P => (Finset.univ.filter fun i => E (π i)).card = k).card =
      n.choose k * ((Finset.univ.filter E).card ^ k * (Finset.univ.filter fun x => ¬ E x).card ^ (n - k)) := by
  have h1 : (Finset.univ.filter fun π : Fin n → P => (Finset.univ.filter fun i => E (π i)).card = k) =
      (Finset.powersetCard k (Finset.univ : Finset (Fin n))).biUnion fun S =>
        Fintype.piFinset fun i => if i ∈ S then Finset.univ.filter E else Finset.univ.filter fun x => ¬ E x := by
    ext π
    simp only [Finset.mem_filter, Finset.mem_univ, true_and, Finset.mem_biUnion, Finset.mem_powersetCard,
      Finset.subset_univ, Fintype.mem_piFinset]
    constructor
    · intro h
      refine ⟨_, h, fun i => ?_⟩
      by_cases hi : E (π i) <;> simp [hi]
    · rintro ⟨S, hS, h⟩
      have : (Finset.univ.filter fun i => E (π i)) = S := by
        ext i
        have hi := h i
        by_cases hiS : i ∈ S <;> simp_all
      rw [this, hS]
  rw [h1, Finset.card_biUnion]
  · rw [Finset.sum_const_nat (m := (Finset.univ.filter E).card ^ k * (Finset.univ.filter fun x => ¬ E x).card ^ (n - k)),
      Finset.card_powersetCard, Finset.card_univ, Fintype.card_fin]
    intro S hS
    have hS := (Finset.mem_powersetCard.mp hS).2
    rw [Fintype.card_piFinset]
    have : ∀ i : Fin n, (if i ∈ S then Finset.univ.filter E else Finset.univ.filter fun x => ¬ E x).card =
        if i ∈ S then (Finset.univ.filter E).card else (Finset.univ.filter fun x => ¬ E x).card := by
      intro i; split_ifs <;> rfl
    simp only [this]
    rw [Finset.prod_ite, Finset.prod_const, Finset.prod_const]
    congr 2
    · rw [← hS]; congr 1; ext i; simp
    · have : (Finset.univ.filter fun i => i ∉ S) = Sᶜ := by ext i; simp
      rw [this, Finset.card_compl, Fintype.card_fin, hS]
  · intro S _ S' _ hne
    rw [Function.onFun, Finset.disjoint_left]
    intro π h h'
    apply hne
    rw [Fintype.mem_piFinset] at h h'
    ext i
    have hi := h i
    have hi' := h' i
    by_cases h1 : i ∈ S <;> by_cases h2 : i ∈ S' <;> simp_all

open Classical in
/-- The number of entries that have `E` is binomially distributed. -/
theorem proportion_count (n k : Nat) (hk : k ≤ n) (E : P → Prop) (hP : 0 < Fintype.card P) :
    proportion (fun π : Fin n → P => (Finset.univ.filter fun i => E (π i)).card = k) =
      n.choose k * proportion E ^ k * (1 - proportion E) ^ (n - k) := by
  have hN : (0 : ℝ) < Fintype.card P := by exact_mod_cast hP
  rw [proportion_eq, proportion_eq, card_count]
  have hc : ((Finset.univ.filter fun x => ¬ E x).card : ℝ) = Fintype.card P - (Finset.univ.filter E).card := by
    have := Finset.card_filter_add_card_filter_not (s := (Finset.univ : Finset P)) (p := E)
    rw [Finset.card_univ] at this
    rw [eq_sub_iff_add_eq, add_comm]
    exact_mod_cast this
  have hcard : (Fintype.card (Fin n → P) : ℝ) = (Fintype.card P : ℝ) ^ n := by simp
  rw [hcard]
  push_cast
  rw [hc, one_sub_div hN.ne', div_pow, div_pow, ← Nat.add_sub_cancel' hk, pow_add]
  simp only [Nat.add_sub_cancel_left]
  field_simp

open Classical in
theorem proportion_sum_count (n : Nat) (E : P → Prop) (Q : Nat → Prop) :
    proportion (fun π : Fin n → P => Q (Finset.univ.filter fun i => E (π i)).card) =
      ∑ k ∈ (Finset.range (n + 1)).filter Q,
        proportion (fun π : Fin n → P => (Finset.univ.filter fun i => E (π i)).card = k) := by
  simp only [proportion_eq]
  rw [← Finset.sum_div]
  congr 1
  rw [← Nat.cast_sum, ← Finset.card_biUnion]
  · congr 2
    ext π
    simp only [Finset.mem_filter, Finset.mem_univ, true_and, Finset.mem_biUnion, Finset.mem_range]
    constructor
    · intro h
      refine ⟨_, ⟨?_, h⟩, rfl⟩
      have := Finset.card_le_univ (Finset.univ.filter fun i => E (π i))
      rw [Fintype.card_fin] at this
      omega
    · rintro ⟨k, ⟨_, h⟩, rfl⟩
      exact h
  · intro k _ k' _ hne
    rw [Function.onFun, Finset.disjoint_left]
    intro π h h'
    exact hne ((Finset.mem_filter.mp h).2.symm.trans (Finset.mem_filter.mp h').2)

theorem bernstein_variance (n : Nat) (x : ℝ) :
    ∑ k ∈ Finset.range (n + 1), (n * x - k) ^ 2 * (n.choose k * x ^ k * (1 - x) ^ (n - k)) = n * x * (1 - x) := by
  have h := congrArg (Polynomial.eval x) (bernsteinPolynomial.variance ℝ n)
  simpa [Polynomial.eval_finsetSum, bernsteinPolynomial] using h

/-- Chebyshev's inequality for the number of entries that have `E`. -/
theorem proportion_deviation (n : Nat) (E : P → Prop) (hP : 0 < Fintype.card P) (Q : Nat → Prop) (d : ℝ) (hd : 0 < d)
    (hQ : ∀ k ≤ n, Q k → d ≤ |(k : ℝ) - n * proportion E|) [DecidablePred E] :
    proportion (fun π : Fin n → P => Q (Finset.univ.filter fun i => E (π i)).card) ≤
      n * proportion E * (1 - proportion E) / d ^ 2 := by
  classical
  have hx0 : 0 ≤ proportion E := by rw [proportion_eq]; positivity
  have hx1 : proportion E ≤ 1 := by
    rw [proportion_eq]
    refine div_le_one_of_le₀ ?_ (by positivity)
    exact_mod_cast Finset.card_le_univ _
  have e : ∀ π : Fin n → P, (Finset.univ.filter fun i => E (π i)) =
      @Finset.filter _ (fun i => E (π i)) (fun i => Classical.propDecidable _) Finset.univ := by
    intro π; congr!
  simp only [e]
  rw [proportion_sum_count n E Q, le_div_iff₀ (by positivity), ← bernstein_variance n, Finset.sum_mul]
  refine (Finset.sum_le_sum (g := fun k => (n * proportion E - k) ^ 2 *
    (n.choose k * proportion E ^ k * (1 - proportion E) ^ (n - k))) ?_).trans ?_
  · intro k hk
    obtain ⟨hk, hq⟩ := Finset.mem_filter.mp hk
    have hk : k ≤ n := by have := Finset.mem_range.mp hk; omega
    rw [proportion_count n k hk E hP, mul_comm]
    have hb : 0 ≤ (n.choose k : ℝ) * proportion E ^ k * (1 - proportion E) ^ (n - k) := by
      have : 0 ≤ 1 - proportion E := by linarith
      positivity
    refine mul_le_mul_of_nonneg_right ?_ hb
    have := hQ k hk hq
    calc d ^ 2 ≤ |(k : ℝ) - n * proportion E| ^ 2 := pow_le_pow_left₀ hd.le this 2
      _ = (n * proportion E - k) ^ 2 := by rw [sq_abs]; ring
  · refine Finset.sum_le_sum_of_subset_of_nonneg (Finset.filter_subset _ _) ?_
    intro k _ _
    have : 0 ≤ 1 - proportion E := by linarith
    positivity

end counting

section estimate
variable {Tok : Type} [Fintype Tok] [DecidableEq Tok]

omit [Fintype Tok] in
open Classical in
theorem ideal_agree {n : Nat} {rank : Tok → Nat} (hrank : Function.Injective rank) (π : Fin n → Equiv.Perm Tok)
    {A B : List Tok} (hA : A ≠ []) (hB : B ≠ []) :
    agree (idealSignature rank (List.ofFn π) A) (idealSignature rank (List.ofFn π) B) =
      (Finset.univ.filter fun i => agreeEvent rank A B (π i)).card := by
  unfold agree
  rw [ideal_length, List.length_ofFn]
  symm
  refine Finset.card_bij (fun i _ => i.val) ?_ ?_ ?_
  · intro i hi
    exact Finset.mem_filter.mpr ⟨Finset.mem_range.mpr i.isLt,
      (ideal_agree_iff hrank π hA hB i).mpr (Finset.mem_filter.mp hi).2⟩
  · intro i _ j _ h
    exact Fin.ext h
  · intro i hi
    obtain ⟨hi, h⟩ := Finset.mem_filter.mp hi
    have hi := Finset.mem_range.mp hi
    exact ⟨⟨i, hi⟩, Finset.mem_filter.mpr ⟨Finset.mem_univ _, (ideal_agree_iff hrank π hA hB ⟨i, hi⟩).mp h⟩, rfl⟩

/-- C99: let every component use its own uniformly distributed permutation. The number of agreeing components of the
signatures of `A` and `B` is binomially distributed with their Jaccard similarity. -/
theorem C99_binomial (n k : Nat) (hk : k ≤ n) (rank : Tok → Nat) (hrank : Function.Injective rank) (A B : List Tok)
    (hA : A ≠ []) (hB : B ≠ []) :
    proportion (fun π : Fin n → Equiv.Perm Tok =>
      agree (idealSignature rank (List.ofFn π) A) (idealSignature rank (List.ofFn π) B) = k) =
      n.choose k * jaccard A B ^ k * (1 - jaccard A B) ^ (n - k) := by
  rw [← proportion_agree hrank hA, ← proportion_count n k hk _ Fintype.card_pos]
  simp only [ideal_agree hrank _ hA hB]

theorem agree_deviation {n : Nat} (hn : 0 < n) {rank : Tok → Nat} (hrank : Function.Injective rank) {A B : List Tok}
    (hA : A ≠ []) (hB : B ≠ []) {ε : ℝ} (hε : 0 < ε) :
    proportion (fun π : Fin n → Equiv.Perm Tok =>
      ε ≤ |((agree (idealSignature rank (List.ofFn π) A) (idealSignature rank (List.ofFn π) B) : ℝ) / n) - jaccard A B|) ≤
      jaccard A B * (1 - jaccard A B) / (n * ε ^ 2) := by
  classical
  have hn' : (0 : ℝ) < n := by exact_mod_cast hn
  have := proportion_deviation n (agreeEvent rank A B) Fintype.card_pos
    (fun k => ε ≤ |((k : ℝ) / n) - jaccard A B|) (n * ε) (by positivity) (by
      intro k _ hk
      rw [proportion_agree hrank hA]
      have e : (k : ℝ) - n * jaccard A B = n * ((k : ℝ) / n - jaccard A B) := by field_simp
      rw [e, abs_mul, abs_of_pos hn']
      gcongr)
  rw [proportion_agree hrank hA] at this
  simp only [ideal_agree hrank _ hA hB]
  refine le_trans (le_of_eq ?_) (this.trans (le_of_eq ?_))
  · congr! 8
  · field_simp

/-- C99: the similarity that the crate computes is within `ε` (plus the rounding error of the division) of the Jaccard
similarity, except with probability at most `s (1 - s) / (n ε²)`. -/
theorem C99_accuracy (n : Nat) (hn : 0 < n) (hn' : n ≤ 2 ^ 53) (rank : Tok → Nat) (hrank : Function.Injective rank)
    (A B : List Tok) (hA : A ≠ []) (hB : B ≠ []) (ε : ℝ) (hε : 0 < ε) :
    proportion (fun π : Fin n → Equiv.Perm Tok => ¬ ∃ x : ℚ,
      minhashSimilarity (idealSignature rank (List.ofFn π) A) (idealSignature rank (List.ofFn π) B) = .ok (.fin x) ∧
        |(x : ℝ) - jaccard A B| < ε + 1 / 2 ^ 54) ≤
      jaccard A B * (1 - jaccard A B) / (n * ε ^ 2) := by
  refine le_trans (proportion_mono fun π h => ?_) (agree_deviation hn hrank hA hB hε)
  have hl : ∀ X : List Tok, (idealSignature rank (List.ofFn π) X).length = n := by
    intro X; rw [ideal_length, List.length_ofFn]
  by_contra hlt
  rw [not_le] at hlt
  apply h
  have hle := agree_le (idealSignature rank (List.ofFn π) A) (idealSignature rank (List.ofFn π) B)
  rw [hl] at hle
  have hu := ratio_unit hle
  refine ⟨_, minhashSimilarity_eq (by rw [hl, hl]) (by rw [hl]; exact hn) (by rw [hl]; exact hn'), ?_⟩
  have herr := rndQ_err_unit b64_ok hu.1 hu.2
  rw [hl]
  have herr' : |((rndQ b64 ((agree (idealSignature rank (List.ofFn π) A) (idealSignature rank (List.ofFn π) B) : ℚ) / n) : ℚ) : ℝ) -
      (agree (idealSignature rank (List.ofFn π) A) (idealSignature rank (List.ofFn π) B) : ℝ) / n| ≤ 1 / 2 ^ 54 := by
    have := (Rat.cast_le (K := ℝ)).mpr herr
    simpa [b64] using this
  calc _ ≤ _ := abs_sub_le _ ((agree (idealSignature rank (List.ofFn π) A) (idealSignature rank (List.ofFn π) B) : ℝ) / n) _
    _ < _ := by linarith

end estimate

section index
variable {Tok Id : Type} [Fintype Tok] [DecidableEq Tok] [DecidableEq Id]
variable {C : Type} [IdContainer C Id] [LawfulIdContainer C Id]

/-- C99: false positives. After every history in which the document of `id` is `A`, the probability that a query for
`B` returns `id` although the Jaccard similarity lies by `ε` (and the rounding error) below the threshold is at most
`s (1 - s) / (n ε²)`. -/
theorem C99_false_positives (b r : Nat) (t : ℚ) (h : List Nat → UInt64) (rank : Tok → Nat) (A B : List Tok)
    (id : Id) (ops : (Fin (b * r) → Equiv.Perm Tok) → List (Op Nat Id)) (h0 : 0 < b * r) (hn : b * r ≤ 2 ^ 53)
    (hrank : Function.Injective rank) (hA : A ≠ []) (hB : B ≠ [])
    (hlive : ∀ π, live (b * r) (ops π) id = some (idealSignature rank (List.ofFn π) A))
    (ε : ℝ) (hε : 0 < ε) (ht : jaccard A B + ε + 1 / 2 ^ 54 ≤ t) :
    proportion (fun π : Fin (b * r) → Equiv.Perm Tok =>
      ∃ res, (After C b r (.fin t) h (ops π)).query (idealSignature rank (List.ofFn π) B) = .ok res ∧ id ∈ res.elems) ≤
      jaccard A B * (1 - jaccard A B) / ((b * r : ℕ) * ε ^ 2) := by
  refine le_trans (proportion_mono fun π hf => ?_) (C99_accuracy (b * r) h0 hn rank hrank A B hA hB ε hε)
  rintro ⟨x, hx, hlt⟩
  obtain ⟨res, hres, hid⟩ := hf
  obtain ⟨s, v, hs, hv, hge⟩ := C16_query b r (.fin t) h (ops π) _ res hres id hid
  rw [hlive, Option.some.injEq] at hs
  subst hs
  rw [hx, Except.ok.injEq] at hv
  subst hv
  rw [ge_fin] at hge
  have hge' : (t : ℝ) ≤ x := by exact_mod_cast hge
  have := (abs_lt.mp hlt).2
  linarith

theorem proportion_sub {Ω : Type} [Fintype Ω] (P Q : Ω → Prop) :
    proportion P - proportion Q ≤ proportion (fun x => P x ∧ ¬ Q x) := by
  classical
  simp only [proportion_eq]
  rw [← sub_div]
  refine div_le_div_of_nonneg_right ?_ (by positivity)
  rw [sub_le_iff_le_add]
  have : (Finset.univ.filter P) ⊆ (Finset.univ.filter fun x => P x ∧ ¬ Q x) ∪ Finset.univ.filter Q := by
    intro x hx
    by_cases hq : Q x <;> simp_all
  exact_mod_cast (Finset.card_le_card this).trans (Finset.card_union_le _ _)

/-- C99: recall. After every history in which the document of `id` is `A`, a query for `B` whose Jaccard similarity lies
by `ε` above the threshold (an `f64`) returns `id` with probability at least `1 - (1 - s^r)^b - s (1 - s) / (n ε²)`. -/
theorem C99_recall (b r : Nat) (t : ℚ) (h : List Nat → UInt64) (rank : Tok → Nat) (A B : List Tok)
    (id : Id) (ops : (Fin (b * r) → Equiv.Perm Tok) → List (Op Nat Id)) (h0 : 0 < b * r) (hn : b * r ≤ 2 ^ 53)
    (hrank : Function.Injective rank) (hA : A ≠ []) (hB : B ≠ [])
    (hl : ∀ π, RightLengths (b * r) (ops π))
    (hlive : ∀ π, live (b * r) (ops π) id = some (idealSignature rank (List.ofFn π) A))
    (htd : Double t) (ε : ℝ) (hε : 0 < ε) (ht : (t : ℝ) + ε ≤ jaccard A B) :
    shareProba (jaccard A B) b r - jaccard A B * (1 - jaccard A B) / ((b * r : ℕ) * ε ^ 2) ≤
    proportion (fun π : Fin (b * r) → Equiv.Perm Tok =>
      ∃ res, (After C b r (.fin t) h (ops π)).query (idealSignature rank (List.ofFn π) B) = .ok res ∧ id ∈ res.elems) := by
  have hdev := agree_deviation (n := b * r) h0 hrank hA hB hε
  have hrow := proportion_some_row b r (agreeEvent rank A B) Fintype.card_pos
  rw [proportion_agree hrank hA] at hrow
  rw [← hrow]
  refine le_trans (sub_le_sub_left hdev _) ?_
  refine le_trans (proportion_sub _ _) (proportion_mono fun π hf => ?_)
  · obtain ⟨⟨i, hall⟩, hdevi⟩ := hf
    rw [not_le] at hdevi
    have hle : ∀ X : List Tok, (idealSignature rank (List.ofFn π) X).length = b * r := by
      intro X; rw [ideal_length, List.length_ofFn]
    obtain ⟨res, hres, _⟩ := C17_query_returns (C := C) b r (.fin t) h (ops π) (idealSignature rank (List.ofFn π) B) (hl π)
      (hle B)
    obtain ⟨x, hx, hnear⟩ := C08_nearest_double (idealSignature rank (List.ofFn π) A)
      (idealSignature rank (List.ofFn π) B) (by rw [hle, hle]) (by rw [hle]; exact h0) (by rw [hle]; exact hn)
    refine ⟨res, hres, C17_complete b r (.fin t) h (ops π) _ res (.inl hres) id _ _ (hlive π) ⟨i, i.isLt, ?_⟩ hx ?_⟩
    · intro j h1 h2
      have hj : j - i * r < r := by rw [Nat.add_mul, Nat.one_mul] at h2; omega
      have := (ideal_agree_iff hrank π hA hB (finProdFinEquiv (i, ⟨j - i * r, hj⟩))).mpr (hall ⟨j - i * r, hj⟩)
      have e : (finProdFinEquiv (i, (⟨j - i * r, hj⟩ : Fin r)) : Fin (b * r)).val = j := by
        simp [finProdFinEquiv, Nat.mul_comm r]
        omega
      rwa [e] at this
    · rw [ge_fin]
      rw [hle] at hnear
      have hratio : (t : ℝ) ≤ ((((agree (idealSignature rank (List.ofFn π) A) (idealSignature rank (List.ofFn π) B) : ℚ) /
          (b * r : ℕ)) : ℚ) : ℝ) := by
        push_cast
        have := (abs_lt.mp hdevi).1
        push_cast at this
        linarith
      have hratio := (Rat.cast_le (K := ℝ)).mp hratio
      by_contra hlt
      rw [not_le] at hlt
      have h1 := hnear.2.1 t htd
      rw [abs_of_nonpos (by linarith), abs_of_nonpos (by linarith)] at h1
      linarith

/-- Numbers: two documents of Jaccard similarity 9/10 over 42 bands of 3 rows and threshold 1/2 are found with probability
above 0.99, and documents of similarity 1/10 are returned with probability below 0.01. -/
example : (99 : ℝ) / 100 < shareProba (9 / 10) 42 3 - 9 / 10 * (1 - 9 / 10) / ((42 * 3 : ℕ) * (4 / 10) ^ 2) ∧
    1 / 10 * (1 - 1 / 10) / ((42 * 3 : ℕ) * (39 / 100 : ℝ) ^ 2) < 1 / 100 := by
  constructor
  · unfold shareProba; norm_num
  · norm_num

/-- The hypotheses above are met: a history that inserts `[0, 1]`, a query for `[0, 1, 2]` of Jaccard similarity 2/3 and
the threshold 1/2. -/
example : ∃ ops : (Fin (2 * 2) → Equiv.Perm (Fin 3)) → List (Op Nat Nat),
    (∀ π, RightLengths (2 * 2) (ops π)) ∧
    (∀ π, live (2 * 2) (ops π) 7 = some (idealSignature Fin.val (List.ofFn π) [0, 1])) ∧
    Double (1 / 2) ∧ ((1 / 2 : ℚ) : ℝ) + 1 / 6 ≤ jaccard ([0, 1] : List (Fin 3)) [0, 1, 2] := by
  refine ⟨fun π => [.insert 7 (idealSignature Fin.val (List.ofFn π) [0, 1])], ?_, ?_, ?_, ?_⟩
  · intro π op hop s hs
    simp at hop
    subst hop
    simp [sigsOf] at hs
    subst hs
    rw [ideal_length]
    rfl
  · intro π
    have : (idealSignature Fin.val (List.ofFn π) [0, 1]).length = 2 * 2 := by rw [ideal_length, List.length_ofFn]
    simp only [live, touch, List.reverse_cons, List.reverse_nil, List.nil_append, List.findSome?, this, if_true, and_self]
    rfl
  · exact ⟨1, -1, by norm_num [zpow_neg], by norm_num, by norm_num, by norm_num⟩
  · unfold jaccard
    rw [show (([0, 1] : List (Fin 3)).toFinset ∩ [0, 1, 2].toFinset).card = 2 by decide,
      show (([0, 1] : List (Fin 3)).toFinset ∪ [0, 1, 2].toFinset).card = 3 by decide]
    norm_num

end index
end Verif.Props
