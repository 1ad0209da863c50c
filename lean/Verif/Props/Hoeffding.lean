import Verif.Props.Accuracy
import Verif.Lemmas.Hoeffding
import Mathlib.Analysis.Complex.ExponentialBounds

/-!
# Property C116: exponential accuracy of the similarity estimate

Hoeffding's inequality for the number of agreeing components, and what it means for queries on an index with many
documents.
-/
namespace Verif.Props
open Verif.Spec

section counting
variable {P : Type} [Fintype P]

theorem proportion_unit (E : P → Prop) : 0 ≤ proportion E ∧ proportion E ≤ 1 := by
  classical
  rw [proportion_eq]
  refine ⟨by positivity, div_le_one_of_le₀ ?_ (by positivity)⟩
  exact_mod_cast Finset.card_le_univ _

open Classical in
/-- Hoeffding's inequality for the number of entries that have `E`, with the exponent left open. -/
theorem proportion_chernoff (n : Nat) (E : P → Prop) (hP : 0 < Fintype.card P) (Q : Nat → Prop) (c m : ℝ)
    (hQ : ∀ k ≤ n, Q k → m ≤ c * ((k : ℝ) - n * proportion E)) :
    proportion (fun π : Fin n → P => Q (Finset.univ.filter fun i => E (π i)).card) ≤
      Real.exp (-m + n * (c ^ 2 / 8)) := by
  obtain ⟨hx0, hx1⟩ := proportion_unit E
  have hy0 : 0 ≤ 1 - proportion E := by linarith
  rw [proportion_sum_count n E Q]
  set s := proportion E with hs
  have hsum : ∑ k ∈ Finset.range (n + 1), Real.exp (-m + c * ((k : ℝ) - n * s)) *
      (n.choose k * s ^ k * (1 - s) ^ (n - k)) =
      Real.exp (-m) * (s * Real.exp (c * (1 - s)) + (1 - s) * Real.exp (c * (-s))) ^ n := by
    rw [add_pow, Finset.mul_sum]
    refine Finset.sum_congr rfl fun k hk => ?_
    have hk : k ≤ n := by have := Finset.mem_range.mp hk; omega
    rw [mul_pow, mul_pow, ← Real.exp_nat_mul, ← Real.exp_nat_mul, Real.exp_add]
    have e : Real.exp (c * ((k : ℝ) - n * s)) =
        Real.exp (k * (c * (1 - s))) * Real.exp (((n - k : ℕ) : ℝ) * (c * (-s))) := by
      rw [← Real.exp_add]
      congr 1
      rw [Nat.cast_sub hk]
      ring
    rw [e]
    ring
  calc _ ≤ ∑ k ∈ Finset.range (n + 1), Real.exp (-m + c * ((k : ℝ) - n * s)) *
        (n.choose k * s ^ k * (1 - s) ^ (n - k)) := by
        refine (Finset.sum_le_sum (g := fun k : ℕ => Real.exp (-m + c * ((k : ℝ) - n * s)) *
          (n.choose k * s ^ k * (1 - s) ^ (n - k))) ?_).trans
          (Finset.sum_le_sum_of_subset_of_nonneg (Finset.filter_subset _ _) ?_)
        · intro k hk
          obtain ⟨hk, hq⟩ := Finset.mem_filter.mp hk
          have hk : k ≤ n := by have := Finset.mem_range.mp hk; omega
          rw [proportion_count n k hk E hP, ← hs]
          refine le_mul_of_one_le_left (by positivity) ?_
          rw [Real.one_le_exp_iff]
          have := hQ k hk hq
          linarith
        · intro k _ _
          positivity
    _ = _ := hsum
    _ ≤ Real.exp (-m) * Real.exp (c ^ 2 / 8) ^ n := by
        gcongr
        exact bernoulli_mgf hx0 hx1 c
    _ = _ := by rw [← Real.exp_nat_mul, ← Real.exp_add]

/-- The union bound over a list. -/
theorem proportion_exists_le {α : Type} (l : List α) (E : α → P → Prop) (x : ℝ)
    (h : ∀ a ∈ l, proportion (E a) ≤ x) : proportion (fun π => ∃ a ∈ l, E a π) ≤ l.length * x := by
  induction l with
  | nil => simp [proportion_eq]
  | cons a l ih =>
    have h1 := h a (by simp)
    have h2 := ih fun b hb => h b (by simp [hb])
    have h3 : proportion (fun π => ∃ b ∈ a :: l, E b π) ≤ proportion (E a) + proportion (fun π => ∃ b ∈ l, E b π) := by
      classical
      simp only [proportion_eq]
      rw [← add_div]
      refine div_le_div_of_nonneg_right ?_ (by positivity)
      have : (Finset.univ.filter fun π => ∃ b ∈ a :: l, E b π) ⊆
          (Finset.univ.filter (E a)) ∪ Finset.univ.filter fun π => ∃ b ∈ l, E b π := by
        intro π hπ
        simp at hπ ⊢
        exact hπ
      exact_mod_cast (Finset.card_le_card this).trans (Finset.card_union_le _ _)
    push_cast [List.length_cons]
    linarith

end counting

section estimate
variable {Tok : Type} [Fintype Tok] [DecidableEq Tok]

theorem agree_above {n : Nat} (hn : 0 < n) {rank : Tok → Nat} (hrank : Function.Injective rank) {A B : List Tok}
    (hA : A ≠ []) (hB : B ≠ []) {ε : ℝ} (hε : 0 < ε) :
    proportion (fun π : Fin n → Equiv.Perm Tok =>
      ε ≤ ((agree (idealSignature rank (List.ofFn π) A) (idealSignature rank (List.ofFn π) B) : ℝ) / n) - jaccard A B) ≤
      Real.exp (-(2 * n * ε ^ 2)) := by
  classical
  have hn' : (0 : ℝ) < n := by exact_mod_cast hn
  have := proportion_chernoff n (agreeEvent rank A B) Fintype.card_pos
    (fun k => ε ≤ ((k : ℝ) / n) - jaccard A B) (4 * ε) (4 * ε * (n * ε)) (by
      intro k _ hk
      rw [proportion_agree hrank hA]
      have e : (k : ℝ) - n * jaccard A B = n * ((k : ℝ) / n - jaccard A B) := by field_simp
      rw [e]
      gcongr)
  simp only [ideal_agree hrank _ hA hB]
  refine le_trans (le_of_eq ?_) (this.trans (le_of_eq ?_))
  · congr! 8
  · congr 1; ring

theorem agree_below {n : Nat} (hn : 0 < n) {rank : Tok → Nat} (hrank : Function.Injective rank) {A B : List Tok}
    (hA : A ≠ []) (hB : B ≠ []) {ε : ℝ} (hε : 0 < ε) :
    proportion (fun π : Fin n → Equiv.Perm Tok =>
      ε ≤ jaccard A B - ((agree (idealSignature rank (List.ofFn π) A) (idealSignature rank (List.ofFn π) B) : ℝ) / n)) ≤
      Real.exp (-(2 * n * ε ^ 2)) := by
  classical
  have hn' : (0 : ℝ) < n := by exact_mod_cast hn
  have := proportion_chernoff n (agreeEvent rank A B) Fintype.card_pos
    (fun k => ε ≤ jaccard A B - ((k : ℝ) / n)) (-(4 * ε)) (4 * ε * (n * ε)) (by
      intro k _ hk
      rw [proportion_agree hrank hA]
      have e : -(4 * ε) * ((k : ℝ) - n * jaccard A B) = 4 * ε * (n * (jaccard A B - (k : ℝ) / n)) := by field_simp; ring
      rw [e]
      gcongr)
  simp only [ideal_agree hrank _ hA hB]
  refine le_trans (le_of_eq ?_) (this.trans (le_of_eq ?_))
  · congr! 8
  · congr 1; ring

omit [Fintype Tok] [DecidableEq Tok] in
/-- The similarity that the crate computes is the agreement ratio up to rounding. -/
theorem ideal_similarity {n : Nat} (hn : 0 < n) (hn' : n ≤ 2 ^ 53) (rank : Tok → Nat) (A B : List Tok)
    (π : Fin n → Equiv.Perm Tok) : ∃ x : ℚ,
      minhashSimilarity (idealSignature rank (List.ofFn π) A) (idealSignature rank (List.ofFn π) B) = .ok (.fin x) ∧
        |(x : ℝ) - (agree (idealSignature rank (List.ofFn π) A) (idealSignature rank (List.ofFn π) B) : ℝ) / n| ≤
          1 / 2 ^ 54 := by
  have hl : ∀ X : List Tok, (idealSignature rank (List.ofFn π) X).length = n := by
    intro X; rw [ideal_length, List.length_ofFn]
  have hle := agree_le (idealSignature rank (List.ofFn π) A) (idealSignature rank (List.ofFn π) B)
  rw [hl] at hle
  have hu := ratio_unit hle
  refine ⟨_, minhashSimilarity_eq (by rw [hl, hl]) (by rw [hl]; exact hn) (by rw [hl]; exact hn'), ?_⟩
  have herr := rndQ_err_unit b64_ok hu.1 hu.2
  rw [hl]
  have := (Rat.cast_le (K := ℝ)).mpr herr
  simpa [b64] using this

/-- C116: the similarity that the crate computes is within `ε` (plus the rounding error of the division) of the Jaccard
similarity, except with probability at most `2 exp(-2 n ε²)`. -/
theorem C116_accuracy (n : Nat) (hn : 0 < n) (hn' : n ≤ 2 ^ 53) (rank : Tok → Nat) (hrank : Function.Injective rank)
    (A B : List Tok) (hA : A ≠ []) (hB : B ≠ []) (ε : ℝ) (hε : 0 < ε) :
    proportion (fun π : Fin n → Equiv.Perm Tok => ¬ ∃ x : ℚ,
      minhashSimilarity (idealSignature rank (List.ofFn π) A) (idealSignature rank (List.ofFn π) B) = .ok (.fin x) ∧
        |(x : ℝ) - jaccard A B| < ε + 1 / 2 ^ 54) ≤ 2 * Real.exp (-(2 * n * ε ^ 2)) := by
  have h := proportion_exists_le (P := Fin n → Equiv.Perm Tok) [true, false] (fun b π => if b = true then
    ε ≤ ((agree (idealSignature rank (List.ofFn π) A) (idealSignature rank (List.ofFn π) B) : ℝ) / n) - jaccard A B else
    ε ≤ jaccard A B - ((agree (idealSignature rank (List.ofFn π) A) (idealSignature rank (List.ofFn π) B) : ℝ) / n))
    (Real.exp (-(2 * n * ε ^ 2))) (by
      intro b _
      cases b
      · simpa using agree_below hn hrank hA hB hε
      · simpa using agree_above hn hrank hA hB hε)
  refine le_trans (proportion_mono fun π hf => ?_) (h.trans (le_of_eq (by norm_num)))
  obtain ⟨x, hx, herr⟩ := ideal_similarity hn hn' rank A B π
  by_contra hno
  simp only [List.mem_cons, List.not_mem_nil, or_false, exists_eq_or_imp, if_true, exists_eq_left, not_or, not_le,
    Bool.false_eq_true, if_false] at hno
  refine hf ⟨x, hx, ?_⟩
  have h1 := abs_le.mp herr
  rw [abs_lt]
  constructor <;> linarith [hno.1, hno.2, h1.1, h1.2]

/-- C116: the number of hashes for an error of `ε` with a probability of failure of at most `δ`. -/
theorem C116_hashes_needed (n : Nat) (hn : 0 < n) (hn' : n ≤ 2 ^ 53) (rank : Tok → Nat)
    (hrank : Function.Injective rank) (A B : List Tok) (hA : A ≠ []) (hB : B ≠ []) (ε δ : ℝ) (hε : 0 < ε) (hδ : 0 < δ)
    (h : Real.log (2 / δ) / (2 * ε ^ 2) ≤ n) :
    proportion (fun π : Fin n → Equiv.Perm Tok => ¬ ∃ x : ℚ,
      minhashSimilarity (idealSignature rank (List.ofFn π) A) (idealSignature rank (List.ofFn π) B) = .ok (.fin x) ∧
        |(x : ℝ) - jaccard A B| < ε + 1 / 2 ^ 54) ≤ δ := by
  refine (C116_accuracy n hn hn' rank hrank A B hA hB ε hε).trans ?_
  rw [div_le_iff₀ (by positivity)] at h
  have h1 : Real.exp (-(2 * n * ε ^ 2)) ≤ Real.exp (-Real.log (2 / δ)) := by
    rw [Real.exp_le_exp]; linarith
  rw [Real.exp_neg (Real.log _), Real.exp_log (by positivity), inv_div] at h1
  linarith

/-- C116: the estimates for many documents are all good at once, except with probability at most
`2 m exp(-2 n ε²)`. -/
theorem C116_all_documents (n : Nat) (hn : 0 < n) (hn' : n ≤ 2 ^ 53) (rank : Tok → Nat)
    (hrank : Function.Injective rank) (docs : List (List Tok)) (B : List Tok) (hd : ∀ A ∈ docs, A ≠ []) (hB : B ≠ [])
    (ε : ℝ) (hε : 0 < ε) :
    proportion (fun π : Fin n → Equiv.Perm Tok => ∃ A ∈ docs, ¬ ∃ x : ℚ,
      minhashSimilarity (idealSignature rank (List.ofFn π) A) (idealSignature rank (List.ofFn π) B) = .ok (.fin x) ∧
        |(x : ℝ) - jaccard A B| < ε + 1 / 2 ^ 54) ≤ docs.length * (2 * Real.exp (-(2 * n * ε ^ 2))) :=
  proportion_exists_le docs _ _ fun A hA => C116_accuracy n hn hn' rank hrank A B (hd A hA) hB ε hε

end estimate

section index
variable {Tok Id : Type} [Fintype Tok] [DecidableEq Tok] [DecidableEq Id]
variable {C : Type} [IdContainer C Id] [LawfulIdContainer C Id]

/-- C116: false positives. After every history in which the documents of the ids in `m` are known, the probability that a
query for `B` returns any id of `m` whose Jaccard similarity lies by `ε` (and the rounding error) below the threshold is
at most `m exp(-2 n ε²)`. -/
theorem C116_false_positives (b r : Nat) (t : ℚ) (h : List Nat → UInt64) (rank : Tok → Nat)
    (stored : List (Id × List Tok)) (B : List Tok) (ops : (Fin (b * r) → Equiv.Perm Tok) → List (Op Nat Id))
    (h0 : 0 < b * r) (hn : b * r ≤ 2 ^ 53) (hrank : Function.Injective rank) (hA : ∀ p ∈ stored, p.2 ≠ []) (hB : B ≠ [])
    (hlive : ∀ π, ∀ p ∈ stored, live (b * r) (ops π) p.1 = some (idealSignature rank (List.ofFn π) p.2))
    (ε : ℝ) (hε : 0 < ε) :
    proportion (fun π : Fin (b * r) → Equiv.Perm Tok => ∃ p ∈ stored, jaccard p.2 B + ε + 1 / 2 ^ 54 ≤ t ∧
      ∃ res, (After C b r (.fin t) h (ops π)).query (idealSignature rank (List.ofFn π) B) = .ok res ∧ p.1 ∈ res.elems) ≤
      stored.length * Real.exp (-(2 * (b * r : ℕ) * ε ^ 2)) := by
  refine proportion_exists_le stored _ _ fun p hp => ?_
  refine le_trans (proportion_mono fun π hf => ?_) (agree_above h0 hrank (hA p hp) hB hε)
  obtain ⟨ht, res, hres, hid⟩ := hf
  obtain ⟨s, v, hs, hv, hge⟩ := C16_query b r (.fin t) h (ops π) _ res hres p.1 hid
  rw [hlive π p hp, Option.some.injEq] at hs
  subst hs
  obtain ⟨x, hx, herr⟩ := ideal_similarity h0 hn rank p.2 B π
  rw [hx, Except.ok.injEq] at hv
  subst hv
  rw [ge_fin] at hge
  have hge' : (t : ℝ) ≤ x := by exact_mod_cast hge
  have := (abs_le.mp herr).2
  linarith

/-- C116: recall. After every history in which the document of `id` is `A`, a query for `B` whose Jaccard similarity lies
by `ε` above the threshold (an `f64`) returns `id` with probability at least `1 - (1 - s^r)^b - exp(-2 n ε²)`. -/
theorem C116_recall (b r : Nat) (t : ℚ) (h : List Nat → UInt64) (rank : Tok → Nat) (A B : List Tok)
    (id : Id) (ops : (Fin (b * r) → Equiv.Perm Tok) → List (Op Nat Id)) (h0 : 0 < b * r) (hn : b * r ≤ 2 ^ 53)
    (hrank : Function.Injective rank) (hA : A ≠ []) (hB : B ≠ [])
    (hl : ∀ π, RightLengths (b * r) (ops π))
    (hlive : ∀ π, live (b * r) (ops π) id = some (idealSignature rank (List.ofFn π) A))
    (htd : Double t) (ε : ℝ) (hε : 0 < ε) (ht : (t : ℝ) + ε ≤ jaccard A B) :
    shareProba (jaccard A B) b r - Real.exp (-(2 * (b * r : ℕ) * ε ^ 2)) ≤
    proportion (fun π : Fin (b * r) → Equiv.Perm Tok =>
      ∃ res, (After C b r (.fin t) h (ops π)).query (idealSignature rank (List.ofFn π) B) = .ok res ∧ id ∈ res.elems) := by
  have hdev := agree_below (n := b * r) h0 hrank hA hB hε
  have hrow := proportion_some_row b r (agreeEvent rank A B) Fintype.card_pos
  rw [proportion_agree hrank hA] at hrow
  rw [← hrow]
  refine le_trans (sub_le_sub_left hdev _) ?_
  refine le_trans (proportion_sub _ _) (proportion_mono fun π hf => ?_)
  · obtain ⟨⟨i, hall⟩, hdevi⟩ := hf
    rw [not_le] at hdevi
    have hle : ∀ X : List Tok, (idealSignature rank (List.ofFn π) X).length = b * r := by
      intro X; rw [ideal_length, List.length_ofFn]
    obtain ⟨res, hres, _⟩ := C17_query_returns (C := C) b r (.fin t) h (ops π) (idealSignature rank (List.ofFn π) B) (hl π)
      (hle B)
    obtain ⟨x, hx, hnear⟩ := C08_nearest_double (idealSignature rank (List.ofFn π) A)
      (idealSignature rank (List.ofFn π) B) (by rw [hle, hle]) (by rw [hle]; exact h0) (by rw [hle]; exact hn)
    refine ⟨res, hres, C17_complete b r (.fin t) h (ops π) _ res (.inl hres) id _ _ (hlive π) ⟨i, i.isLt, ?_⟩ hx ?_⟩
    · intro j h1 h2
      have hj : j - i * r < r := by rw [Nat.add_mul, Nat.one_mul] at h2; omega
      have := (ideal_agree_iff hrank π hA hB (finProdFinEquiv (i, ⟨j - i * r, hj⟩))).mpr (hall ⟨j - i * r, hj⟩)
      have e : (finProdFinEquiv (i, (⟨j - i * r, hj⟩ : Fin r)) : Fin (b * r)).val = j := by
        simp [finProdFinEquiv, Nat.mul_comm r]
        omega
      rwa [e] at this
    · rw [ge_fin]
      rw [hle] at hnear
      have hratio : (t : ℝ) ≤ ((((agree (idealSignature rank (List.ofFn π) A) (idealSignature rank (List.ofFn π) B) : ℚ) /
          (b * r : ℕ)) : ℚ) : ℝ) := by
        push_cast
        push_cast at hdevi
        linarith
      have hratio := (Rat.cast_le (K := ℝ)).mp hratio
      by_contra hlt
      rw [not_le] at hlt
      have h1 := hnear.2.1 t htd
      rw [abs_of_nonpos (by linarith), abs_of_nonpos (by linarith)] at h1
      linarith

/-- Numbers: with 500 hashes an error of 0.1 has probability below one in ten thousand, and 14 hundred hashes are
enough for an error of 0.05 with probability below 1/500. -/
example : 2 * Real.exp (-(2 * (500 : ℕ) * (1 / 10) ^ 2)) < 1 / 10000 ∧
    Real.log (2 / (1 / 500)) / (2 * (1 / 20) ^ 2) ≤ (1400 : ℕ) := by
  constructor
  · have h : Real.exp (-(2 * (500 : ℕ) * (1 / 10) ^ 2)) = (Real.exp 1 ^ 10)⁻¹ := by
      rw [← Real.exp_nat_mul, ← Real.exp_neg]; norm_num
    rw [h]
    have h1 : (2.7 : ℝ) ^ 10 ≤ Real.exp 1 ^ 10 := by
      have := Real.exp_one_gt_d9
      gcongr
      linarith
    have h2 : (Real.exp 1 ^ 10)⁻¹ ≤ ((2.7 : ℝ) ^ 10)⁻¹ := inv_anti₀ (by positivity) h1
    have h3 : ((2.7 : ℝ) ^ 10)⁻¹ < 1 / 20000 := by norm_num
    linarith
  · rw [div_le_iff₀ (by norm_num), Real.log_le_iff_le_exp (by norm_num)]
    have h : Real.exp ((1400 : ℕ) * (2 * (1 / 20) ^ 2)) = Real.exp 1 ^ 7 := by
      rw [← Real.exp_nat_mul]; norm_num
    rw [h]
    have := Real.exp_one_gt_d9
    calc (2 / (1 / 500) : ℝ) ≤ 2.7 ^ 7 := by norm_num
      _ ≤ Real.exp 1 ^ 7 := by gcongr; linarith

/-- The hypotheses above are met: a history that inserts two documents, one of which is far from the query and one of
which is near to it. -/
example : ∃ ops : (Fin (2 * 2) → Equiv.Perm (Fin 4)) → List (Op Nat Nat),
    (∀ π, RightLengths (2 * 2) (ops π)) ∧
    (∀ π, ∀ p ∈ [(7, ([0, 1] : List (Fin 4))), (8, [3])],
      live (2 * 2) (ops π) p.1 = some (idealSignature Fin.val (List.ofFn π) p.2)) ∧
    Double (1 / 2) ∧ ((1 / 2 : ℚ) : ℝ) + 1 / 6 ≤ jaccard ([0, 1] : List (Fin 4)) [0, 1, 2] ∧
    jaccard ([3] : List (Fin 4)) [0, 1, 2] + 1 / 3 + 1 / 2 ^ 54 ≤ ((1 / 2 : ℚ) : ℝ) := by
  refine ⟨fun π => [.insert 7 (idealSignature Fin.val (List.ofFn π) [0, 1]),
    .insert 8 (idealSignature Fin.val (List.ofFn π) [3])], ?_, ?_, ?_, ?_, ?_⟩
  · intro π op hop s hs
    simp at hop
    rcases hop with rfl | rfl <;> simp [sigsOf] at hs <;> subst hs <;> rw [ideal_length] <;> rfl
  · intro π p hp
    have h1 : (idealSignature Fin.val (List.ofFn π) ([0, 1] : List (Fin 4))).length = 2 * 2 := by
      rw [ideal_length, List.length_ofFn]
    have h2 : (idealSignature Fin.val (List.ofFn π) ([3] : List (Fin 4))).length = 2 * 2 := by
      rw [ideal_length, List.length_ofFn]
    simp only [List.mem_cons, List.not_mem_nil, or_false] at hp
    rcases hp with rfl | rfl
    · simp [live, touch, List.findSome?, List.ofFn_succ] at h1 ⊢
      simp [h1]
    · simp [live, touch, List.findSome?, List.ofFn_succ] at h2 ⊢
      simp [h2]
  · exact ⟨1, -1, by norm_num [zpow_neg], by norm_num, by norm_num, by norm_num⟩
  · unfold jaccard
    rw [show (([0, 1] : List (Fin 4)).toFinset ∩ [0, 1, 2].toFinset).card = 2 by decide,
      show (([0, 1] : List (Fin 4)).toFinset ∪ [0, 1, 2].toFinset).card = 3 by decide]
    norm_num
  · unfold jaccard
    rw [show (([3] : List (Fin 4)).toFinset ∩ [0, 1, 2].toFinset).card = 0 by decide]
    norm_num

end index
end Verif.Props
