import Verif.Props.Hoeffding
import Verif.Props.ParamsFloat
import Mathlib.Data.Nat.Choose.Sum

/-!
# Property C122: documents at the threshold

The parameter search makes sure that a document of the given similarity shares a band with the query; the index filters
the candidates by the estimated similarity in addition.
-/
namespace Verif.Props
open Verif.Spec

/-- The upper half of a row of Pascal's triangle. -/
theorem upper_half (m : Nat) :
    2 * ∑ k ∈ (Finset.range (2 * m + 1)).filter (fun k => m ≤ k), (2 * m).choose k = 2 ^ (2 * m) + (2 * m).choose m := by
  have h1 := Nat.sum_range_choose (2 * m)
  have h2 := Finset.sum_filter_add_sum_filter_not (Finset.range (2 * m + 1)) (fun k => m ≤ k) (fun k => (2 * m).choose k)
  have h3 : ∑ k ∈ (Finset.range (2 * m + 1)).filter (fun k => m ≤ k), (2 * m).choose k =
      ∑ k ∈ (Finset.range (2 * m + 1)).filter (fun k => ¬ m ≤ k), (2 * m).choose k + (2 * m).choose m := by
    have e : (Finset.range (2 * m + 1)).filter (fun k => m ≤ k) =
        insert m ((Finset.range (2 * m + 1)).filter fun k => m < k) := by
      ext k
      simp only [Finset.mem_filter, Finset.mem_range, Finset.mem_insert]
      omega
    rw [e, Finset.sum_insert (by simp), add_comm]
    congr 1
    refine Finset.sum_nbij' (fun k => 2 * m - k) (fun k => 2 * m - k) ?_ ?_ ?_ ?_ ?_
    · intro k hk; simp only [Finset.mem_filter, Finset.mem_range] at hk ⊢; omega
    · intro k hk; simp only [Finset.mem_filter, Finset.mem_range] at hk ⊢; omega
    · intro k hk; simp only [Finset.mem_filter, Finset.mem_range] at hk; omega
    · intro k hk; simp only [Finset.mem_filter, Finset.mem_range] at hk; omega
    · intro k hk
      simp only [Finset.mem_filter, Finset.mem_range] at hk
      exact (Nat.choose_symm (by omega)).symm
  omega

section index
variable {Tok Id : Type} [Fintype Tok] [DecidableEq Tok] [DecidableEq Id]
variable {C : Type} [IdContainer C Id] [LawfulIdContainer C Id]

/-- How often half of the components agree for documents of similarity one half. -/
theorem agree_half {m : Nat} {rank : Tok → Nat} (hrank : Function.Injective rank) {A B : List Tok}
    (hA : A ≠ []) (hB : B ≠ []) (hj : jaccard A B = 1 / 2) :
    proportion (fun π : Fin (2 * m) → Equiv.Perm Tok =>
      m ≤ agree (idealSignature rank (List.ofFn π) A) (idealSignature rank (List.ofFn π) B)) =
      1 / 2 + (2 * m).choose m / 2 ^ (2 * m + 1) := by
  classical
  simp only [ideal_agree hrank _ hA hB]
  have h := proportion_sum_count (2 * m) (agreeEvent rank A B) (fun k => m ≤ k)
  have h' : proportion (fun π : Fin (2 * m) → Equiv.Perm Tok =>
      m ≤ (Finset.univ.filter fun i => agreeEvent rank A B (π i)).card) =
      ∑ k ∈ (Finset.range (2 * m + 1)).filter (fun k => m ≤ k), ((2 * m).choose k : ℝ) / 2 ^ (2 * m) := by
    refine (Eq.trans ?_ h).trans (Finset.sum_congr ?_ ?_)
    · congr!
    · congr!
    · intro k hk
      have hk : k ≤ 2 * m := by
        have := Finset.mem_range.mp (Finset.mem_filter.mp hk).1
        omega
      have hc := proportion_count (2 * m) k hk (agreeEvent rank A B) Fintype.card_pos
      rw [proportion_agree hrank hA, hj] at hc
      refine (Eq.trans ?_ hc).trans ?_
      · congr!
      · rw [show (1 : ℝ) - 1 / 2 = 1 / 2 by norm_num, mul_assoc, ← pow_add, Nat.add_sub_cancel' hk, one_div, inv_pow,
          div_eq_mul_inv]
  refine Eq.trans (by congr!) (h'.trans ?_)
  rw [← Finset.sum_div]
  have hu : (2 : ℝ) * ∑ k ∈ (Finset.range (2 * m + 1)).filter (fun k => m ≤ k), ((2 * m).choose k : ℝ) =
      2 ^ (2 * m) + (2 * m).choose m := by exact_mod_cast upper_half m
  have hp : (0 : ℝ) < 2 ^ (2 * m) := by positivity
  rw [pow_succ, div_eq_iff hp.ne']
  field_simp
  linarith

/-- C122: for documents of similarity one half, an index with threshold one half and an even number of hashes returns
a stored document with probability little more than one half, however many bands it has. -/
theorem C122_at_threshold (b r m : Nat) (hm : b * r = 2 * m) (h0 : 0 < m) (hn : b * r ≤ 2 ^ 53) (h : List Nat → UInt64)
    (rank : Tok → Nat) (hrank : Function.Injective rank) (A B : List Tok) (hA : A ≠ []) (hB : B ≠ [])
    (hj : jaccard A B = 1 / 2) (id : Id) (ops : (Fin (b * r) → Equiv.Perm Tok) → List (Op Nat Id))
    (hlive : ∀ π, live (b * r) (ops π) id = some (idealSignature rank (List.ofFn π) A)) :
    proportion (fun π : Fin (b * r) → Equiv.Perm Tok =>
      ∃ res, (After C b r (.fin (1 / 2)) h (ops π)).query (idealSignature rank (List.ofFn π) B) = .ok res ∧
        id ∈ res.elems) ≤ 1 / 2 + (2 * m).choose m / 2 ^ (2 * m + 1) := by
  have key : proportion (fun π : Fin (b * r) → Equiv.Perm Tok =>
      m ≤ agree (idealSignature rank (List.ofFn π) A) (idealSignature rank (List.ofFn π) B)) =
      1 / 2 + (2 * m).choose m / 2 ^ (2 * m + 1) := by
    rw [hm]
    exact agree_half hrank hA hB hj
  rw [← key]
  refine proportion_mono fun π hf => ?_
  obtain ⟨res, hres, hid⟩ := hf
  obtain ⟨s, v, hs, hv, hge⟩ := C16_query b r (.fin (1 / 2)) h (ops π) _ res hres id hid
  rw [hlive π, Option.some.injEq] at hs
  subst hs
  obtain ⟨x, hx, herr⟩ := ideal_similarity (by omega) hn rank A B π
  rw [hx, Except.ok.injEq] at hv
  subst hv
  rw [ge_fin] at hge
  have hge' : (1 / 2 : ℝ) ≤ x := by
    have : ((1 / 2 : ℚ) : ℝ) ≤ x := by exact_mod_cast hge
    push_cast at this
    exact this
  by_contra hlt
  have hk : (agree (idealSignature rank (List.ofFn π) A) (idealSignature rank (List.ofFn π) B) : ℝ) + 1 ≤ m := by
    exact_mod_cast Nat.lt_of_not_le hlt
  have hN : (0 : ℝ) < (b * r : ℕ) := by exact_mod_cast (by omega : 0 < b * r)
  have hN2 : ((b * r : ℕ) : ℝ) = 2 * m := by rw [hm]; push_cast; rfl
  have hN3 : ((b * r : ℕ) : ℝ) ≤ 2 ^ 53 := by exact_mod_cast hn
  have h1 : (agree (idealSignature rank (List.ofFn π) A) (idealSignature rank (List.ofFn π) B) : ℝ) / (b * r : ℕ) ≤
      1 / 2 - 1 / 2 ^ 53 := by
    rw [div_le_iff₀ hN, sub_mul]
    have : (1 : ℝ) / 2 ^ 53 * (b * r : ℕ) ≤ 1 := by
      rw [one_div_mul_eq_div, div_le_one (by positivity)]; exact hN3
    linarith
  have h2 := (abs_le.mp herr).2
  have h3 : (1 : ℝ) / 2 ^ 54 < 1 / 2 ^ 53 := by norm_num
  linarith

/-- C122: the documented recipe. For similarity 1/2 and 128 hashes `calculate_minhash_params` returns 42 bands of 3 rows,
so that documents of similarity 1/2 become candidates with probability above 0.99. An index with these bands and
threshold 1/2 returns such a document with probability below 0.54, whatever the band hash. -/
theorem C122_recipe_false (powf : Fl → Fl → Fl) (hpow : AccuratePowf powf (1 / 2 ^ 52)) :
    calculateMinhashParams powf (rnd b64 (1 / 2)) 128 128 = some (42, 3) ∧ 99 / 100 < shareProba (1 / 2) 42 3 ∧
    jaccard ([0] : List (Fin 2)) [0, 1] = 1 / 2 ∧
    ∀ h : List Nat → UInt64, proportion (fun π : Fin (42 * 3) → Equiv.Perm (Fin 2) =>
      ∃ res, (After (HashSetContainer Nat) 42 3 (rnd b64 (1 / 2)) h
        [.insert 7 (idealSignature Fin.val (List.ofFn π) [0])]).query (idealSignature Fin.val (List.ofFn π) [0, 1]) = .ok res ∧
        7 ∈ res.elems) < 54 / 100 := by
  have hj : jaccard ([0] : List (Fin 2)) [0, 1] = 1 / 2 := by
    unfold jaccard
    rw [show (([0] : List (Fin 2)).toFinset ∩ [0, 1].toFinset).card = 1 by decide,
      show (([0] : List (Fin 2)).toFinset ∪ [0, 1].toFinset).card = 2 by decide]
    norm_num
  have er : rnd b64 (1 / 2) = .fin (1 / 2) := by decide +kernel
  refine ⟨(C14_documented powf hpow).1, by norm_num [shareProba], hj, fun h => ?_⟩
  rw [er]
  refine lt_of_le_of_lt (C122_at_threshold 42 3 63 (by norm_num) (by norm_num) (by norm_num) h Fin.val Fin.val_injective
    [0] [0, 1] (by simp) (by simp) hj 7 _ fun π => ?_) ?_
  · have : (idealSignature Fin.val (List.ofFn π) [0]).length = 42 * 3 := by rw [ideal_length, List.length_ofFn]
    simp only [live, touch, List.reverse_cons, List.reverse_nil, List.nil_append, List.findSome?, this, if_true, and_self]
    rfl
  · have hc : 100 * (2 * 63).choose 63 < 8 * 2 ^ 126 := by
      rw [Nat.choose_eq_descFactorial_div_factorial]
      decide +kernel
    have hc' : (100 : ℝ) * ((2 * 63).choose 63 : ℕ) < 8 * 2 ^ 126 := by exact_mod_cast hc
    rw [show (2 * 63 + 1 : ℕ) = 127 from rfl]
    have : (((2 * 63).choose 63 : ℕ) : ℝ) / 2 ^ 127 < 4 / 100 := by
      rw [div_lt_iff₀ (by norm_num)]
      linarith
    linarith

/-- C122: what holds. Take bands and rows from `calculate_minhash_params(s, n)` and a threshold (an `f64`) that lies `ε`
below the similarity of the documents that are to be found. Then every document of similarity at least `s` is returned
with probability at least 0.99 minus `exp(-2 b r ε²)` minus the rounding errors of the search, after every history. -/
theorem C122_margin_partial (powf : Fl → Fl → Fl) (hpow : AccuratePowf powf (1 / 2 ^ 52)) (s : ℚ) (hs : Double s)
    (h0 : 0 ≤ s) (h1 : s ≤ 1) (n b r : Nat) (hn : 1 ≤ n) (hn2 : n < 2 ^ 53)
    (hpar : calculateMinhashParams powf (.fin s) n n = some (b, r)) (hr : 1 < r) (t : ℚ) (ht : Double t)
    (h : List Nat → UInt64) (rank : Tok → Nat) (hrank : Function.Injective rank) (A B : List Tok) (hA : A ≠ []) (hB : B ≠ [])
    (hsj : (s : ℝ) ≤ jaccard A B) (ε : ℝ) (hε : 0 < ε) (htj : (t : ℝ) + ε ≤ jaccard A B)
    (id : Id) (ops : (Fin (b * r) → Equiv.Perm Tok) → List (Op Nat Id))
    (hl : ∀ π, RightLengths (b * r) (ops π))
    (hlive : ∀ π, live (b * r) (ops π) id = some (idealSignature rank (List.ofFn π) A)) :
    99 / 100 - ((b : ℝ) + 2) / 2 ^ 51 - Real.exp (-(2 * (b * r : ℕ) * ε ^ 2)) ≤
    proportion (fun π : Fin (b * r) → Equiv.Perm Tok =>
      ∃ res, (After C b r (.fin t) h (ops π)).query (idealSignature rank (List.ofFn π) B) = .ok res ∧ id ∈ res.elems) := by
  obtain ⟨r', er, h2, h3, h4, _⟩ := C14_float_default powf hpow s hs h0 h1 n hn hn2
  rw [hpar, Option.some.injEq, Prod.mk.injEq] at er
  obtain ⟨rfl, rfl⟩ := er
  have hb : 0 < n / r := Nat.div_pos h3 h2
  have hrec := C116_recall (C := C) (n / r) r t h rank A B id ops (Nat.mul_pos hb h2)
    ((Nat.div_mul_le_self n r).trans hn2.le) hrank hA hB hl hlive ht ε hε htj
  refine le_trans ?_ hrec
  have hp : ((99 / 100 - ((n / r : Nat) + 2) / 2 ^ 51 : ℚ) : ℝ) < ((bandProba s (n / r) r : ℚ) : ℝ) := by
    exact_mod_cast h4 hr
  have hq : ((bandProba s (n / r) r : ℚ) : ℝ) ≤ shareProba (jaccard A B) (n / r) r := by
    unfold bandProba shareProba
    push_cast
    have s0 : (0 : ℝ) ≤ s := by exact_mod_cast h0
    have e1 : (s : ℝ) ^ r ≤ jaccard A B ^ r := pow_le_pow_left₀ s0 hsj r
    have e2 : jaccard A B ^ r ≤ 1 := pow_le_one₀ (s0.trans hsj) (jaccard_le_one A B)
    have e3 : (1 - jaccard A B ^ r) ^ (n / r) ≤ (1 - (s : ℝ) ^ r) ^ (n / r) :=
      pow_le_pow_left₀ (by linarith) (by linarith) _
    linarith
  push_cast at hp ⊢
  linarith

/-- The hypotheses are met: with the documented parameters, documents of similarity 1/2 and threshold 1/4 instead of 1/2
the stored document is returned with probability above 0.98. -/
example (powf : Fl → Fl → Fl) (hpow : AccuratePowf powf (1 / 2 ^ 52)) (h : List Nat → UInt64) :
    98 / 100 < proportion (fun π : Fin (42 * 3) → Equiv.Perm (Fin 2) =>
      ∃ res, (After (HashSetContainer Nat) 42 3 (.fin (1 / 4)) h
        [.insert 7 (idealSignature Fin.val (List.ofFn π) [0])]).query (idealSignature Fin.val (List.ofFn π) [0, 1]) = .ok res ∧
        7 ∈ res.elems) := by
  obtain ⟨hpar, -, hj, -⟩ := C122_recipe_false powf hpow
  rw [show rnd b64 (1 / 2) = .fin (1 / 2) by decide +kernel] at hpar
  have hlen : ∀ π : Fin (42 * 3) → Equiv.Perm (Fin 2), (idealSignature Fin.val (List.ofFn π) [0]).length = 42 * 3 := by
    intro π
    rw [ideal_length, List.length_ofFn]
  refine lt_of_lt_of_le ?_ (C122_margin_partial powf hpow (1 / 2)
    ⟨1, -1, by norm_num, by norm_num, by norm_num, by norm_num⟩ (by norm_num) (by norm_num) 128 42 3 (by norm_num)
    (by norm_num) hpar (by norm_num) (1 / 4) ⟨1, -2, by norm_num, by norm_num, by norm_num, by norm_num⟩ h Fin.val
    Fin.val_injective [0] [0, 1] (by simp) (by simp) (by rw [hj]; norm_num) (1 / 4) (by norm_num)
    (by rw [hj]; norm_num) 7 _ (fun π => ?_) fun π => ?_)
  · have e1 : Real.exp (-(2 * (42 * 3 : ℕ) * (1 / 4 : ℝ) ^ 2)) ≤ Real.exp (-(10 : ℕ)) := by
      rw [Real.exp_le_exp]; norm_num
    have e2 : Real.exp (-(10 : ℕ)) ≤ (1 / 2) ^ 10 := by
      rw [show (-((10 : ℕ) : ℝ)) = (10 : ℕ) * (-1 : ℝ) by norm_num, Real.exp_nat_mul]
      gcongr
      have := Real.exp_neg_one_lt_d9
      linarith
    have e3 : ((1 : ℝ) / 2) ^ 10 < 1 / 1000 := by norm_num
    have e4 : (((42 : ℕ) : ℝ) + 2) / 2 ^ 51 < 1 / 1000 := by norm_num
    linarith
  · intro op hop
    rw [List.mem_singleton] at hop
    subst hop
    intro s hs
    simp only [sigsOf, List.mem_singleton] at hs
    rw [hs]
    exact hlen π
  · simp only [live, touch, List.reverse_cons, List.reverse_nil, List.nil_append, List.findSome?, hlen π, if_true, and_self]
    rfl

end index
end Verif.Props
