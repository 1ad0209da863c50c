import Verif.Spec.SideError
import Verif.Props.Separation
import Verif.Props.IndexRank

/-!
# Property C143: the ranked queries return the documents of the highest Jaccard similarity
-/
set_option linter.unusedSectionVars false
namespace Verif.Props
open Verif.Spec

section sides
variable {Tok : Type} [Fintype Tok] [DecidableEq Tok]

/-- The signature of `A` is on the right side of the limit `s`, and if it is above it, it shares a band with `B`. -/
def OnSide (b r : Nat) (s : ℝ) (rank : Tok → Nat) (B : List Tok) (π : Fin (b * r) → Equiv.Perm Tok) (A : List Tok) : Prop :=
  (s < jaccard A B → (∃ i < b, sameBand r (idealSignature rank (List.ofFn π) A)
      (idealSignature rank (List.ofFn π) B) i) ∧
    s < (agree (idealSignature rank (List.ofFn π) A) (idealSignature rank (List.ofFn π) B) : ℝ) / (b * r : ℕ)) ∧
  (jaccard A B ≤ s →
    (agree (idealSignature rank (List.ofFn π) A) (idealSignature rank (List.ofFn π) B) : ℝ) / (b * r : ℕ) < s)

/-- The probability that no band agrees. -/
theorem no_band (b r : Nat) (rank : Tok → Nat) (A B : List Tok) (hrank : Function.Injective rank) (hA : A ≠ [])
    (hB : B ≠ []) :
    proportion (fun π : Fin (b * r) → Equiv.Perm Tok => ¬ ∃ i < b, sameBand r (idealSignature rank (List.ofFn π) A)
      (idealSignature rank (List.ofFn π) B) i) ≤ (1 - jaccard A B ^ r) ^ b := by
  classical
  have hrow := proportion_some_row b r (agreeEvent rank A B) Fintype.card_pos
  rw [proportion_agree hrank hA] at hrow
  have e : ∀ E : (Fin (b * r) → Equiv.Perm Tok) → Prop, proportion (fun π => ¬ E π) = 1 - proportion E := by
    intro E
    have hc := Finset.card_filter_add_card_filter_not (s := (Finset.univ : Finset (Fin (b * r) → Equiv.Perm Tok))) (p := E)
    have hp : (0 : ℝ) < Fintype.card (Fin (b * r) → Equiv.Perm Tok) := by exact_mod_cast Fintype.card_pos
    rw [proportion_eq, proportion_eq, eq_sub_iff_add_eq, ← add_div, div_eq_one_iff_eq hp.ne']
    rw [Finset.card_univ] at hc
    rw [add_comm]
    exact_mod_cast hc
  have h1 : proportion (fun π : Fin (b * r) → Equiv.Perm Tok =>
      ¬ ∃ i : Fin b, ∀ j : Fin r, agreeEvent rank A B (π (finProdFinEquiv (i, j)))) = (1 - jaccard A B ^ r) ^ b := by
    rw [e, hrow]
    unfold shareProba
    ring
  rw [← h1]
  refine proportion_mono fun π hw => ?_
  rintro ⟨i, hall⟩
  refine hw ⟨i, i.isLt, fun j h1 h2 => ?_⟩
  have hj : j - i * r < r := by rw [Nat.add_mul, Nat.one_mul] at h2; omega
  have := (ideal_agree_iff hrank π hA hB (finProdFinEquiv (i, ⟨j - i * r, hj⟩))).mpr (hall ⟨j - i * r, hj⟩)
  have e : (finProdFinEquiv (i, (⟨j - i * r, hj⟩ : Fin r)) : Fin (b * r)).val = j := by
    simp [finProdFinEquiv, Nat.mul_comm r]
    omega
  rwa [e] at this

theorem side_wrong (b r : Nat) (s : ℝ) (rank : Tok → Nat) (A B : List Tok) (h0 : 0 < b * r)
    (hrank : Function.Injective rank) (hA : A ≠ []) (hB : B ≠ []) :
    proportion (fun π : Fin (b * r) → Equiv.Perm Tok => ¬ OnSide b r s rank B π A) ≤ sideError b r s (jaccard A B) := by
  unfold sideError
  split
  · rename_i hs
    refine le_trans (proportion_mono ?_) ((proportion_or _ _).trans
      (add_le_add (agree_below (n := b * r) h0 hrank hA hB (sub_pos.mpr hs)) (no_band b r rank A B hrank hA hB)))
    intro π hw
    by_contra hno
    rw [not_or, not_not, not_le] at hno
    refine hw ⟨fun _ => ⟨hno.2, ?_⟩, fun h => absurd h (not_le.mpr hs)⟩
    linarith [hno.1]
  · rename_i hs
    rw [not_lt] at hs
    rcases eq_or_lt_of_le hs with heq | hlt
    · rw [heq, sub_self]
      simpa using (proportion_unit _).2
    · refine le_trans (proportion_mono fun π hw => ?_) (agree_above (n := b * r) h0 hrank hA hB (sub_pos.mpr hlt))
      by_contra hno
      rw [not_le] at hno
      refine hw ⟨fun h => absurd h (not_lt.mpr hs), fun _ => ?_⟩
      linarith

theorem sides_all (b r : Nat) (s : ℝ) (rank : Tok → Nat) (docs : List (List Tok)) (B : List Tok) (h0 : 0 < b * r)
    (hrank : Function.Injective rank) (hd : ∀ A ∈ docs, A ≠ []) (hB : B ≠ [])
    (E : (Fin (b * r) → Equiv.Perm Tok) → Prop) (hE : ∀ π, (∀ A ∈ docs, OnSide b r s rank B π A) → E π) :
    1 - (docs.map fun A => sideError b r s (jaccard A B)).sum ≤ proportion E := by
  have h1 := proportion_exists_sum docs (fun A (π : Fin (b * r) → Equiv.Perm Tok) => ¬ OnSide b r s rank B π A)
    (fun A => sideError b r s (jaccard A B)) fun A hA => side_wrong b r s rank A B h0 hrank (hd A hA) hB
  have h2 := proportion_not E
  have h3 : proportion (fun π => ¬ E π) ≤ proportion (fun π => ∃ A ∈ docs, ¬ OnSide b r s rank B π A) := by
    refine proportion_mono fun π hw => ?_
    by_contra hno
    exact hw (hE π fun A hm => by_contra fun hd => hno ⟨A, hm, hd⟩)
  linarith

end sides

section index
variable {Tok Id : Type} [Fintype Tok] [DecidableEq Tok] [DecidableEq Id]
variable {C : Type} [IdContainer C Id] [LawfulIdContainer C Id]

/-- C143: the most similar documents. If `top` are the stored documents whose Jaccard similarity to the query is above
`s`, `query_top_k` with their number returns exactly them, but for a probability of at most the sum of the errors. -/
theorem C143_top_k (b r : Nat) (t : Fl) (h : List Nat → UInt64) (rank : Tok → Nat) (content : Id → Option (List Tok))
    (docs : List (List Tok)) (B : List Tok) (ops : (Fin (b * r) → Equiv.Perm Tok) → List (Op Nat Id)) (h0 : 0 < b * r)
    (hn : b * r < 2 ^ 52) (hrank : Function.Injective rank) (hd : ∀ A ∈ docs, A ≠ []) (hB : B ≠ [])
    (hc : ∀ π, Clean (b * r) (ops π)) (hl : ∀ π, RightLengths (b * r) (ops π))
    (hcd : ∀ id A, content id = some A → A ∈ docs)
    (hlive : ∀ π id, live (b * r) (ops π) id = (content id).map (idealSignature rank (List.ofFn π)))
    (s : ℝ) (top : List Id) (hnd : top.Nodup)
    (htop : ∀ id, id ∈ top ↔ ∃ A, content id = some A ∧ s < jaccard A B) (o1 o2 : Order) :
    1 - (docs.map fun A => sideError b r s (jaccard A B)).sum ≤
      proportion (fun π : Fin (b * r) → Equiv.Perm Tok => ∃ l,
        (After C b r t h (ops π)).queryTopK o1 o2 (idealSignature rank (List.ofFn π) B) top.length = .ok l ∧
          (l.map Prod.fst).Perm top) := by
  refine sides_all b r s rank docs B h0 hrank hd hB _ fun π hall => ?_
  have hlen : ∀ X : List Tok, (idealSignature rank (List.ofFn π) X).length = b * r := by
    intro X; rw [ideal_length, List.length_ofFn]
  have hpos : (0 : ℝ) < (b * r : ℕ) := by exact_mod_cast h0
  obtain ⟨l, hres⟩ := (C24_clean_partial (C := C) b r t h (ops π) (idealSignature rank (List.ofFn π) B) (hc π) (hl π)
    (hlen B) h0 hn o1 o2).2 top.length
  refine ⟨l, hres, ?_⟩
  obtain ⟨cand, hcnd, hc1, _, hc3⟩ := C25_top_k (C := C) b r t h (ops π) (idealSignature rank (List.ofFn π) B) (hlen B) h0 hn
  obtain ⟨k1, k2, k3, _, k5⟩ := hc3 o1 o2 top.length l hres
  have hsub : top ⊆ cand := by
    intro id hid
    obtain ⟨A, hA, hs⟩ := (htop id).mp hid
    exact hc1 id _ (by rw [hlive, hA]; rfl) ((hall A (hcd id A hA)).1 hs).1
  have hle : top.length ≤ cand.length := (List.subperm_of_subset hnd hsub).length_le
  rw [Nat.min_eq_left hle] at k1
  have hin : l.map Prod.fst ⊆ top := by
    intro id hid
    obtain ⟨p, hp, rfl⟩ := List.mem_map.mp hid
    by_contra hout
    obtain ⟨_, s1, e1, _⟩ := k3 p hp
    have e1' := e1
    rw [hlive] at e1'
    obtain ⟨A, hA, rfl⟩ := Option.map_eq_some_iff.mp e1'
    have hA1 : jaccard A B ≤ s := by
      by_contra hs
      exact hout ((htop p.1).mpr ⟨A, hA, not_le.mp hs⟩)
    have hA2 := (hall A (hcd _ A hA)).2 hA1
    obtain ⟨id', hid', hnot⟩ : ∃ id' ∈ top, id' ∉ l.map Prod.fst := by
      by_contra hno
      have hno : ∀ id' ∈ top, id' ∈ l.map Prod.fst := fun id' h' => by_contra fun h'' => hno ⟨id', h', h''⟩
      have hperm : (l.map Prod.fst).Perm top :=
        ((List.subperm_of_subset hnd hno).perm_of_length_le (by rw [List.length_map, k1])).symm
      exact hout (hperm.subset hid)
    obtain ⟨A', hA', hs'⟩ := (htop id').mp hid'
    have h2 := ((hall A' (hcd _ A' hA')).1 hs').2
    have h3 := k5 p hp id' (hsub hid') hnot _ (idealSignature rank (List.ofFn π) A') e1 (by rw [hlive, hA']; rfl)
    rw [agree_comm _ _ (by rw [hlen, hlen]), agree_comm (idealSignature rank (List.ofFn π) B) _ (by rw [hlen, hlen])] at h3
    have h4 : (agree (idealSignature rank (List.ofFn π) A') (idealSignature rank (List.ofFn π) B) : ℝ) ≤
      agree (idealSignature rank (List.ofFn π) A) (idealSignature rank (List.ofFn π) B) := by exact_mod_cast h3
    have h5 := div_le_div_of_nonneg_right h4 hpos.le
    linarith
  exact (List.subperm_of_subset k2 hin).perm_of_length_le (by rw [List.length_map, k1])

/-- C143: the most similar document. If the Jaccard similarity of exactly one stored document to the query is above `s`,
and the threshold is below `s` (but for the rounding of one division), `query_one` returns it, but for a probability of
at most the sum of the errors. -/
theorem C143_query_one (b r : Nat) (t : ℚ) (h : List Nat → UInt64) (rank : Tok → Nat) (content : Id → Option (List Tok))
    (docs : List (List Tok)) (B : List Tok) (ops : (Fin (b * r) → Equiv.Perm Tok) → List (Op Nat Id)) (h0 : 0 < b * r)
    (hn : b * r < 2 ^ 52) (hrank : Function.Injective rank) (hd : ∀ A ∈ docs, A ≠ []) (hB : B ≠ [])
    (hl : ∀ π, RightLengths (b * r) (ops π)) (hcd : ∀ id A, content id = some A → A ∈ docs)
    (hlive : ∀ π id, live (b * r) (ops π) id = (content id).map (idealSignature rank (List.ofFn π)))
    (s : ℝ) (ht : (t : ℝ) + 1 / 2 ^ 54 ≤ s) (best : Id)
    (hbest : ∀ id, id = best ↔ ∃ A, content id = some A ∧ s < jaccard A B) (o : Order) :
    1 - (docs.map fun A => sideError b r s (jaccard A B)).sum ≤
      proportion (fun π : Fin (b * r) → Equiv.Perm Tok => ∃ v,
        (After C b r (.fin t) h (ops π)).queryOne o (idealSignature rank (List.ofFn π) B) = .ok (some (best, v))) := by
  refine sides_all b r s rank docs B h0 hrank hd hB _ fun π hall => ?_
  have hlen : ∀ X : List Tok, (idealSignature rank (List.ofFn π) X).length = b * r := by
    intro X; rw [ideal_length, List.length_ofFn]
  have hpos : (0 : ℝ) < (b * r : ℕ) := by exact_mod_cast h0
  obtain ⟨A, hA, hs⟩ := (hbest best).mp rfl
  obtain ⟨hband, hratio⟩ := (hall A (hcd _ A hA)).1 hs
  obtain ⟨res, hres, _⟩ := C17_query_returns (C := C) b r (.fin t) h (ops π) (idealSignature rank (List.ofFn π) B) (hl π)
    (hlen B)
  obtain ⟨x, hx, herr⟩ := ideal_similarity h0 (by omega) rank A B π
  have hxt : (t : ℝ) < x := by
    have := (abs_le.mp herr).1
    linarith
  have hxt' : t < x := by exact_mod_cast hxt
  have hlb : live (b * r) (ops π) best = some (idealSignature rank (List.ofFn π) A) := by rw [hlive, hA]; rfl
  have hmem : best ∈ res.elems := C17_complete b r (.fin t) h (ops π) _ res (.inl hres) best _ _ hlb hband hx
    (by rw [ge_fin]; exact hxt'.le)
  obtain ⟨one, h1, h2, h3⟩ := C21_best_match b r (.fin t) h (ops π) _ res hres o
  cases one with
  | none =>
    have := (h2.mp rfl) best hmem _ _ hlb hx
    rw [gt_fin.mpr hxt'] at this
    cases this
  | some p =>
    obtain ⟨id, v⟩ := p
    refine ⟨v, ?_⟩
    rw [h1]
    obtain ⟨g1, _, ⟨sg, g3, g4⟩, g5⟩ := h3 id v rfl
    by_cases hid : id = best
    · rw [hid]
    · exfalso
      rw [hlive] at g3
      obtain ⟨A', hA', rfl⟩ := Option.map_eq_some_iff.mp g3
      have hJ : jaccard A' B ≤ s := by
        by_contra hgt
        exact hid ((hbest id).mpr ⟨A', hA', not_le.mp hgt⟩)
      have hr' := (hall A' (hcd _ A' hA')).2 hJ
      have hge := g5 best hmem _ _ hlb hx
      obtain ⟨y, z, hy, hz, hord, _⟩ := C09_similarity_order (idealSignature rank (List.ofFn π) B)
        (idealSignature rank (List.ofFn π) A') (idealSignature rank (List.ofFn π) A) (b * r) hn h0 (hlen B) (hlen A') (hlen A)
      rw [minhashSimilarity_comm, g4, Except.ok.injEq] at hy
      rw [minhashSimilarity_comm, hx, Except.ok.injEq] at hz
      subst hy
      cases hz
      rw [ge_fin] at hge
      have hlt : agree (idealSignature rank (List.ofFn π) B) (idealSignature rank (List.ofFn π) A') <
          agree (idealSignature rank (List.ofFn π) B) (idealSignature rank (List.ofFn π) A) := by
        rw [agree_comm _ _ (by rw [hlen, hlen]), agree_comm (idealSignature rank (List.ofFn π) B) _ (by rw [hlen, hlen])]
        have := hr'.trans hratio
        rw [div_lt_div_iff_of_pos_right hpos] at this
        exact_mod_cast this
      exact absurd (hord.mp hlt) (not_lt.mpr hge)

end index

theorem clean_zipIdx {α T : Type} [DecidableEq T] (n : Nat) (f : α → List T) (hf : ∀ a, (f a).length = n) (docs : List α) :
    Clean n (docs.zipIdx.map fun p => (.insert p.2 (f p.1) : Op T Nat)) := by
  induction docs using List.reverseRecOn with
  | nil => intro pre op post e; simp at e
  | append_singleton docs d ih =>
    rw [List.zipIdx_append, List.map_append, List.zipIdx_cons, List.zipIdx_nil, List.map_singleton]
    refine clean_snoc_insert ih _ _ ?_
    rw [live_zipIdx n f hf]
    simp

theorem exp_seven : Real.exp (-7) ≤ 1 / 1000 := by
  have he := Real.exp_one_gt_d9
  rw [Real.exp_neg, show Real.exp 7 = Real.exp 1 ^ 7 by rw [← Real.exp_nat_mul]; norm_num, inv_le_comm₀ (by positivity)
    (by norm_num)]
  calc ((1 / 1000 : ℝ))⁻¹ ≤ 2.7 ^ 7 := by norm_num
    _ ≤ Real.exp 1 ^ 7 := by gcongr; linarith

variable {C : Type} [IdContainer C Nat] [LawfulIdContainer C Nat]

/-- The first three documents of the README, 42 bands of 3 rows: with a probability of at least 0.99 `query_top_k` and
`query_one` return the first document for a query with the same text. -/
example (rank : Fin 12 → Nat) (hrank : Function.Injective rank) (h : List Nat → UInt64) (o1 o2 : Order) :
    99 / 100 ≤ proportion (fun π : Fin (42 * 3) → Equiv.Perm (Fin 12) => ∃ l,
      (After C 42 3 (.fin (1 / 2)) h ((readmeDocs.take 3).zipIdx.map fun p =>
        .insert p.2 (idealSignature rank (List.ofFn π) p.1))).queryTopK o1 o2
        (idealSignature rank (List.ofFn π) [0, 1, 2, 3, 4]) 1 = .ok l ∧ (l.map Prod.fst).Perm [0]) ∧
    99 / 100 ≤ proportion (fun π : Fin (42 * 3) → Equiv.Perm (Fin 12) => ∃ v,
      (After C 42 3 (.fin (1 / 2)) h ((readmeDocs.take 3).zipIdx.map fun p =>
        .insert p.2 (idealSignature rank (List.ofFn π) p.1))).queryOne o1
        (idealSignature rank (List.ofFn π) [0, 1, 2, 3, 4]) = .ok (some (0, v))) := by
  obtain ⟨j0, j1, j2, _, _⟩ := readme_jaccard
  have hlen : ∀ (π : Fin (42 * 3) → Equiv.Perm (Fin 12)) (X : List (Fin 12)),
      (idealSignature rank (List.ofFn π) X).length = 42 * 3 := by
    intro π X; rw [ideal_length, List.length_ofFn]
  have hr : ∀ π : Fin (42 * 3) → Equiv.Perm (Fin 12), RightLengths (42 * 3) ((readmeDocs.take 3).zipIdx.map fun p =>
      (.insert p.2 (idealSignature rank (List.ofFn π) p.1) : Op Nat Nat)) := by
    intro π op hop s hs
    obtain ⟨p, _, rfl⟩ := List.mem_map.mp hop
    simp only [sigsOf, List.mem_singleton] at hs
    rw [hs, hlen]
  have hbest : ∀ id, id = 0 ↔ ∃ A, (readmeDocs.take 3)[id]? = some A ∧ (5 / 6 : ℝ) < jaccard A [0, 1, 2, 3, 4] := by
    intro id
    match id with
    | 0 => exact ⟨fun _ => ⟨_, rfl, by rw [j0]; norm_num⟩, fun _ => rfl⟩
    | 1 =>
      refine ⟨fun h => absurd h (by norm_num), ?_⟩
      rintro ⟨A, hA, hj⟩
      cases hA
      rw [j1] at hj
      norm_num at hj
    | 2 =>
      refine ⟨fun h => absurd h (by norm_num), ?_⟩
      rintro ⟨A, hA, hj⟩
      cases hA
      rw [j2] at hj
      norm_num at hj
    | id + 3 =>
      refine ⟨fun h => by omega, ?_⟩
      rintro ⟨A, hA, _⟩
      simp [readmeDocs] at hA
  have herr : ((readmeDocs.take 3).map fun A => sideError 42 3 (5 / 6) (jaccard A [0, 1, 2, 3, 4])).sum ≤ 1 / 100 := by
    have e1 : sideError 42 3 (5 / 6) 1 ≤ 1 / 1000 := by
      unfold sideError
      rw [if_pos (by norm_num)]
      have h : -(2 * ((42 * 3 : ℕ) : ℝ) * (1 - 5 / 6) ^ 2) = -7 := by norm_num
      rw [h]
      have := exp_seven
      norm_num
      linarith
    have e2 : sideError 42 3 (5 / 6) (2 / 3) ≤ 1 / 1000 := by
      unfold sideError
      rw [if_neg (by norm_num)]
      exact (Real.exp_le_exp.mpr (by norm_num)).trans exp_seven
    have e3 : sideError 42 3 (5 / 6) (4 / 7) ≤ 1 / 1000 := by
      unfold sideError
      rw [if_neg (by norm_num)]
      exact (Real.exp_le_exp.mpr (by norm_num)).trans exp_seven
    simp only [readmeDocs, List.take, List.map_cons, List.map_nil, List.sum_cons, List.sum_nil, j0, j1, j2]
    linarith
  constructor
  · have key := C143_top_k (C := C) 42 3 (.fin (1 / 2)) h rank (fun id => (readmeDocs.take 3)[id]?) (readmeDocs.take 3)
      [0, 1, 2, 3, 4] _ (by norm_num) (by norm_num) hrank (by decide) (by decide)
      (fun π => clean_zipIdx _ _ (hlen π) _) hr (fun id A hA => List.mem_of_getElem? hA)
      (fun π id => live_zipIdx _ _ (hlen π) _ id) (5 / 6) [0] (by decide)
      (fun id => by rw [List.mem_singleton]; exact hbest id) o1 o2
    exact le_trans (by linarith) key
  · have key := C143_query_one (C := C) 42 3 (1 / 2) h rank (fun id => (readmeDocs.take 3)[id]?) (readmeDocs.take 3)
      [0, 1, 2, 3, 4] _ (by norm_num) (by norm_num) hrank (by decide) (by decide) hr
      (fun id A hA => List.mem_of_getElem? hA) (fun π id => live_zipIdx _ _ (hlen π) _ id) (5 / 6) (by norm_num) 0 hbest o1
    exact le_trans (by linarith) key

end Verif.Props
