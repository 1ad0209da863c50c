import Verif.Props.ExpectedAnswers

/-!
# Property C150: answers whatever the hash of the bands is

Collisions of the hash of the bands and stale entries left by overwriting can only add documents to an answer, and only
documents whose estimated similarity reaches the threshold.
-/
set_option linter.unusedSectionVars false
namespace Verif.Props
open Verif.Spec

section index
variable {Tok Id : Type} [Fintype Tok] [DecidableEq Tok] [DecidableEq Id]
variable {C : Type} [IdContainer C Id] [LawfulIdContainer C Id]

/-- The answer to one query in terms of the components that agree. -/
theorem answer_between (b r : Nat) (t : Fl) (h : List Nat → UInt64) {rank : Tok → Nat} {A B : List Tok} (id : Id)
    (ops : List (Op Nat Id)) (π : Fin (b * r) → Equiv.Perm Tok) (h0 : 0 < b * r) (hn : b * r ≤ 2 ^ 53)
    (hrank : Function.Injective rank) (hA : A ≠ []) (hB : B ≠ []) (hl : RightLengths (b * r) ops)
    (hlive : live (b * r) ops id = some (idealSignature rank (List.ofFn π) A)) :
    let f : Fin (b * r) → Bool := fun i =>
      decide ((idealSignature rank (List.ofFn π) A)[i.val]? = (idealSignature rank (List.ofFn π) B)[i.val]?)
    let found := ∃ res, (After C b r t h ops).query (idealSignature rank (List.ofFn π) B) = .ok res ∧ id ∈ res.elems
    let near := ∃ x, NearestEven Double ((heads f : ℚ) / (b * r : ℕ)) x ∧ Fl.ge (.fin x) t = true
    (FullRow b r f ∧ near → found) ∧ (found → near) ∧ ((∀ l l', h l = h l') → near → found) := by
  classical
  intro f found near
  have hlen : ∀ X : List Tok, (idealSignature rank (List.ofFn π) X).length = b * r := by
    intro X; rw [ideal_length, List.length_ofFn]
  have hcount : heads f = agree (idealSignature rank (List.ofFn π) A) (idealSignature rank (List.ofFn π) B) := by
    rw [ideal_agree hrank π hA hB]
    unfold heads
    congr 1
    ext i
    simp only [Finset.mem_filter, Finset.mem_univ, true_and, decide_eq_true_eq, f]
    exact ideal_agree_iff hrank π hA hB i
  obtain ⟨x, hx, hnear⟩ := C08_nearest_double (idealSignature rank (List.ofFn π) A)
    (idealSignature rank (List.ofFn π) B) (by rw [hlen, hlen]) (by rw [hlen]; exact h0) (by rw [hlen]; exact hn)
  rw [hlen, ← hcount] at hnear
  obtain ⟨res, hres, _⟩ := C17_query_returns (C := C) b r t h ops (idealSignature rank (List.ofFn π) B) hl (hlen B)
  refine ⟨?_, ?_, ?_⟩
  · rintro ⟨⟨i, hi, hrow⟩, y, hy, hge⟩
    rw [nearest_unique hy hnear] at hge
    refine ⟨res, hres, C17_complete b r t h ops _ res (.inl hres) id _ _ hlive ⟨i, hi, fun j h1 h2 => ?_⟩ hx hge⟩
    have hj : j < b * r := lt_of_lt_of_le h2 (Nat.mul_le_mul_right r hi)
    exact of_decide_eq_true (hrow ⟨j, hj⟩ h1 h2)
  · rintro ⟨res', hres', hid⟩
    obtain ⟨s, v, hs, hv, hge⟩ := C16_query b r t h ops _ res' hres' id hid
    rw [hlive, Option.some.injEq] at hs
    subst hs
    rw [hx, Except.ok.injEq] at hv
    exact ⟨x, hnear, by rwa [hv]⟩
  · rintro hconst ⟨y, hy, hge⟩
    rw [nearest_unique hy hnear] at hge
    refine ⟨res, hres, ?_⟩
    have I := inv_run (C := C) h b r t ops
    rw [(query_mem I hres).2 id]
    exact ⟨candidate_of_band I hlive (Nat.pos_of_mul_pos_right h0) (hconst _ _), _, _, hlive, hx, hge⟩

/-- C150: for every hash of the bands and every history, overwriting inserts included, the probability that a query
returns a stored document is at least the one without collisions and at most the probability that the estimated
similarity reaches the threshold. -/
theorem C150_bounds (b r : Nat) (t : Fl) (h : List Nat → UInt64) (rank : Tok → Nat) (A B : List Tok)
    (id : Id) (ops : (Fin (b * r) → Equiv.Perm Tok) → List (Op Nat Id)) (h0 : 0 < b * r) (hn : b * r ≤ 2 ^ 53)
    (hrank : Function.Injective rank) (hA : A ≠ []) (hB : B ≠ []) (hl : ∀ π, RightLengths (b * r) (ops π))
    (hlive : ∀ π, live (b * r) (ops π) id = some (idealSignature rank (List.ofFn π) A)) :
    coins (jaccard A B) (Accepted b r t) ≤ proportion (fun π : Fin (b * r) → Equiv.Perm Tok =>
      ∃ res, (After C b r t h (ops π)).query (idealSignature rank (List.ofFn π) B) = .ok res ∧ id ∈ res.elems) ∧
    proportion (fun π : Fin (b * r) → Equiv.Perm Tok =>
      ∃ res, (After C b r t h (ops π)).query (idealSignature rank (List.ofFn π) B) = .ok res ∧ id ∈ res.elems) ≤
      coins (jaccard A B) fun f : Fin (b * r) → Bool =>
        ∃ x, NearestEven Double ((heads f : ℚ) / (b * r : ℕ)) x ∧ Fl.ge (.fin x) t = true := by
  rw [← C144_independent (b * r) rank hrank A B hA hB, ← C144_independent (b * r) rank hrank A B hA hB]
  refine ⟨proportion_mono fun π hf => ?_, proportion_mono fun π hf => ?_⟩
  · exact (answer_between (C := C) b r t h id (ops π) π h0 hn hrank hA hB (hl π) (hlive π)).1 hf
  · exact (answer_between (C := C) b r t h id (ops π) π h0 hn hrank hA hB (hl π) (hlive π)).2.1 hf

/-- C150: the upper bound is attained by a hash of the bands that is constant: such an index compares the query with every
stored document. -/
theorem C150_worst (b r : Nat) (t : Fl) (h : List Nat → UInt64) (rank : Tok → Nat) (A B : List Tok)
    (id : Id) (ops : (Fin (b * r) → Equiv.Perm Tok) → List (Op Nat Id)) (h0 : 0 < b * r) (hn : b * r ≤ 2 ^ 53)
    (hrank : Function.Injective rank) (hA : A ≠ []) (hB : B ≠ []) (hl : ∀ π, RightLengths (b * r) (ops π))
    (hlive : ∀ π, live (b * r) (ops π) id = some (idealSignature rank (List.ofFn π) A)) (hconst : ∀ l l', h l = h l') :
    proportion (fun π : Fin (b * r) → Equiv.Perm Tok =>
      ∃ res, (After C b r t h (ops π)).query (idealSignature rank (List.ofFn π) B) = .ok res ∧ id ∈ res.elems) =
      coins (jaccard A B) fun f : Fin (b * r) → Bool =>
        ∃ x, NearestEven Double ((heads f : ℚ) / (b * r : ℕ)) x ∧ Fl.ge (.fin x) t = true := by
  refine le_antisymm (C150_bounds b r t h rank A B id ops h0 hn hrank hA hB hl hlive).2 ?_
  rw [← C144_independent (b * r) rank hrank A B hA hB]
  exact proportion_mono fun π hf =>
    (answer_between (C := C) b r t h id (ops π) π h0 hn hrank hA hB (hl π) (hlive π)).2.2 hconst hf

/-- C150: the same for the mean number of documents of a given kind that a query returns. -/
theorem C150_mean (b r : Nat) (t : Fl) (h : List Nat → UInt64) (rank : Tok → Nat) (docs : List (Id × List Tok))
    (B : List Tok) (ops : (Fin (b * r) → Equiv.Perm Tok) → List (Op Nat Id)) (h0 : 0 < b * r) (hn : b * r ≤ 2 ^ 53)
    (hrank : Function.Injective rank) (hd : (docs.map (·.1)).Nodup) (hA : ∀ p ∈ docs, p.2 ≠ []) (hB : B ≠ [])
    (hl : ∀ π, RightLengths (b * r) (ops π))
    (hlive : ∀ π, ∀ p ∈ docs, live (b * r) (ops π) p.1 = some (idealSignature rank (List.ofFn π) p.2))
    (hnone : ∀ π, ∀ id, id ∉ docs.map (·.1) → live (b * r) (ops π) id = none) (rel : Id → Bool) :
    ((docs.filter fun p => rel p.1).map fun p => coins (jaccard p.2 B) (Accepted b r t)).sum ≤
      meanValue (fun π : Fin (b * r) → Equiv.Perm Tok =>
      (((answerIds ((After C b r t h (ops π)).query (idealSignature rank (List.ofFn π) B))).filter rel).length : ℝ)) ∧
    meanValue (fun π : Fin (b * r) → Equiv.Perm Tok =>
      (((answerIds ((After C b r t h (ops π)).query (idealSignature rank (List.ofFn π) B))).filter rel).length : ℝ)) ≤
    ((docs.filter fun p => rel p.1).map fun p => coins (jaccard p.2 B) fun f : Fin (b * r) → Bool =>
      ∃ x, NearestEven Double ((heads f : ℚ) / (b * r : ℕ)) x ∧ Fl.ge (.fin x) t = true).sum := by
  classical
  have e : meanValue (fun π : Fin (b * r) → Equiv.Perm Tok =>
      (((answerIds ((After C b r t h (ops π)).query (idealSignature rank (List.ofFn π) B))).filter rel).length : ℝ)) =
      ((docs.filter fun p => rel p.1).map (fun p => proportion (fun π : Fin (b * r) → Equiv.Perm Tok =>
        ∃ res, (After C b r t h (ops π)).query (idealSignature rank (List.ofFn π) B) = .ok res ∧
          p.1 ∈ res.elems))).sum := by
    rw [← mean_count]
    congr 1
    funext π
    obtain ⟨res, hres, _⟩ := C17_query_returns (C := C) b r t h (ops π) (idealSignature rank (List.ofFn π) B) (hl π)
      (by rw [ideal_length, List.length_ofFn])
    rw [hres]
    have := answer_count docs hd rel res.elems res.nodup fun id hid => by
      by_contra hno
      obtain ⟨s, _, hs, _⟩ := C16_query b r t h (ops π) _ res hres id hid
      rw [hnone π id hno] at hs
      cases hs
    show (((res.elems.filter rel).length : ℕ) : ℝ) = _
    rw [this]
    congr 2
    refine List.filter_congr fun p _ => ?_
    rw [decide_eq_decide]
    exact ⟨fun hp => ⟨res, rfl, hp⟩, fun ⟨res', h1, h2⟩ => by cases h1; exact h2⟩
  rw [e]
  have key := fun p (hp : p ∈ docs) => C150_bounds (C := C) b r t h rank p.2 B p.1 ops h0 hn hrank (hA p hp) hB hl
    fun π => hlive π p hp
  exact ⟨List.sum_le_sum fun p hp => (key p (List.mem_filter.mp hp).1).1,
    List.sum_le_sum fun p hp => (key p (List.mem_filter.mp hp).1).2⟩

end index

section examples

/-- The documents of `twoOps`, the second of which is first inserted with the words of the first and then
overwritten. -/
def overOps (π : Fin (1 * 1) → Equiv.Perm (Fin 3)) : List (Op Nat Nat) :=
  [.insert 0 (idealSignature Fin.val (List.ofFn π) [0, 1]), .insert 1 (idealSignature Fin.val (List.ofFn π) [0, 1]),
    .insert 1 (idealSignature Fin.val (List.ofFn π) [0])]

theorem overOps_ok : (∀ π, RightLengths (1 * 1) (overOps π)) ∧
    (∀ π, ∀ p ∈ ([(0, [0, 1]), (1, [0])] : List (Nat × List (Fin 3))),
      live (1 * 1) (overOps π) p.1 = some (idealSignature Fin.val (List.ofFn π) p.2)) ∧
    ∀ π, ∀ id, id ∉ ([(0, [0, 1]), (1, [0])] : List (Nat × List (Fin 3))).map (·.1) →
      live (1 * 1) (overOps π) id = none := by
  have hlen : ∀ (π : Fin (1 * 1) → Equiv.Perm (Fin 3)) (X : List (Fin 3)),
      (idealSignature Fin.val (List.ofFn π) X).length = 1 * 1 := by
    intro π X; rw [ideal_length, List.length_ofFn]
  refine ⟨?_, ?_, ?_⟩
  · intro π op hop s hs
    simp only [overOps, List.mem_cons, List.not_mem_nil, or_false] at hop
    rcases hop with rfl | rfl | rfl <;> simp only [sigsOf, List.mem_singleton] at hs <;> rw [hs, hlen]
  · intro π p hp
    simp only [List.mem_cons, List.not_mem_nil, or_false] at hp
    rcases hp with rfl | rfl <;> rfl
  · intro π id hid
    simp only [List.map_cons, List.map_nil, List.mem_cons, List.not_mem_nil, or_false, not_or] at hid
    simp [overOps, live, touch, List.findSome?, hid.1, hid.2, Ne.symm hid.1, Ne.symm hid.2]

/-- An index whose hash of the bands is constant, after an overwriting insert: a document half of whose words are in the
query is returned with probability one half, and the mean number of answers is one and a half. -/
example :
    proportion (fun π : Fin (1 * 1) → Equiv.Perm (Fin 3) => ∃ res,
      (After (HashSetContainer Nat) 1 1 (.fin (1 / 2)) (fun _ => 0) (overOps π)).query
        (idealSignature Fin.val (List.ofFn π) [0]) = .ok res ∧ 0 ∈ res.elems) =
      coins (1 / 2) (fun f : Fin (1 * 1) → Bool =>
        ∃ x, NearestEven Double ((heads f : ℚ) / (1 * 1 : ℕ)) x ∧ Fl.ge (.fin x) (.fin (1 / 2)) = true) ∧
    3 / 2 ≤ meanValue (fun π : Fin (1 * 1) → Equiv.Perm (Fin 3) =>
    (((answerIds ((After (HashSetContainer Nat) 1 1 (.fin (1 / 2)) (fun _ => 0) (overOps π)).query
      (idealSignature Fin.val (List.ofFn π) [0]))).filter fun _ => true).length : ℝ)) := by
  obtain ⟨a1, a2, a3⟩ := overOps_ok
  constructor
  · rw [← two_jaccard.1]
    exact C150_worst (C := HashSetContainer Nat) 1 1 (.fin (1 / 2)) (fun _ => 0) Fin.val [0, 1] [0] 0 overOps
      (by norm_num) (by norm_num) Fin.val_injective (by decide) (by decide) a1 (fun π => a2 π (0, [0, 1]) (by decide))
      fun _ _ => rfl
  · refine le_trans (le_of_eq ?_) (C150_mean (C := HashSetContainer Nat) 1 1 (.fin (1 / 2)) (fun _ => 0) Fin.val
      ([(0, [0, 1]), (1, [0])] : List (Nat × List (Fin 3))) [0] overOps (by norm_num) (by norm_num) Fin.val_injective
      (by decide) (by decide) (by decide) a1 a2 a3 fun _ => true).1
    simp only [coins_one, List.filter_true, List.map_cons, List.map_nil, List.sum_cons, List.sum_nil, two_jaccard.1,
      two_jaccard.2]
    norm_num

end examples
end Verif.Props
