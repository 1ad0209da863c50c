import Verif.Model.Work
import Verif.Props.ExpectedAnswers

/-!
# Property C151: the work of a query

A query compares the signatures of the documents that share a band with it; in the mean these are few when most documents
are not similar to the query.
-/
set_option linter.unusedSectionVars false
namespace Verif.Props
open Verif.Spec

section count
variable {T Id C : Type} [DecidableEq T] [DecidableEq Id] [IdContainer C Id] [LawfulIdContainer C Id]

theorem counted_fold (idx : MinHashIndex T Id C) (q : List T) (l : List Id) (acc : List Id) (n : Nat)
    (hk : ∀ id ∈ l, ∃ k, idx.keeps q id = .ok k) :
    l.foldlM (fun (acc : List Id × Nat) id => do
      let k ← idx.keepsCounted q id acc.2
      pure (if k.1 then acc.1 ++ [id] else acc.1, k.2)) (acc, n) =
    (.ok (acc ++ l.filter (fun id => match idx.keeps q id with | .ok k => k | .error _ => false),
      n + (l.filter fun id => (idx.idSignatures.get? id).isSome).length) : Except Panic (List Id × Nat)) := by
  induction l generalizing acc n with
  | nil => simp; rfl
  | cons id l ih =>
    obtain ⟨k, hid⟩ := hk id (by simp)
    have ih' := fun acc n => ih acc n fun x hx => hk x (by simp [hx])
    rw [List.foldlM_cons]
    cases hg : idx.idSignatures.get? id with
    | none =>
      have e : idx.keepsCounted q id n = .ok (false, n) := by simp [MinHashIndex.keepsCounted, hg]
      have ek : idx.keeps q id = .ok false := by simp [MinHashIndex.keeps, hg]
      simp only [e, bind, Except.bind, pure, Except.pure]
      refine (ih' _ _).trans ?_
      simp [ek, hg]
    | some s =>
      unfold MinHashIndex.keeps at hid
      rw [hg] at hid
      simp only at hid
      cases hv : minhashSimilarity s q with
      | error e => rw [hv] at hid; cases hid
      | ok v =>
        have e : idx.keepsCounted q id n = .ok (Fl.ge v idx.threshold, n + 1) := by
          simp [MinHashIndex.keepsCounted, hg, hv, Except.map]
        have ek : idx.keeps q id = .ok (Fl.ge v idx.threshold) := by simp [MinHashIndex.keeps, hg, hv, Except.map]
        simp only [e, bind, Except.bind, pure, Except.pure]
        refine (ih' _ _).trans ?_
        cases hge : Fl.ge v idx.threshold <;> simp [ek, hg, hge] <;> omega

/-- C151: the counted query returns what the query returns; without overwriting, it compares the query with the
signatures of exactly the stored documents that share a key of a band with it, each once. -/
theorem C151_count (b r : Nat) (t : Fl) (h : List T → UInt64) (ops : List (Op T Id)) (q : List T)
    (hl : RightLengths (b * r) ops) (hq : q.length = b * r) (hc : Clean (b * r) ops) :
    ∃ (res : HSet Id) (ids : List Id), (After C b r t h ops).query q = .ok res ∧
      (After C b r t h ops).queryCounted q = .ok (res.elems, ids.length) ∧ ids.Nodup ∧
      ∀ id, id ∈ ids ↔ ∃ s, live (b * r) ops id = some s ∧ ∃ i < b, h (bandOf r s i) = h (bandOf r q i) := by
  have I := inv_run (C := C) h b r t ops
  obtain ⟨res, hres, _⟩ := C17_query_returns (C := C) b r t h ops q hl hq
  obtain ⟨S, e, _, hS⟩ := candidates_ok I q hq
  have hres' := hres
  unfold MinHashIndex.query at hres'
  rw [if_pos (I.hn.trans hq.symm), e] at hres'
  obtain ⟨hk, hf⟩ := HSet.retainE_ok_iff.mp hres'
  refine ⟨res, S.elems.filter fun id => ((After C b r t h ops).idSignatures.get? id).isSome, hres, ?_, S.nodup.filter _,
    fun id => ?_⟩
  · unfold MinHashIndex.queryCounted
    rw [if_pos (I.hn.trans hq.symm), e]
    refine (counted_fold _ q S.elems [] 0 hk).trans ?_
    rw [hf, Nat.zero_add]
    rfl
  · rw [List.mem_filter, hS, candidate_exact I (exact_run h b r t ops hc), I.sigs]
    constructor
    · rintro ⟨h1, _⟩
      exact h1
    · rintro ⟨s, h1, h2⟩
      exact ⟨⟨s, h1, h2⟩, by rw [h1]; rfl⟩

/-- C151: after any history, overwriting inserts included, a query compares only signatures of stored documents, each at
most once, and those of all documents that share a key of a band with it. -/
theorem C151_any_history (b r : Nat) (t : Fl) (h : List T → UInt64) (ops : List (Op T Id)) (q : List T)
    (hl : RightLengths (b * r) ops) (hq : q.length = b * r) :
    ∃ (res : HSet Id) (ids : List Id), (After C b r t h ops).query q = .ok res ∧
      (After C b r t h ops).queryCounted q = .ok (res.elems, ids.length) ∧ ids.Nodup ∧
      (∀ id ∈ ids, ∃ s, live (b * r) ops id = some s) ∧
      ∀ id s, live (b * r) ops id = some s → (∃ i < b, h (bandOf r s i) = h (bandOf r q i)) → id ∈ ids := by
  have I := inv_run (C := C) h b r t ops
  obtain ⟨res, hres, _⟩ := C17_query_returns (C := C) b r t h ops q hl hq
  obtain ⟨S, e, _, hS⟩ := candidates_ok I q hq
  have hres' := hres
  unfold MinHashIndex.query at hres'
  rw [if_pos (I.hn.trans hq.symm), e] at hres'
  obtain ⟨hk, hf⟩ := HSet.retainE_ok_iff.mp hres'
  refine ⟨res, S.elems.filter fun id => ((After C b r t h ops).idSignatures.get? id).isSome, hres, ?_, S.nodup.filter _,
    fun id hid => ?_, fun id s hs hi => ?_⟩
  · unfold MinHashIndex.queryCounted
    rw [if_pos (I.hn.trans hq.symm), e]
    refine (counted_fold _ q S.elems [] 0 hk).trans ?_
    rw [hf, Nat.zero_add]
    rfl
  · have := (List.mem_filter.mp hid).2
    rw [I.sigs] at this
    exact Option.isSome_iff_exists.mp this
  · obtain ⟨i, hi, hb⟩ := hi
    rw [List.mem_filter, hS, I.sigs, hs]
    exact ⟨candidate_of_band I hs hi hb, rfl⟩

/-- An id that was overwritten and then removed is still in a bucket, but nothing is compared for it. -/
example : (After (HashSetContainer Nat) 2 1 (.fin (1 / 2)) (fun l => UInt64.ofNat (l.headD 0))
    ([.insert 1 [1, 2], .insert 1 [3, 4], .remove 1, .insert 2 [1, 5]] : List (Op Nat Nat))).queryCounted [1, 2] =
      .ok ([2], 1) := by decide +kernel

end count

section mean
variable {Tok Id : Type} [Fintype Tok] [DecidableEq Tok] [DecidableEq Id]
variable {C : Type} [IdContainer C Id] [LawfulIdContainer C Id]

/-- The number of comparisons of a call; none if it panicked. -/
def comparisons {Id : Type} : Except Panic (List Id × Nat) → Nat
  | .ok p => p.2
  | .error _ => 0

/-- C151: the mean number of comparisons, whatever the threshold is: the sum of `1 - (1 - J^r)^b` over the stored documents,
`J` their Jaccard similarity to the query. -/
theorem C151_mean (b r : Nat) (t : Fl) (h : List Nat → UInt64) (rank : Tok → Nat) (docs : List (Id × List Tok))
    (B : List Tok) (ops : (Fin (b * r) → Equiv.Perm Tok) → List (Op Nat Id)) (h0 : 0 < b * r) (hn : b * r ≤ 2 ^ 53)
    (hrank : Function.Injective rank) (hd : (docs.map (·.1)).Nodup) (hA : ∀ p ∈ docs, p.2 ≠ []) (hB : B ≠ [])
    (hinj : ∀ l l' : List Nat, l.length = r → l'.length = r → (∀ x ∈ l ++ l', ∃ u, x = rank u) → h l = h l' → l = l')
    (hc : ∀ π, Clean (b * r) (ops π)) (hl : ∀ π, RightLengths (b * r) (ops π))
    (hlive : ∀ π, ∀ p ∈ docs, live (b * r) (ops π) p.1 = some (idealSignature rank (List.ofFn π) p.2))
    (hnone : ∀ π, ∀ id, id ∉ docs.map (·.1) → live (b * r) (ops π) id = none) :
    meanValue (fun π : Fin (b * r) → Equiv.Perm Tok =>
      (comparisons ((After C b r t h (ops π)).queryCounted (idealSignature rank (List.ofFn π) B)) : ℝ)) =
    (docs.map fun p => 1 - (1 - jaccard p.2 B ^ r) ^ b).sum := by
  classical
  have hz : Fl.ge (.fin 0) (.fin 0) = true := by decide +kernel
  have e : docs.map (fun p => 1 - (1 - jaccard p.2 B ^ r) ^ b) =
      docs.map (fun p => proportion (fun π : Fin (b * r) → Equiv.Perm Tok =>
        ∃ res, (After C b r (.fin 0) h (ops π)).query (idealSignature rank (List.ofFn π) B) = .ok res ∧
          p.1 ∈ res.elems)) := by
    refine List.map_congr_left fun p hp => ?_
    exact (C94_band_probability b r (.fin 0) h rank p.2 B p.1 ops h0 hn hrank (hA p hp) hB hinj hz hc hl
      fun π => hlive π p hp).symm
  rw [e, ← mean_count]
  congr 1
  funext π
  have hlen : ∀ X : List Tok, (idealSignature rank (List.ofFn π) X).length = b * r := by
    intro X; rw [ideal_length, List.length_ofFn]
  obtain ⟨res, ids, _, e2, e3, e4⟩ := C151_count (C := C) b r t h (ops π) (idealSignature rank (List.ofFn π) B) (hl π)
    (hlen B) (hc π)
  rw [e2]
  obtain ⟨res0, hres0, _⟩ := C17_query_returns (C := C) b r (.fin 0) h (ops π) (idealSignature rank (List.ofFn π) B) (hl π)
    (hlen B)
  have hmem : ∀ id, id ∈ ids ↔ id ∈ res0.elems := by
    intro id
    rw [e4, C18_exact b r (.fin 0) h (ops π) _ (hc π) res0 hres0 id]
    constructor
    · rintro ⟨s, h1, h2⟩
      have hs : s.length = b * r := rightLengths_live (hl π) id s h1
      obtain ⟨v, hv, hnear⟩ := C08_nearest_double s (idealSignature rank (List.ofFn π) B) (by rw [hs, hlen])
        (by rw [hs]; exact h0) (by rw [hs]; exact hn)
      refine ⟨s, _, h1, h2, hv, ?_⟩
      have hpos : (0 : ℚ) ≤ v := by
        by_contra hneg
        have h1 := hnear.2.1 0 ⟨0, 0, by norm_num, by norm_num, by norm_num, by norm_num⟩
        have h2 : (0 : ℚ) ≤ (agree s (idealSignature rank (List.ofFn π) B) : ℚ) / (s.length : ℕ) := by positivity
        rw [abs_of_neg (by linarith), zero_sub, abs_neg, abs_of_nonneg h2] at h1
        linarith
      exact ge_mono hpos hz
    · rintro ⟨s, v, h1, h2, _⟩
      exact ⟨s, h1, h2⟩
  have := answer_count docs hd (fun _ => true) ids e3 fun id hid => by
    by_contra hno
    obtain ⟨s, hs, _⟩ := (e4 id).mp hid
    rw [hnone π id hno] at hs
    cases hs
  rw [List.filter_true, List.filter_true] at this
  show ((ids.length : ℕ) : ℝ) = _
  rw [this]
  congr 2
  refine List.filter_congr fun p _ => ?_
  rw [decide_eq_decide, hmem]
  exact ⟨fun hp => ⟨res0, hres0, hp⟩, fun ⟨res', h1, h2⟩ => by rw [hres0] at h1; cases h1; exact h2⟩

/-- C151: if all but `m` of the documents have a similarity of at most `s` to the query, then a query compares in the mean at
most `m` documents and `b * s^r` of the others. -/
theorem C151_few (b r : Nat) (t : Fl) (h : List Nat → UInt64) (rank : Tok → Nat) (docs : List (Id × List Tok))
    (B : List Tok) (ops : (Fin (b * r) → Equiv.Perm Tok) → List (Op Nat Id)) (h0 : 0 < b * r) (hn : b * r ≤ 2 ^ 53)
    (hrank : Function.Injective rank) (hd : (docs.map (·.1)).Nodup) (hA : ∀ p ∈ docs, p.2 ≠ []) (hB : B ≠ [])
    (hinj : ∀ l l' : List Nat, l.length = r → l'.length = r → (∀ x ∈ l ++ l', ∃ u, x = rank u) → h l = h l' → l = l')
    (hc : ∀ π, Clean (b * r) (ops π)) (hl : ∀ π, RightLengths (b * r) (ops π))
    (hlive : ∀ π, ∀ p ∈ docs, live (b * r) (ops π) p.1 = some (idealSignature rank (List.ofFn π) p.2))
    (hnone : ∀ π, ∀ id, id ∉ docs.map (·.1) → live (b * r) (ops π) id = none) (near : Id → Bool) (s : ℝ)
    (hs : ∀ p ∈ docs, near p.1 = false → jaccard p.2 B ≤ s) :
    meanValue (fun π : Fin (b * r) → Equiv.Perm Tok =>
      (comparisons ((After C b r t h (ops π)).queryCounted (idealSignature rank (List.ofFn π) B)) : ℝ)) ≤
    (docs.filter fun p => near p.1).length + (docs.filter fun p => !near p.1).length * (b * s ^ r) := by
  rw [C151_mean b r t h rank docs B ops h0 hn hrank hd hA hB hinj hc hl hlive hnone]
  clear hd hlive hnone
  have hbern : ∀ x : ℝ, 0 ≤ x → x ≤ 1 → 1 - (1 - x) ^ b ≤ b * x := by
    intro x _ hx1
    have := one_add_mul_le_pow (a := -x) (by linarith) b
    rw [← sub_eq_add_neg] at this
    linarith
  have h01 := fun (p : Id × List Tok) => And.intro (jaccard_nonneg p.2 B) (jaccard_le_one p.2 B)
  induction docs with
  | nil => simp
  | cons p docs ih =>
    have ih' := ih (fun x hx => hA x (by simp [hx])) fun x hx => hs x (by simp [hx])
    rw [List.map_cons, List.sum_cons]
    have hp0 : 0 ≤ jaccard p.2 B ^ r := pow_nonneg (h01 p).1 r
    have hp1 : jaccard p.2 B ^ r ≤ 1 := pow_le_one₀ (h01 p).1 (h01 p).2
    cases hnear : near p.1 with
    | true =>
      have : (0 : ℝ) ≤ (1 - jaccard p.2 B ^ r) ^ b := pow_nonneg (by linarith) b
      simp only [List.filter_cons, hnear, if_true, Bool.not_true, Bool.false_eq_true, if_false, List.length_cons]
      push_cast
      linarith
    | false =>
      have h1 := hbern _ hp0 hp1
      have h2 : jaccard p.2 B ^ r ≤ s ^ r := pow_le_pow_left₀ (h01 p).1 (hs p (by simp) hnear) r
      have h3 : (b : ℝ) * jaccard p.2 B ^ r ≤ b * s ^ r := by gcongr
      simp only [List.filter_cons, hnear, if_true, Bool.not_false, Bool.false_eq_true, if_false, List.length_cons]
      push_cast
      linarith

end mean

section examples

/-- The two documents of `twoOps`: in the mean one and a half comparisons, also with a threshold that no document reaches,
and at most one and a half by the estimate. -/
example :
    meanValue (fun π : Fin (1 * 1) → Equiv.Perm (Fin 3) => (comparisons
      ((After (HashSetContainer Nat) 1 1 (.fin 2) (fun l => UInt64.ofNat (l.headD 0)) (twoOps π)).queryCounted
        (idealSignature Fin.val (List.ofFn π) [0])) : ℝ)) = 3 / 2 ∧
    meanValue (fun π : Fin (1 * 1) → Equiv.Perm (Fin 3) => (comparisons
      ((After (HashSetContainer Nat) 1 1 (.fin 2) (fun l => UInt64.ofNat (l.headD 0)) (twoOps π)).queryCounted
        (idealSignature Fin.val (List.ofFn π) [0])) : ℝ)) ≤ 1 + 1 * (1 * (1 / 2) ^ 1) := by
  obtain ⟨a1, a2, a3, a4, a5⟩ := twoOps_ok
  constructor
  · refine (C151_mean (C := HashSetContainer Nat) 1 1 (.fin 2) (fun l => UInt64.ofNat (l.headD 0)) Fin.val
      ([(0, [0, 1]), (1, [0])] : List (Nat × List (Fin 3))) [0] twoOps (by norm_num) (by norm_num) Fin.val_injective
      (by decide) (by decide) (by decide) a1 a2 a3 a4 a5).trans ?_
    simp only [List.map_cons, List.map_nil, List.sum_cons, List.sum_nil, two_jaccard.1, two_jaccard.2]
    norm_num
  · refine (C151_few (C := HashSetContainer Nat) 1 1 (.fin 2) (fun l => UInt64.ofNat (l.headD 0)) Fin.val
      ([(0, [0, 1]), (1, [0])] : List (Nat × List (Fin 3))) [0] twoOps (by norm_num) (by norm_num) Fin.val_injective
      (by decide) (by decide) (by decide) a1 a2 a3 a4 a5 (· == 1) (1 / 2) ?_).trans (by norm_num)
    intro p hp hr
    simp only [List.mem_cons, List.not_mem_nil, or_false] at hp
    rcases hp with rfl | rfl
    · exact two_jaccard.1.le
    · exact absurd hr (by decide)

/-- A concrete index: the query shares a band with two of three documents and compares two signatures; one of them
reaches the threshold. -/
example : (After (HashSetContainer Nat) 2 1 (.fin (3 / 4)) (fun l => UInt64.ofNat (l.headD 0))
    ([.insert 1 [1, 2], .insert 2 [3, 4], .insert 3 [1, 7]] : List (Op Nat Nat))).queryCounted [1, 2] = .ok ([1], 2) := by
  decide +kernel

end examples
end Verif.Props
