import Verif.Props.HashSize

/-! # Property C134: narrower bands find more -/
namespace Verif.Props
open Verif.Spec

variable {T Id : Type} [DecidableEq T] [DecidableEq Id]

omit [DecidableEq T] in
theorem sameBand_split {k r i : Nat} {s q : List T} (hk : 0 < k) (h : sameBand (k * r) s q i) :
    sameBand r s q (i * k) := by
  intro j h1 h2
  refine h j (by rw [← Nat.mul_assoc]; exact h1) (h2.trans_le ?_)
  calc (i * k + 1) * r ≤ (i * k + k) * r := Nat.mul_le_mul_right _ (by omega)
    _ = (i + 1) * (k * r) := by ring

/-- A similarity that reaches a positive threshold comes from an agreeing position. -/
theorem agree_of_ge {s q : List T} {n : Nat} (hn : n < 2 ^ 64) (hs : s.length = n) (hq : q.length = n) {t v : Fl}
    (ht : Fl.gt t (.fin 0) = true) (hv : minhashSimilarity s q = .ok v) (hge : Fl.ge v t = true) : 0 < agree s q := by
  by_contra h0
  have h0 : agree s q = 0 := by omega
  unfold minhashSimilarity at hv
  rw [if_pos (hs.trans hq.symm), simMatches_eq_agree s q (hs.trans hq.symm), hs, h0, ofNat_b64 hn,
    ofNat_b64 (n := 0) (by norm_num)] at hv
  have e0 : rndQ b64 ((0 : Nat) : ℚ) = 0 := by simpa using rndQ_zero b64
  have hv := Except.ok.inj hv
  rw [e0] at hv
  by_cases hp : rndQ b64 (n : ℚ) = 0
  · rw [hp] at hv
    have : v = .nan := by rw [← hv]; simp [Fl.div]
    subst this
    cases t <;> simp [Fl.ge, Fl.cmp] at hge
  · have : v = .fin 0 := by
      rw [← hv]
      simp only [Fl.div, if_neg hp, zero_div]
      rw [rnd_of_bounds b64_ok le_rfl (k := 0) (by simp [b64]) (by simp [b64]) (by simp), rndQ_zero]
    subst this
    cases t with
    | nan => simp [Fl.ge, Fl.cmp] at hge
    | pinf => simp [Fl.ge, Fl.cmp] at hge
    | ninf => simp [Fl.gt, Fl.cmp] at ht
    | fin x =>
      rw [ge_fin] at hge
      simp only [Fl.gt, Fl.cmp, beq_iff_eq, Option.some.injEq] at ht
      rw [compare_gt_iff_gt] at ht
      exact absurd hge (not_le.mpr ht)

variable {C C' : Type} [IdContainer C Id] [IdContainer C' Id]
  [LawfulIdContainer C Id] [LawfulIdContainer C' Id]

/-- C134: whatever the history, an answer of an index with `b` bands of `k * r` hashes that shares a band with the query
is an answer of the index with `b * k` bands of `r` hashes. -/
theorem C134_query (b k r : Nat) (hk : 0 < k) (t : Fl) (h h' : List T → UInt64) (ops : List (Op T Id)) (q : List T)
    (hl : RightLengths (b * (k * r)) ops) (hq : q.length = b * (k * r)) :
    ∃ res res', (After C b (k * r) t h ops).query q = .ok res ∧ (After C' (b * k) r t h' ops).query q = .ok res' ∧
      ∀ id ∈ res.elems, (∃ s, live (b * (k * r)) ops id = some s ∧ ∃ i < b, sameBand (k * r) s q i) → id ∈ res'.elems := by
  have en : b * k * r = b * (k * r) := Nat.mul_assoc b k r
  obtain ⟨res, e, _⟩ := C17_query_returns (C := C) b (k * r) t h ops q hl hq
  obtain ⟨res', e', _⟩ := C17_query_returns (C := C') (b * k) r t h' ops q (en ▸ hl) (en ▸ hq)
  refine ⟨res, res', e, e', fun id hid ⟨s, hs, i, hi, hb⟩ => ?_⟩
  obtain ⟨s2, v, k1, k2, k3⟩ := C16_query b (k * r) t h ops q res e id hid
  rw [hs] at k1; cases k1
  exact C17_complete (b * k) r t h' ops q res' (.inl e') id s v (en ▸ hs)
    ⟨i * k, Nat.mul_lt_mul_of_pos_right hi hk, sameBand_split hk hb⟩ k2 k3

/-- C134: without overwriting and without collisions of the band hash between stored bands and bands of the query, the
answers with wide bands are among the answers with narrow bands. -/
theorem C134_clean (b k r : Nat) (hk : 0 < k) (t : Fl) (h h' : List T → UInt64) (ops : List (Op T Id)) (q : List T)
    (hl : RightLengths (b * (k * r)) ops) (hq : q.length = b * (k * r)) (hc : Clean (b * (k * r)) ops)
    (hh : ∀ id s, live (b * (k * r)) ops id = some s → ∀ i < b, h (bandOf (k * r) s i) = h (bandOf (k * r) q i) →
      bandOf (k * r) s i = bandOf (k * r) q i) :
    ∃ res res', (After C b (k * r) t h ops).query q = .ok res ∧ (After C' (b * k) r t h' ops).query q = .ok res' ∧
      ∀ id ∈ res.elems, id ∈ res'.elems := by
  obtain ⟨res, res', e, e', m⟩ := C134_query (C := C) (C' := C') b k r hk t h h' ops q hl hq
  refine ⟨res, res', e, e', fun id hid => m id hid ?_⟩
  obtain ⟨s, v, k1, ⟨i, hi, k2⟩, _⟩ := (C18_exact b (k * r) t h ops q hc res e id).mp hid
  exact ⟨s, k1, i, hi, sameBand_of_bandOf (hh id s k1 i hi k2)⟩

/-- C134: with bands of one hash and a positive threshold the query is a full scan: after every history, it returns
exactly the present ids whose similarity reaches the threshold. -/
theorem C134_width_one (n : Nat) (hn : n < 2 ^ 64) (t : Fl) (ht : Fl.gt t (.fin 0) = true) (h : List T → UInt64)
    (ops : List (Op T Id)) (q : List T) (hl : RightLengths n ops) (hq : q.length = n) :
    ∃ res, (After C n 1 t h ops).query q = .ok res ∧ ∀ id, id ∈ res.elems ↔
      ∃ s v, live n ops id = some s ∧ minhashSimilarity s q = .ok v ∧ Fl.ge v t = true := by
  have en : n * 1 = n := Nat.mul_one n
  obtain ⟨res, e, _⟩ := C17_query_returns (C := C) n 1 t h ops q (en.symm ▸ hl) (en.symm ▸ hq)
  refine ⟨res, e, fun id => ⟨fun hid => ?_, ?_⟩⟩
  · have := C16_query n 1 t h ops q res e id hid
    rw [en] at this
    exact this
  · rintro ⟨s, v, hs, hv, hge⟩
    have hsl := rightLengths_live hl id s hs
    have hpos := agree_of_ge hn hsl hq ht hv hge
    unfold agree at hpos
    obtain ⟨i, hi⟩ := Finset.card_pos.mp hpos
    rw [Finset.mem_filter, Finset.mem_range] at hi
    refine C17_complete n 1 t h ops q res (.inl e) id s v (en.symm ▸ hs) ⟨i, by omega, fun j h1 h2 => ?_⟩ hv hge
    have : j = i := by omega
    subst this
    exact hi.2

/-- The hypotheses of `C134_query`, `C134_clean` and `C134_width_one` are met: with one band of two hashes only the equal
signature is found, with two bands of one hash also the one that agrees in one position; an overwritten id is compared
with its last signature. -/
example : RightLengths (1 * (2 * 1)) ([.insert 1 [1, 2], .insert 2 [1, 8], .insert 3 [1, 2], .insert 3 [7, 8]] : List (Op Nat Nat)) ∧
    Clean (1 * (2 * 1)) ([.insert 1 [1, 2], .insert 2 [1, 8]] : List (Op Nat Nat)) ∧
    (∀ s ∈ ([[1, 2], [1, 8]] : List (List Nat)), ∀ i < 1, exHash (bandOf 2 s i) = exHash (bandOf 2 [1, 2] i) →
      bandOf 2 s i = bandOf 2 [1, 2] i) ∧
    Fl.gt (.fin (1 / 2)) (.fin 0) = true ∧
    ((After (HashSetContainer Nat) 1 (2 * 1) (.fin (1 / 2)) exHash
      [.insert 1 [1, 2], .insert 2 [1, 8], .insert 3 [1, 2], .insert 3 [7, 8]]).query [1, 2]).map HSet.elems = .ok [1] ∧
    ((After (HashSetContainer Nat) (1 * 2) 1 (.fin (1 / 2)) exHash
      [.insert 1 [1, 2], .insert 2 [1, 8], .insert 3 [1, 2], .insert 3 [7, 8]]).query [1, 2]).map HSet.elems =
        .ok [1, 2] := by
  refine ⟨?_, ?_, by decide +kernel, by decide +kernel, by decide +kernel, by decide +kernel⟩
  · intro op hop s hs
    simp at hop
    rcases hop with rfl | rfl | rfl | rfl <;> simp [sigsOf] at hs <;> subst hs <;> rfl
  · intro pre op post e
    rcases pre with _ | ⟨p1, _ | ⟨p2, _ | ⟨p3, pre⟩⟩⟩ <;>
      simp only [List.nil_append, List.cons_append, List.cons.injEq] at e
    · obtain ⟨rfl, -⟩ := e; exact fun _ => rfl
    · obtain ⟨rfl, rfl, -⟩ := e; exact fun _ => rfl
    · obtain ⟨-, -, h⟩ := e; cases h
    · obtain ⟨-, -, h⟩ := e; cases h

/-! ## The Python index -/

/-- C134 for the Python class: `num_bands=b*k, band_size=r` in place of `num_bands=b, band_size=k*r`, everything else
equal. -/
theorem C134_python (env : PyMinEnv) (ahash : (h : HashSize) → List h.T → UInt64) (a : PyMinArgs) (b k r : Nat)
    (hk : 0 < k) (hb : a.numBands = some (b : Int)) (hr : a.bandSize = some ((k * r : Nat) : Int))
    (obj obj' : PyMinObject) (h : PyMinObject.init env ahash a = .ok obj)
    (h' : PyMinObject.init env ahash { a with numBands := some ((b * k : Nat) : Int), bandSize := some (r : Int) } = .ok obj')
    (pops : List PyMinOp) (doc : PyText) (ha : AnalyzerReturns env a (doc :: pops.flatMap pyDocs))
    (o1 o2 o1' o2' : Order) :
    ∃ l l' : List Int64, (obj.index.run env pops).query env o1 o2 doc false = .ok (.ids l) ∧
      (obj'.index.run env pops).query env o1' o2' doc false = .ok (.ids l') ∧
      (∀ id ∈ l, (∃ d, ∃ s q : List obj.hashSize.T, pyLive pops id = some d ∧ SigOf env a (b * (k * r)) d s ∧
        SigOf env a (b * (k * r)) doc q ∧ ∃ i < b, sameBand (k * r) s q i) → id ∈ l') ∧
      (PyClean pops → (∀ id d, ∀ s q : List obj.hashSize.T, pyLive pops id = some d → SigOf env a (b * (k * r)) d s →
        SigOf env a (b * (k * r)) doc q → ∀ i < b,
          ahash obj.hashSize (bandOf (k * r) s i) = ahash obj.hashSize (bandOf (k * r) q i) →
          bandOf (k * r) s i = bandOf (k * r) q i) → ∀ id ∈ l, id ∈ l') := by
  have en : b * k * r = b * (k * r) := Nat.mul_assoc b k r
  have hp : BandParams env a b (k * r) := .inl ⟨_, _, hb, hr, by simp, by rw [Int.toNat_natCast]⟩
  have hp' : BandParams env { a with numBands := some ((b * k : Nat) : Int), bandSize := some (r : Int) } (b * k) r :=
    .inl ⟨_, _, rfl, rfl, by rw [Int.toNat_natCast], by simp⟩
  obtain ⟨_, _, c1, _⟩ := init_native h
  obtain ⟨_, _, c2, _⟩ := init_native h'
  obtain ⟨hs, ck, ix⟩ := obj
  obtain ⟨hs', ck', ix'⟩ := obj'
  have : hs = hs' := Option.some.inj (c1.symm.trans c2)
  subst this
  obtain ⟨l, q, hq, e, _, k1, _, k3⟩ := C80_query env ahash a _ h b (k * r) hp pops doc ha o1 o2
  obtain ⟨l', q', hq', e', _, _, k2', _⟩ := C80_query env ahash _ _ h' (b * k) r hp' pops doc ha o1' o2'
  rw [en] at hq' k2'
  have uq : ∀ d (s1 s2 : List hs.T), SigOf env a (b * (k * r)) d s1 → SigOf env a (b * (k * r)) d s2 → s1 = s2 := by
    intro d s1 s2 x1 x2
    exact Except.ok.inj (((sigOf_iff h hp d s1).mpr x1).symm.trans ((sigOf_iff h hp d s2).mpr x2))
  have uq' : q' = q := uq doc q' q hq' hq
  subst uq'
  have main : ∀ id ∈ l, (∃ d, ∃ s q : List hs.T, pyLive pops id = some d ∧ SigOf env a (b * (k * r)) d s ∧
        SigOf env a (b * (k * r)) doc q ∧ ∃ i < b, sameBand (k * r) s q i) → id ∈ l' := by
    rintro id hid ⟨d, s, q2, x1, x2, x3, i, hi, x4⟩
    rw [uq doc q2 q' x3 hq] at x4
    obtain ⟨d2, s2, v, y1, y2, y3, y4⟩ := k1 id hid
    rw [x1] at y1; cases y1
    rw [← uq d s s2 x2 y2] at y3
    exact k2' id d s v x1 x2 ⟨i * k, Nat.mul_lt_mul_of_pos_right hi hk, sameBand_split hk x4⟩ y3 y4
  refine ⟨l, l', e, e', main, fun hc hcol id hid => main id hid ?_⟩
  obtain ⟨d, s, v, x1, x2, ⟨i, hi, x3⟩, _⟩ := (k3 hc id).mp hid
  exact ⟨d, s, q', x1, x2, hq, i, hi, sameBand_of_bandOf (hcol id d s q' x1 x2 hq i hi x3)⟩

/-- C134 for the Python class: with `band_size=1` and a positive threshold, after every history, `query` returns exactly
the ids whose document has a similar enough signature. -/
theorem C134_python_width_one (env : PyMinEnv) (ahash : (h : HashSize) → List h.T → UInt64) (a : PyMinArgs)
    (obj : PyMinObject) (h : PyMinObject.init env ahash a = .ok obj) (n : Nat) (hp : BandParams env a n 1)
    (hn : n < 2 ^ 64) (ht : Fl.gt a.jaccardThreshold (.fin 0) = true)
    (pops : List PyMinOp) (doc : PyText) (ha : AnalyzerReturns env a (doc :: pops.flatMap pyDocs)) (o1 o2 : Order) :
    ∃ (l : List Int64) (q : List obj.hashSize.T), SigOf env a n doc q ∧
      (obj.index.run env pops).query env o1 o2 doc false = .ok (.ids l) ∧ l.Nodup ∧
      ∀ id, id ∈ l ↔ ∃ d s v, pyLive pops id = some d ∧ SigOf env a n d s ∧ minhashSimilarity s q = .ok v ∧
        Fl.ge v a.jaccardThreshold = true := by
  have hlen : ∀ d (s : List obj.hashSize.T), SigOf env a (n * 1) d s → s.length = n * 1 := by
    obtain ⟨b', r', hp', hrep, _⟩ := init_rep h
    obtain ⟨rfl, rfl⟩ := C68_params_unique env a n 1 b' r' hp hp'
    intro d s hs
    exact PyMinIndex.sig_length hrep.hasher ((sigOf_iff h hp d s).mpr hs)
  obtain ⟨l, q, hq, e, nd, k1, k2, _⟩ := C80_query env ahash a obj h n 1 hp pops doc ha o1 o2
  simp only [Nat.mul_one] at hlen hq k1 k2
  refine ⟨l, q, hq, e, nd, fun id => ⟨k1 id, ?_⟩⟩
  rintro ⟨d, s, v, x1, x2, x3, x4⟩
  have hpos := agree_of_ge hn (hlen d s x2) (hlen doc q hq) ht x3 x4
  unfold agree at hpos
  obtain ⟨i, hi⟩ := Finset.card_pos.mp hpos
  rw [Finset.mem_filter, Finset.mem_range] at hi
  refine k2 id d s v x1 x2 ⟨i, by have := hlen d s x2; omega, fun j h1 h2 => ?_⟩ x3 x4
  have : j = i := by omega
  subst this
  exact hi.2

/-- Arguments with one hash per band. -/
def exArgsWidthOne : PyMinArgs := { exArgs with numBands := some 8, bandSize := some 1 }

/-- The hypotheses of `C134_python` and `C134_python_width_one` are met. -/
example : (∃ obj, PyMinObject.init exPyMinEnv exAhash exArgs = .ok obj) ∧
    (∃ obj, PyMinObject.init exPyMinEnv exAhash exArgsWidthOne = .ok obj) ∧
    exArgs.numBands = some ((4 : Nat) : Int) ∧ exArgs.bandSize = some ((2 * 1 : Nat) : Int) ∧
    { exArgs with numBands := some ((4 * 2 : Nat) : Int), bandSize := some ((1 : Nat) : Int) } = exArgsWidthOne ∧
    BandParams exPyMinEnv exArgsWidthOne 8 1 ∧ Fl.gt exArgsWidthOne.jaccardThreshold (.fin 0) = true ∧
    AnalyzerReturns exPyMinEnv exArgsWidthOne ("a b".toList :: exPyOps.flatMap pyDocs) ∧ PyClean exPyClean := by
  have hfit : exArgsWidthOne.fit := by
    refine ⟨?_, ?_, ?_, ?_⟩
    · intro n h; cases h; exact ⟨by decide, by decide⟩
    · intro n h; cases h; exact ⟨by decide, by decide⟩
    · intro n h; cases h
    · intro p h; cases h
  refine ⟨?_, ?_, rfl, rfl, rfl, .inl ⟨8, 1, rfl, rfl, rfl, rfl⟩, by decide +kernel, trivial, exPyClean_clean⟩
  · exact (C68_accepts_partial exPyMinEnv exAhash exArgs (by decide)).mpr ⟨by decide,
      ⟨1 / 2, by decide +kernel, by decide +kernel, rfl⟩, by decide, exArgs_fit, .inl ⟨by decide, by decide⟩⟩
  · exact (C68_accepts_partial exPyMinEnv exAhash exArgsWidthOne (by decide)).mpr ⟨by decide,
      ⟨1 / 2, by decide +kernel, by decide +kernel, rfl⟩, by decide, hfit, .inl ⟨by decide, by decide⟩⟩

end Verif.Props
