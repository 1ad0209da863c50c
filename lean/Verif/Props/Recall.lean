import Verif.Props.Index
import Mathlib.Data.Finset.Card
import Mathlib.Data.Finset.Image

/-!
# Property C77: guaranteed recall

When few positions differ, some whole band is free of differences, so that the index finds the document for certain.
-/
set_option linter.unusedSectionVars false
namespace Verif.Props
open Verif.Spec

variable {T Id : Type} [DecidableEq T] [DecidableEq Id]
variable {C : Type} [IdContainer C Id] [LawfulIdContainer C Id]

/-- Fewer than `b` differing positions leave one of the `b` bands without a difference. -/
theorem exists_sameBand {b r : Nat} {s q : List T} (hr : 0 < r) (hs : s.length = b * r)
    (h : b * r < agree s q + b) : ∃ i < b, sameBand r s q i := by
  classical
  let D := (Finset.range (b * r)).filter fun j => s[j]? ≠ q[j]?
  have hD : D.card < b := by
    have h1 := Finset.card_filter_add_card_filter_not (s := Finset.range (b * r)) (fun j => s[j]? = q[j]?)
    rw [Finset.card_range] at h1
    have h2 : agree s q = ((Finset.range (b * r)).filter fun j => s[j]? = q[j]?).card := by
      unfold agree; rw [hs]
    have h3 : D.card = ((Finset.range (b * r)).filter fun j => ¬ s[j]? = q[j]?).card := rfl
    omega
  have hcard : (D.image fun j => j / r).card < (Finset.range b).card := by
    rw [Finset.card_range]
    exact lt_of_le_of_lt Finset.card_image_le hD
  obtain ⟨i, hi, hni⟩ := Finset.exists_mem_notMem_of_card_lt_card hcard
  refine ⟨i, Finset.mem_range.mp hi, ?_⟩
  intro j h1 h2
  by_contra hne
  apply hni
  rw [Finset.mem_image]
  have hib := Finset.mem_range.mp hi
  have hj : j < b * r := lt_of_lt_of_le h2 (Nat.mul_le_mul_right r hib)
  refine ⟨j, Finset.mem_filter.mpr ⟨Finset.mem_range.mpr hj, hne⟩, ?_⟩
  exact Nat.div_eq_of_lt_le h1 h2

/-- C77: after every history, a present document whose signature differs from the query in fewer than `num_bands`
positions, and whose similarity reaches the threshold, is returned, whatever the band hash. -/
theorem C77_guaranteed_recall (b r : Nat) (t : Fl) (h : List T → UInt64) (ops : List (Op T Id)) (q : List T)
    (res : HSet Id) (hres : (After C b r t h ops).query q = .ok res ∨ (After C b r t h ops).queryOwned q = .ok res)
    (hr : 0 < r) (id : Id) (s : List T) (v : Fl) (hs : live (b * r) ops id = some s) (hlen : s.length = b * r)
    (hdiff : b * r < agree s q + b) (hv : minhashSimilarity s q = .ok v) (ht : Fl.ge v t = true) :
    id ∈ res.elems :=
  C17_complete b r t h ops q res hres id s v hs (exists_sameBand hr hlen hdiff) hv ht

/-- The hypotheses are met: two bands of two rows, one differing position. -/
example : ((After (HashSetContainer Nat) 2 2 (.fin (1 / 2)) exHash [.insert 1 [1, 2, 3, 4]]).query [1, 2, 3, 9]).map
      HSet.elems = .ok [1] ∧
    live (2 * 2) ([.insert 1 [1, 2, 3, 4]] : List (Op Nat Nat)) 1 = some [1, 2, 3, 4] ∧
    2 * 2 < agree [1, 2, 3, 4] [1, 2, 3, 9] + 2 := by decide +kernel

theorem ge_mono {x y : ℚ} {t : Fl} (hxy : x ≤ y) (h : Fl.ge (.fin x) t = true) : Fl.ge (.fin y) t = true := by
  cases t with
  | nan => exact h
  | ninf => rfl
  | pinf => exact h
  | fin z => rw [ge_fin] at h ⊢; exact h.trans hxy

/-- C77: if the threshold is above the similarity of signatures that differ in `num_bands` positions, the answer is
exact: after every history of signatures of the right length, `query` returns all present documents that reach the
threshold, and no others. -/
theorem C77_exact_search (b r : Nat) (t : Fl) (h : List T → UInt64) (ops : List (Op T Id)) (q : List T)
    (hb : 0 < b) (hr : 0 < r) (hn : b * r ≤ 2 ^ 53) (hl : RightLengths (b * r) ops) (hq : q.length = b * r)
    (ht : Fl.ge (rnd b64 (((b * r - b : Nat) : ℚ) / (b * r : Nat))) t = false) :
    ∃ res, (After C b r t h ops).query q = .ok res ∧ (After C b r t h ops).queryOwned q = .ok res ∧
      ∀ id, id ∈ res.elems ↔ ∃ s v, live (b * r) ops id = some s ∧ minhashSimilarity s q = .ok v ∧
        Fl.ge v t = true := by
  obtain ⟨res, h1, h2⟩ := C17_query_returns (C := C) b r t h ops q hl hq
  refine ⟨res, h1, h2, fun id => ⟨fun hid => C16_query b r t h ops q res h1 id hid, ?_⟩⟩
  rintro ⟨s, v, hs, hv, hge⟩
  have hlen : s.length = q.length := (minhashSimilarity_ok_iff.mp ⟨v, hv⟩)
  have h0 : 0 < b * r := Nat.mul_pos hb hr
  refine C77_guaranteed_recall b r t h ops q res (.inl h1) hr id s v hs (hlen.trans hq) ?_ hv hge
  by_contra hc
  have hbn : b ≤ b * r := Nat.le_mul_of_pos_right b hr
  have ha : agree s q ≤ b * r - b := by omega
  have hsl : s.length = b * r := hlen.trans hq
  rw [minhashSimilarity_eq hlen (by omega) (by omega), hsl] at hv
  have hv' : v = .fin (rndQ b64 ((agree s q : ℚ) / (b * r : Nat))) := (Except.ok.inj hv).symm
  have hn0 : (0 : ℚ) < (b * r : Nat) := by exact_mod_cast h0
  have hle : (agree s q : ℚ) / (b * r : Nat) ≤ ((b * r - b : Nat) : ℚ) / (b * r : Nat) :=
    div_le_div_of_nonneg_right (by exact_mod_cast ha) hn0.le
  have hone : ((b * r - b : Nat) : ℚ) / (b * r : Nat) ≤ 1 := by
    rw [div_le_one hn0]; exact_mod_cast Nat.sub_le _ _
  rw [rnd_of_bounds b64_ok (k := 0) (by positivity) (by simp [b64]) (by simp [b64]) (by simpa using hone)] at ht
  rw [hv'] at hge
  have := ge_mono (rndQ_mono (f := b64) (by simp [b64]) (by positivity) hle) hge
  rw [ht] at this
  cases this

/-- The hypotheses are met with 10 bands of 2 rows and threshold 0.6: an exact similarity search. -/
example : 0 < 10 ∧ 10 * 2 ≤ 2 ^ 53 ∧ Fl.ge (rnd b64 (((10 * 2 - 10 : Nat) : ℚ) / (10 * 2 : Nat))) (.fin (3 / 5)) = false ∧
    RightLengths 20 ([.insert 1 (List.replicate 20 7)] : List (Op Nat Nat)) := by
  refine ⟨by decide, by decide, ?_, ?_⟩
  · rw [show (((10 * 2 - 10 : Nat) : ℚ) / (10 * 2 : Nat)) = 2 ^ (-1 : ℤ) by norm_num,
      rnd_of_bounds b64_ok (k := -1) (by norm_num) (by simp [b64]) (by simp [b64]) (le_refl _),
      rndQ_of_repr (by simp [b64]) (repr_zpow b64_ok (by simp [b64])), Bool.eq_false_iff, Ne, ge_fin]
    norm_num
  · intro op hop s hs
    simp at hop
    subst hop
    simp [sigsOf] at hs
    subst hs
    rfl

/-- The query that has another value at the first position of every band. -/
def spoil (b r : Nat) (x y : T) : List T := (List.replicate b (y :: List.replicate (r - 1) x)).flatten

theorem spoil_length {b r : Nat} (hr : 0 < r) (x y : T) : (spoil b r x y).length = b * r := by
  unfold spoil
  simp only [List.length_flatten, List.map_replicate, List.length_cons, List.length_replicate,
    List.sum_replicate_nat]
  congr 1
  omega

theorem spoil_band {b r i : Nat} (hr : 0 < r) (hi : i < b) (x y : T) :
    bandOf r (spoil b r x y) i = y :: List.replicate (r - 1) x := by
  unfold bandOf spoil
  obtain ⟨k, rfl⟩ : ∃ k, b = i + (k + 1) := ⟨b - i - 1, by omega⟩
  rw [List.replicate_add, List.flatten_append, List.drop_left', List.replicate_succ, List.flatten_cons, List.take_left']
  · simp; omega
  · simp only [List.length_flatten, List.map_replicate, List.length_cons, List.length_replicate,
      List.sum_replicate_nat]
    congr 1
    omega

theorem getElem?_spoil {b r j : Nat} (hr : 0 < r) (hj : j < b * r) (x y : T) :
    (spoil b r x y)[j]? = some (if j % r = 0 then y else x) := by
  have hi : j / r < b := (Nat.div_lt_iff_lt_mul hr).mpr hj
  have h1 := spoil_band hr hi x y
  have hm := Nat.mod_lt j hr
  have h2 : (bandOf r (spoil b r x y) (j / r))[j % r]? = (spoil b r x y)[j]? := by
    unfold bandOf
    rw [List.getElem?_take_of_lt hm, List.getElem?_drop]
    congr 1
    rw [Nat.mul_comm]; exact Nat.div_add_mod j r
  rw [← h2, h1]
  rcases Nat.eq_zero_or_pos (j % r) with hz | hp
  · rw [hz]; rfl
  · rw [if_neg (by omega), List.getElem?_cons, if_neg (by omega), List.getElem?_replicate, if_pos (by omega)]

/-- C77 is optimal: with `num_bands` differing positions (one in each band) a document can be missed, for every shape,
every threshold, and every band hash without collisions. -/
theorem C77_tight (b r : Nat) (t : Fl) (h : List T → UInt64) (hinj : ∀ l l' : List T, l.length = r → l'.length = r →
    h l = h l' → l = l') (hr : 0 < r) (x y : T) (hxy : x ≠ y) (id : Id) :
    ∃ s q res, s.length = b * r ∧ q.length = b * r ∧ agree s q + b = b * r ∧
      (After C b r t h [.insert id s]).query q = .ok res ∧ id ∉ res.elems := by
  classical
  have hs : (List.replicate (b * r) x).length = b * r := List.length_replicate
  have hq := spoil_length (b := b) hr x y
  have hl : RightLengths (b * r) ([.insert id (List.replicate (b * r) x)] : List (Op T Id)) := by
    intro op hop s hs
    simp at hop
    subst hop
    simp [sigsOf] at hs
    subst hs
    simp
  obtain ⟨res, h1, _⟩ := C17_query_returns (C := C) b r t h [.insert id (List.replicate (b * r) x)] (spoil b r x y) hl hq
  refine ⟨_, _, res, hs, hq, ?_, h1, ?_⟩
  · have e1 : agree (List.replicate (b * r) x) (spoil b r x y) =
        ((Finset.range (b * r)).filter fun j => ¬ r ∣ j).card := by
      unfold agree
      rw [hs]
      congr 1
      apply Finset.filter_congr
      intro j hj
      have hj := Finset.mem_range.mp hj
      rw [getElem?_spoil hr hj, List.getElem?_replicate, if_pos hj, Nat.dvd_iff_mod_eq_zero]
      by_cases hz : j % r = 0
      · simp [hz, hxy]
      · simp [hz]
    have e2 : ((Finset.range (b * r)).filter fun j => r ∣ j).card = b := by
      have : (Finset.range (b * r)).filter (fun j => r ∣ j) = (Finset.range b).image fun i => i * r := by
        ext j
        simp only [Finset.mem_filter, Finset.mem_range, Finset.mem_image]
        constructor
        · rintro ⟨hj, k, rfl⟩
          refine ⟨k, ?_, Nat.mul_comm k r⟩
          rw [Nat.mul_comm] at hj
          exact Nat.lt_of_mul_lt_mul_right hj
        · rintro ⟨i, hi, rfl⟩
          exact ⟨Nat.mul_lt_mul_of_pos_right hi hr, Nat.dvd_mul_left r i⟩
      rw [this, Finset.card_image_of_injective _ fun a b hab => Nat.eq_of_mul_eq_mul_right hr hab, Finset.card_range]
    have e3 := Finset.card_filter_add_card_filter_not (s := Finset.range (b * r)) (fun j => r ∣ j)
    rw [Finset.card_range] at e3
    omega
  · intro hid
    have hc : Clean (b * r) ([.insert id (List.replicate (b * r) x)] : List (Op T Id)) := by
      apply clean_of_prefixes
      intro i hi op hop
      have hi' : i = 0 := by simpa using hi
      subst hi'
      simp at hop
      subst hop
      intro _
      rfl
    obtain ⟨s, v, hlive, ⟨i, hi, hk⟩, _⟩ := (C18_exact b r t h _ _ hc res h1 id).mp hid
    have hlive' : s = List.replicate (b * r) x := by
      simp [live, touch] at hlive
      exact hlive.symm
    subst hlive'
    have hx : bandOf r (List.replicate (b * r) x) i = List.replicate r x := by
      unfold bandOf
      rw [List.drop_replicate, List.take_replicate]
      congr 1
      have : (i + 1) * r ≤ b * r := Nat.mul_le_mul_right r hi
      rw [Nat.add_mul, Nat.one_mul] at this
      omega
    rw [hx, spoil_band hr hi] at hk
    have := hinj _ _ (by simp) (by simp; omega) hk
    obtain ⟨k, rfl⟩ : ∃ k, r = k + 1 := ⟨r - 1, by omega⟩
    rw [List.replicate_succ] at this
    exact hxy (List.cons.inj this).1

/-- The hypothesis on the hash is met for bands of one row. -/
example : ∀ l l' : List (Fin 10), l.length = 1 → l'.length = 1 →
    (fun l : List (Fin 10) => UInt64.ofNat (l.headD 0).val) l = (fun l => UInt64.ofNat (l.headD 0).val) l' → l = l' := by
  intro l l' h1 h2 h
  match l, l', h1, h2 with
  | [a], [c], _, _ =>
    revert h
    revert a c
    decide +kernel

end Verif.Props
