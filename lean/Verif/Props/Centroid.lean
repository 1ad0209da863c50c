import Verif.Props.Index
import Verif.Lemmas.Centroid

/-!
# Properties C35 and C36: centroids

`Spec.votes l v` counts the occurrences of `v` in `l`; `Spec.bandAgreements` and `Spec.totalAgreements` count the
agreements of a signature with a list of signatures, by band and by position.
-/
set_option linter.unusedSectionVars false
namespace Verif.Props
open Verif.Spec

variable {T Id : Type} [DecidableEq T] [DecidableEq Id]
variable {C : Type} [IdContainer C Id] [LawfulIdContainer C Id]

/-! ## C35 -/

theorem slice_bandOf {r b i : Nat} {s : List T} (hi : i < b) (hs : b * r ≤ s.length) :
    slice s (i * r) ((i + 1) * r) = .ok (bandOf r s i) := by
  have h1 : (i + 1) * r ≤ s.length := le_trans (Nat.mul_le_mul_right _ hi) hs
  unfold slice
  rw [if_pos ⟨Nat.mul_le_mul_right _ (by omega), h1⟩]
  unfold bandOf
  congr 2
  rw [Nat.add_mul]; omega

theorem countBands_eq (b r : Nat) (s : List T) (hs : b * r ≤ s.length) (cs : List (HMap (List T) Nat)) :
    countBands b r cs s = (List.range b).foldlM (fun cs i => bumpAt cs i (bandOf r s i)) cs := by
  unfold countBands
  have : ∀ (l : List Nat), (∀ i ∈ l, i < b) → ∀ cs : List (HMap (List T) Nat),
      (l.foldlM (fun cs i => (do
        let band ← slice s (i * r) ((i + 1) * r)
        bumpAt cs i band : Except Panic _)) cs) = l.foldlM (fun cs i => bumpAt cs i (bandOf r s i)) cs := by
    intro l
    induction l with
    | nil => intros; rfl
    | cons i l ih =>
      intro hl cs
      rw [List.foldlM_cons, List.foldlM_cons, slice_bandOf (hl i (by simp)) hs]
      show (bumpAt cs i (bandOf r s i) >>= _) = (bumpAt cs i (bandOf r s i) >>= _)
      cases bumpAt cs i (bandOf r s i) with
      | error e => rfl
      | ok cs' => exact ih (fun i hi => hl i (by simp [hi])) cs'
  exact this _ (fun i hi => List.mem_range.mp hi) cs

/-- The bands of a concatenation of equally long bands. -/
theorem bandOf_flatten {r : Nat} {vs : List (List T)} (h : ∀ v ∈ vs, v.length = r) {i : Nat} {v : List T}
    (hi : vs[i]? = some v) : bandOf r vs.flatten i = v := by
  induction vs generalizing i with
  | nil => simp at hi
  | cons w vs ih =>
    have hw : w.length = r := h w (by simp)
    cases i with
    | zero =>
      simp at hi; subst hi
      simp [bandOf, ← hw]
    | succ i =>
      have := ih (fun v hv => h v (by simp [hv])) (i := i) (by simpa using hi)
      rw [← this]
      unfold bandOf
      rw [List.flatten_cons, Nat.add_mul, Nat.one_mul, Nat.add_comm (i * r) r, ← List.drop_drop]
      rw [← hw]; simp

theorem length_flatten_of {r : Nat} {vs : List (List T)} (h : ∀ v ∈ vs, v.length = r) :
    vs.flatten.length = vs.length * r := by
  induction vs with
  | nil => simp
  | cons w vs ih =>
    rw [List.flatten_cons, List.length_append, ih (fun v hv => h v (by simp [hv])), h w (by simp),
      List.length_cons, Nat.add_mul]
    omega

theorem bandOf_length {b r i : Nat} {s : List T} (hi : i < b) (hs : b * r ≤ s.length) :
    (bandOf r s i).length = r := by
  have h1 : (i + 1) * r ≤ s.length := le_trans (Nat.mul_le_mul_right _ hi) hs
  rw [Nat.add_mul] at h1
  unfold bandOf
  simp
  omega

/-- C35 for the function on signature lists. -/
theorem band_centroid (o : Nat → Order) (b r : Nat) (sigs : List (List T)) (hs : sigs ≠ [])
    (hl : ∀ s ∈ sigs, b * r ≤ s.length) :
    ∃ c, minhashBandCentroidFromRefs o sigs b r = .ok c ∧ c.length = b * r ∧
      (∀ i < b, (∃ s ∈ sigs, bandOf r s i = bandOf r c i) ∧
        ∀ v, votes (sigs.map fun s => bandOf r s i) v ≤ votes (sigs.map fun s => bandOf r s i) (bandOf r c i)) ∧
      ∀ c' : List T, bandAgreements b r sigs c' ≤ bandAgreements b r sigs c := by
  obtain ⟨cs, h1, h2, h3⟩ := count_loop b (fun s j => bandOf r s j) (countBands b r) sigs (by
    intro cs hcs s hss
    obtain ⟨cs', g1, g2, g3⟩ := bumpAll (fun j => bandOf r s j) b cs (by omega)
    refine ⟨cs', by rw [countBands_eq b r s (hl s hss)]; exact g1, by omega, ?_⟩
    intro j
    rw [g3]
    split_ifs with hj
    · rfl
    · rw [List.getElem?_eq_none (by omega)]; rfl) ((List.range b).map fun _ => HMap.empty) (by simp)
  obtain ⟨vs, g1, g2, g3⟩ := choose_loop o b (fun s j => bandOf r s j) sigs hs cs h2 (by
    intro j hj
    rw [h3]; simp [hj])
  have hlen : ∀ v ∈ vs, v.length = r := by
    intro v hv
    obtain ⟨j, hj, rfl⟩ := List.mem_iff_getElem.mp hv
    obtain ⟨v', e1, e2, _⟩ := g3 j (by omega)
    rw [List.getElem?_eq_getElem hj] at e1
    injection e1 with e1
    rw [e1]
    obtain ⟨s, hs, rfl⟩ := List.mem_map.mp e2
    exact bandOf_length (by omega) (hl s hs)
  have hband : ∀ i < b, (∃ s ∈ sigs, bandOf r s i = bandOf r vs.flatten i) ∧
        ∀ v, votes (sigs.map fun s => bandOf r s i) v ≤
          votes (sigs.map fun s => bandOf r s i) (bandOf r vs.flatten i) := by
    intro i hi
    obtain ⟨v, e1, e2, e3⟩ := g3 i hi
    rw [bandOf_flatten hlen e1]
    exact ⟨List.mem_map.mp e2, e3⟩
  refine ⟨vs.flatten, ?_, ?_, hband, ?_⟩
  · unfold minhashBandCentroidFromRefs
    rw [h1]
    show ((cs.zipIdx.mapM fun p => mostFrequent (o p.2) p.1) >>= _) = _
    rw [g1]; rfl
  · rw [length_flatten_of hlen, g2]
  · intro c'
    exact plurality_optimal b (fun s j => bandOf r s j) sigs (fun i => bandOf r vs.flatten i)
      (fun i => bandOf r c' i) fun j hj => (hband j hj).2 _

/-- C35: when some of the ids is present, the centroid has length `b*r`, each of its bands occurs in a plurality
of the stored signatures of these ids, and no signature agrees with them on more (document, band) pairs. -/
theorem C35_centroid_optimal (b r : Nat) (t : Fl) (h : List T → UInt64) (ops : List (Op T Id)) (ids : List Id)
    (o : Nat → Order) (hp : ∃ id ∈ ids, live (b * r) ops id ≠ none) :
    let sigs := ids.filterMap (live (b * r) ops)
    ∃ c, (After C b r t h ops).calculateCentroid o ids = .ok c ∧ c.length = b * r ∧
      (∀ i < b, (∃ s ∈ sigs, bandOf r s i = bandOf r c i) ∧
        ∀ v, votes (sigs.map fun s => bandOf r s i) v ≤ votes (sigs.map fun s => bandOf r s i) (bandOf r c i)) ∧
      ∀ c' : List T, bandAgreements b r sigs c' ≤ bandAgreements b r sigs c := by
  intro sigs
  have I := inv_run (C := C) h b r t ops
  unfold MinHashIndex.calculateCentroid
  rw [I.hb, I.hr, show (fun id => (After C b r t h ops).idSignatures.get? id) = live (b * r) ops from
    funext I.sigs]
  apply band_centroid
  · obtain ⟨id, h1, h2⟩ := hp
    obtain ⟨s, h3⟩ := Option.ne_none_iff_exists'.mp h2
    exact List.ne_nil_of_mem (List.mem_filterMap.mpr ⟨id, h1, h3⟩)
  · intro s hs
    obtain ⟨id, _, h3⟩ := List.mem_filterMap.mp hs
    exact I.long id s h3

/-- The hypothesis is met: of the four ids two are present. -/
example : ∃ id ∈ [7, 1, 3, 8], live (2 * 1) exOps id ≠ none := ⟨1, by decide, by decide⟩

/-- C35: the call panics iff none of the ids is present and there is at least one band. -/
theorem C35_panics_iff (b r : Nat) (t : Fl) (h : List T → UInt64) (ops : List (Op T Id)) (ids : List Id)
    (o : Nat → Order) :
    (∃ e, (After C b r t h ops).calculateCentroid o ids = .error e) ↔
      (∀ id ∈ ids, live (b * r) ops id = none) ∧ 0 < b := by
  by_cases hp : ∃ id ∈ ids, live (b * r) ops id ≠ none
  · obtain ⟨c, h1, _⟩ := C35_centroid_optimal (C := C) b r t h ops ids o hp
    rw [h1]
    constructor
    · rintro ⟨e, he⟩; cases he
    · rintro ⟨hall, _⟩
      obtain ⟨id, h2, h3⟩ := hp
      exact absurd (hall id h2) h3
  · push Not at hp
    have I := inv_run (C := C) h b r t ops
    unfold MinHashIndex.calculateCentroid
    rw [I.hb, I.hr, show (fun id => (After C b r t h ops).idSignatures.get? id) = live (b * r) ops from
      funext I.sigs]
    have : ids.filterMap (live (b * r) ops) = [] := by
      rw [List.filterMap_eq_nil_iff]; exact hp
    rw [this]
    cases b with
    | zero =>
      constructor
      · rintro ⟨e, he⟩; cases he
      · rintro ⟨_, h0⟩; omega
    | succ b =>
      refine ⟨fun _ => ⟨hp, by omega⟩, fun _ => ⟨.unwrap, ?_⟩⟩
      unfold minhashBandCentroidFromRefs
      rw [List.range_succ_eq_map]
      show (((mostFrequent (o 0) (HMap.empty : HMap (List T) Nat)) >>= _) >>= _) = _
      rw [mostFrequent_empty]
      rfl

/-- The hypothesis of C35 in a history with overwriting and removal; the centroid of three documents. -/
example : (∃ id ∈ [1, 3, 5, 7], live (2 * 1) exOps id ≠ none) ∧
    [1, 3, 5, 7].filterMap (live (2 * 1) exOps) = [[5, 6], [1, 2], [3, 9]] ∧
    (After (HashSetContainer Nat) 2 1 (.fin (1 / 2)) exHash [.insert 1 [1, 2], .insert 2 [3, 2], .insert 3 [3, 4]]).calculateCentroid
      (fun _ => Order.rev) [1, 2, 3, 4] = .ok [3, 2] :=
  ⟨⟨1, by decide, by decide⟩, by decide, by decide +kernel⟩

/-! ## C36 -/

theorem zipIdx_eq_range (x0 : T) (s : List T) :
    s.zipIdx = (List.range s.length).map fun i => (s.getD i x0, i) := by
  apply List.ext_getElem?
  intro i
  by_cases hi : i < s.length
  · simp [hi]
  · rw [List.getElem?_eq_none (by simpa using hi), List.getElem?_eq_none (by simpa using hi)]

theorem agree_eq_range (x0 : T) {n : Nat} {s c : List T} (hs : s.length = n) (hc : c.length = n) :
    agree s c = ((List.range n).filter fun i => s.getD i x0 = c.getD i x0).length := by
  unfold agree
  rw [hs]
  have : (Finset.range n).filter (fun i => s[i]? = c[i]?) =
      ((List.range n).filter fun i => s.getD i x0 = c.getD i x0).toFinset := by
    ext i
    simp only [Finset.mem_filter, Finset.mem_range, List.mem_toFinset, List.mem_filter, List.mem_range,
      decide_eq_true_eq]
    refine and_congr_right fun hi => ?_
    have h1 : i < s.length := by omega
    have h2 : i < c.length := by omega
    simp [h1, h2]
  rw [this, List.toFinset_card_of_nodup (List.nodup_range.filter _)]

theorem votes_map_inj {α β : Type} [DecidableEq α] [DecidableEq β] (f : α → β) (hf : Function.Injective f)
    (l : List α) (v : α) : votes (l.map f) (f v) = votes l v := by
  induction l with
  | nil => rfl
  | cons x l ih => rw [List.map_cons, votes_cons, votes_cons, ih]; simp [hf.eq_iff]

/-- C36: for a non-empty list of signatures of the same length, `minhash_centroid` returns a signature of that
length whose every component is a most frequent value at its position, and no signature agrees with the given
ones at more (signature, position) pairs. -/
theorem C36_centroid (o : Nat → Order) (n : Nat) (sigs : List (List T)) (hs : sigs ≠ [])
    (hl : ∀ s ∈ sigs, s.length = n) :
    ∃ c, minhashCentroid o sigs = .ok c ∧ c.length = n ∧
      (∀ j < n, (∃ s ∈ sigs, s[j]? = c[j]?) ∧
        ∀ w : T, votes (sigs.map fun s => s[j]?) (some w) ≤ votes (sigs.map fun s => s[j]?) c[j]?) ∧
      ∀ c' : List T, c'.length = n → totalAgreements sigs c' ≤ totalAgreements sigs c := by
  obtain ⟨s0, rest, rfl⟩ := List.exists_cons_of_ne_nil hs
  have hs0 := hl s0 (by simp)
  by_cases hn : n = 0
  · subst hn
    have hnil : ∀ s ∈ s0 :: rest, s = [] := fun s h => List.length_eq_zero_iff.mp (hl s h)
    have hcount : ∀ l : List (List T), (∀ s ∈ l, s = []) → ∀ cs : List (HMap T Nat), l.foldlM countSignature cs = .ok cs := by
      intro l
      induction l with
      | nil => intros; rfl
      | cons s l ih =>
        intro h cs
        rw [List.foldlM_cons, h s (by simp)]
        exact ih (fun s hs => h s (by simp [hs])) cs
    refine ⟨[], ?_, rfl, fun j hj => absurd hj (by omega), ?_⟩
    · unfold minhashCentroid
      simp only
      rw [hcount _ hnil, hs0]; rfl
    · intro c' hc'
      rw [List.length_eq_zero_iff.mp hc']
  obtain ⟨x0, _, rfl⟩ := List.exists_cons_of_length_pos (l := s0) (by omega)
  set s0 := x0 :: _ with hs0'
  set sigs := s0 :: rest with hsig
  obtain ⟨cs, h1, h2, h3⟩ := count_loop n (fun s j => s.getD j x0) countSignature sigs (by
    intro cs hcs s hss
    obtain ⟨cs', g1, g2, g3⟩ := bumpAll (fun j => s.getD j x0) n cs (by omega)
    refine ⟨cs', ?_, by omega, ?_⟩
    · unfold countSignature
      rw [zipIdx_eq_range x0, hl s hss, List.foldlM_map]
      exact g1
    · intro j
      rw [g3]
      split_ifs with hj
      · rfl
      · rw [List.getElem?_eq_none (by omega)]; rfl) (List.replicate n HMap.empty) (by simp)
  obtain ⟨vs, g1, g2, g3⟩ := choose_loop o n (fun s j => s.getD j x0) sigs hs cs h2 (by
    intro j hj
    rw [h3]; simp [hj])
  have hmap : ∀ j < n, (sigs.map fun s => s[j]?) = (sigs.map fun s => s.getD j x0).map some := by
    intro j hj
    rw [List.map_map]
    apply List.map_congr_left
    intro s hs
    have : j < s.length := by rw [hl s hs]; exact hj
    simp [this]
  refine ⟨vs, ?_, g2, ?_, ?_⟩
  · unfold minhashCentroid
    rw [hsig]
    simp only
    rw [← hsig, hs0, h1]
    exact g1
  · intro j hj
    obtain ⟨v, e1, e2, e3⟩ := g3 j hj
    rw [e1]
    obtain ⟨s, m1, m2⟩ := List.mem_map.mp e2
    refine ⟨⟨s, m1, ?_⟩, ?_⟩
    · have : j < s.length := by rw [hl s m1]; exact hj
      rw [← m2]; simp [this]
    · intro w
      rw [hmap j hj, votes_map_inj some (Option.some_injective T), votes_map_inj some (Option.some_injective T)]
      exact e3 w
  · intro c' hc'
    unfold totalAgreements
    have hag : ∀ c : List T, c.length = n → (sigs.map fun s => agree s c) =
        sigs.map fun s => ((List.range n).filter fun i => s.getD i x0 = c.getD i x0).length := by
      intro c hc
      exact List.map_congr_left fun s hs => agree_eq_range x0 (hl s hs) hc
    rw [hag c' hc', hag vs g2]
    apply plurality_optimal n (fun s j => s.getD j x0) sigs (fun i => vs.getD i x0) (fun i => c'.getD i x0)
    intro j hj
    obtain ⟨v, e1, _, e3⟩ := g3 j hj
    have : vs.getD j x0 = v := by simp [List.getD, e1]
    rw [this]
    exact e3 _

example : ([[1, 2], [1, 3]] : List (List Nat)) ≠ [] ∧ (∀ s ∈ ([[1, 2], [1, 3]] : List (List Nat)), s.length = 2) ∧
    minhashCentroid (fun _ => Order.id) [[1, 2], [1, 3]] = .ok [1, 2] := by decide +kernel

/-- C36 for `minhash_centroid_from_refs`. -/
theorem C36_centroid_from_refs (o : Nat → Order) (n : Nat) (sigs : List (List T)) (hs : sigs ≠ [])
    (hl : ∀ s ∈ sigs, s.length = n) :
    ∃ c, minhashCentroidFromRefs o sigs = .ok c ∧ c.length = n ∧
      (∀ j < n, (∃ s ∈ sigs, s[j]? = c[j]?) ∧
        ∀ w : T, votes (sigs.map fun s => s[j]?) (some w) ≤ votes (sigs.map fun s => s[j]?) c[j]?) ∧
      ∀ c' : List T, c'.length = n → totalAgreements sigs c' ≤ totalAgreements sigs c :=
  C36_centroid o n sigs hs hl

/-- The hypotheses of C36, a result, and one whose tie is broken by the iteration order. -/
example : (∀ s ∈ [[1, 2, 3], [1, 5, 6], [7, 5, 9]], s.length = 3) ∧
    minhashCentroid (fun _ => Order.id) [[1, 2, 3], [1, 5, 6], [7, 5, 9]] = .ok [1, 5, 3] ∧
    minhashCentroid (fun _ => Order.rev) [[1, 2, 3], [1, 5, 6], [7, 5, 9]] = .ok [1, 5, 9] := by
  decide +kernel

end Verif.Props
