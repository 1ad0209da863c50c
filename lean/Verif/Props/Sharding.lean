import Verif.Props.HistoryFree
import Verif.Props.Metric

/-! # Property C124: a collection split over several indexes -/
set_option linter.unusedSectionVars false
namespace Verif.Props
open Verif.Spec

variable {T Id J : Type} [DecidableEq T] [DecidableEq Id] [DecidableEq J]
variable {C C' : Type} [IdContainer C Id] [LawfulIdContainer C Id] [IdContainer C' Id] [LawfulIdContainer C' Id]

/-! ## Merging sorted lists -/

/-- The first `k` of the merged `k`-prefixes are the first `k` of some sorted arrangement of everything. -/
theorem merge_take {α J : Type} (f : α → ℚ) (js : List J) (L : J → List α) (k : Nat) (A M : List α)
    (hL : ∀ j ∈ js, (L j).Pairwise fun a b => f a ≤ f b) (hM : M.Pairwise fun a b => f a ≤ f b)
    (pA : A.Perm (js.flatMap L)) (pM : M.Perm (js.flatMap fun j => (L j).take k)) :
    ∃ N : List α, N.Perm A ∧ N.Pairwise (fun a b => f a ≤ f b) ∧ N.take k = M.take k := by
  have pD : A.Perm (M ++ js.flatMap fun j => (L j).drop k) := by
    refine pA.trans (List.Perm.trans ?_ (pM.symm.append_right _))
    have : (js.flatMap fun j => (L j).take k ++ (L j).drop k).Perm
        ((js.flatMap fun j => (L j).take k) ++ js.flatMap fun j => (L j).drop k) :=
      (List.flatMap_append_perm js _ _).symm
    simpa only [List.take_append_drop] using this
  set D := js.flatMap fun j => (L j).drop k with hD
  have hcross : ∀ x ∈ M.take k, ∀ d ∈ D, f x ≤ f d := by
    intro x hx d hd
    by_contra hlt
    rw [not_le] at hlt
    obtain ⟨i, hi, rfl⟩ := List.mem_iff_getElem.mp hx
    rw [List.length_take] at hi
    rw [List.getElem_take] at hlt
    obtain ⟨j, hj, hdj⟩ := List.mem_flatMap.mp hd
    have h1 : M.countP (fun y => f y ≤ f d) ≤ i := by
      conv_lhs => rw [← List.take_append_drop i M, List.countP_append]
      have h0 : (M.drop i).countP (fun y => f y ≤ f d) = 0 := by
        rw [List.countP_eq_zero]
        intro y hy
        obtain ⟨n, hn, rfl⟩ := List.mem_iff_getElem.mp hy
        rw [List.getElem_drop]
        have : f M[i] ≤ f (M[i + n]'(by rw [List.length_drop] at hn; omega)) := by
          rcases Nat.eq_zero_or_pos n with rfl | hn0
          · exact le_refl _
          · exact List.pairwise_iff_getElem.mp hM i (i + n) (by omega) _ (by omega)
        simp only [decide_eq_true_eq, not_le]
        exact lt_of_lt_of_le hlt this
      rw [h0, Nat.add_zero]
      exact List.countP_le_length.trans (by rw [List.length_take]; omega)
    have h2 : k ≤ M.countP (fun y => f y ≤ f d) := by
      rw [pM.countP_eq]
      have hlen : k < (L j).length := by
        by_contra hk
        rw [List.drop_eq_nil_of_le (by omega)] at hdj
        exact List.not_mem_nil hdj
      have hsub : ((L j).take k).Sublist (js.flatMap fun j => (L j).take k) := by
        rw [List.flatMap_def]
        exact List.sublist_flatten_of_mem (List.mem_map_of_mem hj)
      refine le_trans ?_ (hsub.countP_le)
      have hall : ((L j).take k).countP (fun y => f y ≤ f d) = ((L j).take k).length := by
        rw [List.countP_eq_length]
        intro y hy
        have hp := hL j hj
        rw [← List.take_append_drop k (L j), List.pairwise_append] at hp
        simpa using hp.2.2 y hy d hdj
      rw [hall, List.length_take]; omega
    omega
  refine ⟨M.take k ++ (M.drop k ++ D).mergeSort (fun a b => f a ≤ f b), ?_, ?_, ?_⟩
  · refine List.Perm.trans ?_ pD.symm
    refine ((List.mergeSort_perm _ _).append_left _).trans ?_
    rw [← List.append_assoc, List.take_append_drop]
  · rw [List.pairwise_append]
    refine ⟨hM.sublist (List.take_sublist _ _), ?_, ?_⟩
    · have := List.pairwise_mergeSort (le := fun a b => decide (f a ≤ f b)) (fun a b c => by simpa using le_trans)
        (fun a b => by simpa using le_total (f a) (f b)) (M.drop k ++ D)
      simpa using this
    · intro x hx y hy
      rw [List.mem_mergeSort, List.mem_append] at hy
      rcases hy with hy | hy
      · have hp := hM
        rw [← List.take_append_drop k M, List.pairwise_append] at hp
        exact hp.2.2 x hx y hy
      · exact hcross x hx y hy
  · by_cases hk : k ≤ M.length
    · rw [List.take_append_of_le_length (by rw [List.length_take]; omega), List.take_take, Nat.min_self]
    · have hD0 : D = [] := by
        rw [List.eq_nil_iff_forall_not_mem]
        intro d hd
        obtain ⟨j, hj, hdj⟩ := List.mem_flatMap.mp hd
        have hlen : k < (L j).length := by
          by_contra hk
          rw [List.drop_eq_nil_of_le (by omega)] at hdj
          exact List.not_mem_nil hdj
        have hsub : ((L j).take k).Sublist (js.flatMap fun j => (L j).take k) := by
          rw [List.flatMap_def]
          exact List.sublist_flatten_of_mem (List.mem_map_of_mem hj)
        have := hsub.length_le
        rw [← pM.length_eq, List.length_take] at this
        omega
      rw [hD0, List.drop_eq_nil_of_le (by omega)]
      simp

/-- Lists of pairs keyed by id, distributed over the shards. -/
theorem shard_perm {β : Type} (shard : Id → J) (js : List J) (hj : js.Nodup) (hs : ∀ id, shard id ∈ js)
    (l : List (Id × β)) (L : J → List (Id × β)) (n : (l.map Prod.fst).Nodup)
    (nL : ∀ j, ((L j).map Prod.fst).Nodup) (hm : ∀ j p, p ∈ L j ↔ shard p.1 = j ∧ p ∈ l) :
    l.Perm (js.flatMap L) := by
  rw [List.perm_ext_iff_of_nodup n.of_map]
  · intro p
    rw [List.mem_flatMap]
    constructor
    · intro hp; exact ⟨shard p.1, hs _, (hm _ _).mpr ⟨rfl, hp⟩⟩
    · rintro ⟨j, _, hp⟩; exact ((hm _ _).mp hp).2
  · rw [List.nodup_flatMap]
    refine ⟨fun j _ => (nL j).of_map, hj.imp fun {a b} hab p hpa hpb => ?_⟩
    exact hab ((((hm _ _).mp hpa).1).symm.trans ((hm _ _).mp hpb).1)

/-! ## The property -/

/-- The documents of the one index are distributed over the shards, and the band hash of each shard separates the bands of
its documents from those of the query exactly when the band hash of the one index does. -/
structure Sharded (b r : Nat) (h : List T → UInt64) (hs : J → List T → UInt64) (shard : Id → J) (js : List J)
    (ops : List (Op T Id)) (sops : J → List (Op T Id)) (q : List T) : Prop where
  nodup : js.Nodup
  cover : ∀ id, shard id ∈ js
  content : ∀ j id, live (b * r) (sops j) id = if shard id = j then live (b * r) ops id else none
  keys : ∀ id s, live (b * r) ops id = some s → ∀ i < b,
    (h (bandOf r s i) = h (bandOf r q i) ↔ hs (shard id) (bandOf r s i) = hs (shard id) (bandOf r q i))

/-- Hash functions that do not send different bands to the same value satisfy the last condition. -/
theorem Sharded.of_injective {b r : Nat} {h : List T → UInt64} {hs : J → List T → UInt64} {shard : Id → J} {js : List J}
    {ops : List (Op T Id)} {sops : J → List (Op T Id)} {q : List T} (nd : js.Nodup) (cov : ∀ id, shard id ∈ js)
    (content : ∀ j id, live (b * r) (sops j) id = if shard id = j then live (b * r) ops id else none)
    (hh : ∀ id s, live (b * r) ops id = some s → ∀ i < b, h (bandOf r s i) = h (bandOf r q i) →
      bandOf r s i = bandOf r q i)
    (hhs : ∀ id s, live (b * r) ops id = some s → ∀ i < b,
      hs (shard id) (bandOf r s i) = hs (shard id) (bandOf r q i) → bandOf r s i = bandOf r q i) :
    Sharded b r h hs shard js ops sops q :=
  ⟨nd, cov, content, fun id s hL i hi => ⟨fun e => by rw [hh id s hL i hi e], fun e => by rw [hhs id s hL i hi e]⟩⟩

section
variable {b r : Nat} {t : Fl} {h : List T → UInt64} {hs : J → List T → UInt64} {shard : Id → J} {js : List J}
  {ops : List (Op T Id)} {sops : J → List (Op T Id)} {q : List T}

/-- The documents considered by a shard are those considered by the one index that belong to the shard. -/
theorem Sharded.candidate (H : Sharded b r h hs shard js ops sops q) (j : J) (id : Id) :
    (∃ s, live (b * r) (sops j) id = some s ∧ ∃ i < b, hs j (bandOf r s i) = hs j (bandOf r q i)) ↔
      shard id = j ∧ ∃ s, live (b * r) ops id = some s ∧ ∃ i < b, h (bandOf r s i) = h (bandOf r q i) := by
  rw [H.content]
  by_cases hj : shard id = j
  · rw [if_pos hj]
    subst hj
    constructor
    · rintro ⟨s, e, i, hi, hk⟩; exact ⟨rfl, s, e, i, hi, (H.keys id s e i hi).mpr hk⟩
    · rintro ⟨-, s, e, i, hi, hk⟩; exact ⟨s, e, i, hi, (H.keys id s e i hi).mp hk⟩
  · rw [if_neg hj]
    simp [hj]

/-- C124: an id is returned by a shard iff it belongs to the shard and the one index returns it. -/
theorem C124_query_partial (H : Sharded b r h hs shard js ops sops q)
    (hc : Clean (b * r) ops) (hcs : ∀ j, Clean (b * r) (sops j)) (hl : RightLengths (b * r) ops)
    (hls : ∀ j, RightLengths (b * r) (sops j)) (hq : q.length = b * r) :
    ∃ (res : HSet Id) (ress : J → HSet Id), (After C b r t h ops).queryOwned q = .ok res ∧
      (∀ j, (After C' b r t (hs j) (sops j)).queryOwned q = .ok (ress j)) ∧
      (∀ j id, id ∈ (ress j).elems ↔ shard id = j ∧ id ∈ res.elems) ∧
      res.elems.Perm (js.flatMap fun j => (ress j).elems) := by
  obtain ⟨res, e1, e2⟩ := C17_query_returns (C := C) b r t h ops q hl hq
  choose ress f1 f2 using fun j => C17_query_returns (C := C') b r t (hs j) (sops j) q (hls j) hq
  have hm : ∀ j id, id ∈ (ress j).elems ↔ shard id = j ∧ id ∈ res.elems := by
    intro j id
    have hcand := H.candidate j id
    rw [C18_exact b r t h ops q hc res e1, C18_exact b r t (hs j) (sops j) q (hcs j) (ress j) (f1 j)]
    constructor
    · rintro ⟨s, v, a1, a2, a3, a4⟩
      obtain ⟨g1, s', g2, g3⟩ := hcand.mp ⟨s, a1, a2⟩
      rw [H.content, if_pos g1, g2] at a1
      cases a1
      exact ⟨g1, s, v, g2, g3, a3, a4⟩
    · rintro ⟨g1, s, v, a1, a2, a3, a4⟩
      obtain ⟨s', g2, g3⟩ := hcand.mpr ⟨g1, s, a1, a2⟩
      have g2' := g2
      rw [H.content, if_pos g1, a1] at g2'
      cases g2'
      exact ⟨s, v, g2, g3, a3, a4⟩
  refine ⟨res, ress, e2, f2, hm, ?_⟩
  rw [List.perm_ext_iff_of_nodup res.nodup]
  · intro id
    rw [List.mem_flatMap]
    exact ⟨fun hid => ⟨shard id, H.cover id, (hm _ _).mpr ⟨rfl, hid⟩⟩, fun ⟨j, _, hid⟩ => ((hm j id).mp hid).2⟩
  · rw [List.nodup_flatMap]
    refine ⟨fun j _ => (ress j).nodup, H.nodup.imp fun {a b} hab id ha hb => ?_⟩
    exact hab ((((hm _ _).mp ha).1).symm.trans ((hm _ _).mp hb).1)

/-- C124: the pairs returned with similarities by the shards are together those returned by the one index, and after
sorting them by similarity the sequence of similarities is the same. -/
theorem C124_similarity_partial (H : Sharded b r h hs shard js ops sops q)
    (hc : Clean (b * r) ops) (hcs : ∀ j, Clean (b * r) (sops j)) (hl : RightLengths (b * r) ops)
    (hls : ∀ j, RightLengths (b * r) (sops j)) (hq : q.length = b * r) (h0 : 0 < b * r) (hn : b * r < 2 ^ 52)
    (o1 o2 : Order) (os1 os2 : J → Order) :
    ∃ (l : List (Id × Fl)) (ls : J → List (Id × Fl)),
      (After C b r t h ops).queryOwnedReturnSimilarity o1 o2 q = .ok l ∧
      (∀ j, (After C' b r t (hs j) (sops j)).queryOwnedReturnSimilarity (os1 j) (os2 j) q = .ok (ls j)) ∧
      l.Perm (js.flatMap ls) ∧
      ∀ m : List (Id × Fl), m.Perm (js.flatMap ls) → m.Pairwise (fun x y => Fl.ge x.2 y.2 = true) →
        m.map Prod.snd = l.map Prod.snd := by
  obtain ⟨l, e⟩ := (C24_clean_partial (C := C) b r t h ops q hc hl hq h0 hn o1 o2).1
  choose ls es using fun j => (C24_clean_partial (C := C') b r t (hs j) (sops j) q (hcs j) (hls j) hq h0 hn
    (os1 j) (os2 j)).1
  have I := inv_run (C := C) h b r t ops
  obtain ⟨S, h1, h2, h3, h4, h5⟩ := retSim_ok e
  obtain ⟨_, _, hS, hSm⟩ := candidates_ok I q hq
  rw [h1] at hS; cases hS
  have hp : l.Perm (js.flatMap ls) := by
    refine shard_perm shard js H.nodup H.cover l ls h3 (fun j => (retSim_ok (es j)).choose_spec.2.2.1) ?_
    intro j p
    have Ij := inv_run (C := C') (hs j) b r t (sops j)
    obtain ⟨Sj, g1, g2, g3, g4, g5⟩ := retSim_ok (es j)
    obtain ⟨_, _, hSj, hSmj⟩ := candidates_ok Ij q hq
    rw [g1] at hSj; cases hSj
    rw [h4, g4, hSm, hSmj, candidate_exact I (exact_run h b r t ops hc) q,
      candidate_exact Ij (exact_run (hs j) b r t (sops j) (hcs j)) q, I.sigs, Ij.sigs, I.ht, Ij.ht, H.candidate]
    constructor
    · rintro ⟨⟨a1, a2⟩, a3⟩
      rw [H.content, if_pos a1] at a3
      exact ⟨a1, a2, a3⟩
    · rintro ⟨a1, a2, a3⟩
      refine ⟨⟨a1, a2⟩, ?_⟩
      rw [H.content, if_pos a1]; exact a3
  refine ⟨l, ls, e, es, hp, fun m hm hms => ?_⟩
  exact fl_sorted_unique ((hm.trans hp.symm).map _) (List.pairwise_map.mpr hms) (List.pairwise_map.mpr h5)

/-- The number in a distance. -/
def distQ : Fl → ℚ
  | .fin x => x
  | _ => 0

theorem ge_distQ {x y : Fl} (hx : ∃ a, x = .fin a) (hy : ∃ a, y = .fin a) (h : Fl.ge y x = true) :
    distQ x ≤ distQ y := by
  obtain ⟨a, rfl⟩ := hx
  obtain ⟨c, rfl⟩ := hy
  simp [Fl.ge, Fl.cmp, distQ] at h ⊢
  rcases h with h | h
  · rw [compare_gt_iff_gt] at h; exact h.le
  · exact h.ge

theorem ge_of_distQ {x y : Fl} (hx : ∃ a, x = .fin a) (hy : ∃ a, y = .fin a) (h : distQ x ≤ distQ y) :
    Fl.ge y x = true := by
  obtain ⟨a, rfl⟩ := hx
  obtain ⟨c, rfl⟩ := hy
  simp only [distQ] at h
  simp only [Fl.ge, Fl.cmp]
  rcases lt_or_eq_of_le h with h | h
  · rw [compare_gt_iff_gt.mpr h]; rfl
  · subst h; simp

/-- C124: the `k` nearest of the merged `k` nearest of the shards have the distances of the `k` nearest of the one
index; the documents are the same except for ties at the last distance; with fewer than `k` results they are the same. -/
theorem C124_top_k_partial (H : Sharded b r h hs shard js ops sops q)
    (hc : Clean (b * r) ops) (hcs : ∀ j, Clean (b * r) (sops j)) (hl : RightLengths (b * r) ops)
    (hls : ∀ j, RightLengths (b * r) (sops j)) (hq : q.length = b * r) (h0 : 0 < b * r) (hn : b * r < 2 ^ 52)
    (o1 o2 : Order) (os1 os2 : J → Order) (k : Nat) :
    ∃ (l : List (Id × Fl)) (ls : J → List (Id × Fl)),
      (After C b r t h ops).queryTopK o1 o2 q k = .ok l ∧
      (∀ j, (After C' b r t (hs j) (sops j)).queryTopK (os1 j) (os2 j) q k = .ok (ls j)) ∧
      ∀ m : List (Id × Fl), m.Perm (js.flatMap ls) → m.Pairwise (fun x y => Fl.ge y.2 x.2 = true) →
        (m.take k).map Prod.snd = l.map Prod.snd ∧ (l.length < k → (m.take k).Perm l) ∧
        ∀ p ∈ l, ∀ x ∈ l, Fl.gt x.2 p.2 = true → p ∈ m.take k := by
  obtain ⟨l, e⟩ := (C24_clean_partial (C := C) b r t h ops q hc hl hq h0 hn o1 o2).2 k
  choose ls es using fun j => (C24_clean_partial (C := C') b r t (hs j) (sops j) q (hcs j) (hls j) hq h0 hn
    (os1 j) (os2 j)).2 k
  refine ⟨l, ls, e, es, fun m hm hms => ?_⟩
  have I := inv_run (C := C) h b r t ops
  have Ij := fun j => inv_run (C := C') (hs j) b r t (sops j)
  obtain ⟨S, all, h1, h2, h3, h4, h5⟩ := topK_ok e
  choose Ss alls g1 g2 g3 g4 g5 using fun j => topK_ok (es j)
  obtain ⟨_, _, hS, hSm⟩ := candidates_ok I q hq
  rw [h1] at hS; cases hS
  have hSj : ∀ j id, id ∈ (Ss j).elems ↔ shard id = j ∧ id ∈ S.elems := by
    intro j id
    obtain ⟨_, _, hS', hSm'⟩ := candidates_ok (Ij j) q hq
    rw [g1 j] at hS'; cases hS'
    rw [hSm, hSm', candidate_exact I (exact_run h b r t ops hc) q,
      candidate_exact (Ij j) (exact_run (hs j) b r t (sops j) (hcs j)) q, H.candidate]
  have n1 : (all.map Prod.fst).Nodup := h2.nodup_iff.mpr S.nodup
  have n2 : ∀ j, ((alls j).map Prod.fst).Nodup := fun j => (g2 j).nodup_iff.mpr (Ss j).nodup
  have hfin : ∀ p ∈ all, ∃ a, p.2 = .fin a := by
    intro p hp
    obtain ⟨s, a1, a2⟩ := h3 p hp
    rw [I.sigs] at a1
    have hsl : s.length = b * r := rightLengths_live hl _ _ a1
    rw [minhashDistance_eq (hq.trans hsl.symm) (hq ▸ h0) (by rw [hq]; omega)] at a2
    exact ⟨_, (Except.ok.inj a2).symm⟩
  have hpart : ∀ j p, p ∈ alls j ↔ shard p.1 = j ∧ p ∈ all := by
    intro j p
    constructor
    · intro hp
      obtain ⟨s, a1, a2⟩ := g3 j p hp
      obtain ⟨b1, b2⟩ := (hSj j p.1).mp ((g2 j).mem_iff.mp (List.mem_map_of_mem hp))
      obtain ⟨p', c1, c2⟩ := List.mem_map.mp (h2.mem_iff.mpr b2)
      obtain ⟨s', d1, d2⟩ := h3 p' c1
      rw [(Ij j).sigs, H.content, if_pos b1] at a1
      rw [I.sigs, c2, a1] at d1; cases d1
      have d3 := Except.ok.inj (a2.symm.trans d2)
      have : p' = p := Prod.ext c2 d3.symm
      exact ⟨b1, this ▸ c1⟩
    · rintro ⟨b1, hp⟩
      obtain ⟨s, a1, a2⟩ := h3 p hp
      have b2 := (hSj j p.1).mpr ⟨b1, h2.mem_iff.mp (List.mem_map_of_mem hp)⟩
      obtain ⟨p', c1, c2⟩ := List.mem_map.mp ((g2 j).mem_iff.mpr b2)
      obtain ⟨s', d1, d2⟩ := g3 j p' c1
      rw [I.sigs] at a1
      rw [(Ij j).sigs, c2, H.content, if_pos b1, a1] at d1; cases d1
      have d3 := Except.ok.inj (a2.symm.trans d2)
      have : p' = p := Prod.ext c2 d3.symm
      exact this ▸ c1
  have pA : all.Perm (js.flatMap alls) := shard_perm shard js H.nodup H.cover all alls n1 n2 hpart
  have hls' : ls = fun j => (alls j).take k := funext g5
  rw [hls'] at hm
  have hfinm : ∀ p ∈ m, ∃ a, p.2 = .fin a := by
    intro p hp
    obtain ⟨j, _, hpj⟩ := List.mem_flatMap.mp (hm.mem_iff.mp hp)
    exact hfin p ((hpart j p).mp (List.mem_of_mem_take hpj)).2
  obtain ⟨N, N1, N2, N3⟩ := merge_take (fun p : Id × Fl => distQ p.2) js alls k all m
    (fun j _ => List.Pairwise.imp_of_mem (fun ha hb hab =>
      ge_distQ (hfin _ ((hpart j _).mp ha).2) (hfin _ ((hpart j _).mp hb).2) hab) (g4 j))
    (List.Pairwise.imp_of_mem (fun ha hb hab => ge_distQ (hfinm _ ha) (hfinm _ hb) hab) hms) pA hm
  have N2' : N.Pairwise (fun x y => Fl.ge y.2 x.2 = true) := by
    rw [List.pairwise_iff_getElem] at N2 ⊢
    intro i j hi hj hij
    exact ge_of_distQ (hfin _ (N1.mem_iff.mp (List.getElem_mem hi))) (hfin _ (N1.mem_iff.mp (List.getElem_mem hj)))
      (N2 i j hi hj hij)
  have hd : N.map Prod.snd = all.map Prod.snd :=
    fl_sorted_unique' (N1.map _) (List.pairwise_map.mpr N2') (List.pairwise_map.mpr h4)
  rw [← N3]
  refine ⟨?_, ?_, ?_⟩
  · rw [h5, List.map_take, List.map_take, hd]
  · intro hk
    rw [h5] at hk
    have hk1 : all.length ≤ k := by rw [List.length_take] at hk; omega
    rw [h5, List.take_of_length_le hk1, List.take_of_length_le (N1.length_eq ▸ hk1)]
    exact N1
  · intro p hpl x hx hgt
    rw [h5] at hpl hx
    have hpa := N1.mem_iff.mpr (List.mem_of_mem_take hpl)
    rw [← List.take_append_drop k N, List.mem_append] at hpa
    rcases hpa with hpa | hpa
    · exact hpa
    · exfalso
      have hx' : x.2 ∈ (N.take k).map Prod.snd := by
        rw [List.map_take, hd, ← List.map_take]; exact List.mem_map_of_mem hx
      obtain ⟨y, hy, hyx⟩ := List.mem_map.mp hx'
      rw [← List.take_append_drop k N, List.pairwise_append] at N2'
      have h6 := N2'.2.2 y hy p hpa
      rw [hyx] at h6
      generalize x.2 = u at *
      generalize p.2 = v at *
      cases u <;> cases v <;> simp [Fl.gt, Fl.ge, Fl.cmp] at hgt h6
      rename_i a b
      rw [compare_gt_iff_gt] at hgt
      rcases h6 with h6 | h6
      · rw [compare_gt_iff_gt] at h6; exact lt_asymm hgt h6
      · rw [h6] at hgt; exact lt_irrefl _ hgt

end

/-- C124: the sizes of the shards add up to the size of the one index. -/
theorem C124_size (b r : Nat) (t : Fl) (h : List T → UInt64) (hs : J → List T → UInt64) (shard : Id → J)
    (js : List J) (nd : js.Nodup) (cov : ∀ id, shard id ∈ js) (ops : List (Op T Id)) (sops : J → List (Op T Id))
    (content : ∀ j id, live (b * r) (sops j) id = if shard id = j then live (b * r) ops id else none) :
    (After C b r t h ops).size = (js.map fun j => (After C' b r t (hs j) (sops j)).size).sum := by
  have I := inv_run (C := C) h b r t ops
  have Ij := fun j => inv_run (C := C') (hs j) b r t (sops j)
  have hp : (After C b r t h ops).idSignatures.keys.Perm
      (js.flatMap fun j => (After C' b r t (hs j) (sops j)).idSignatures.keys) := by
    have hm : ∀ j id, id ∈ (After C' b r t (hs j) (sops j)).idSignatures.keys ↔
        shard id = j ∧ id ∈ (After C b r t h ops).idSignatures.keys := by
      intro j id
      rw [HMap.mem_keys_iff, HMap.mem_keys_iff]
      simp only [I.sigs, (Ij j).sigs, content]
      by_cases hj : shard id = j <;> simp [hj]
    rw [List.perm_ext_iff_of_nodup (HMap.keys_nodup _)]
    · intro id
      rw [List.mem_flatMap]
      exact ⟨fun hid => ⟨shard id, cov id, (hm _ _).mpr ⟨rfl, hid⟩⟩, fun ⟨j, _, hid⟩ => ((hm j id).mp hid).2⟩
    · rw [List.nodup_flatMap]
      refine ⟨fun j _ => HMap.keys_nodup _, nd.imp fun {a b} hab id ha hb => ?_⟩
      exact hab ((((hm _ _).mp ha).1).symm.trans ((hm _ _).mp hb).1)
  unfold MinHashIndex.size
  simp only [HMap.len_eq_keys]
  rw [hp.length_eq, List.length_flatMap]

/-- A band hash that sends every band to the same value. -/
def exConst (_ : List Nat) : UInt64 := 0

/-- C124: without the condition on the band hashes the claim is false. The same document is returned by an index whose band
hash collides and not by one whose band hash does not. -/
theorem C124_seed_false :
    ∃ (h h' : List Nat → UInt64) (ops : List (Op Nat Nat)) (q : List Nat) (res res' : HSet Nat),
      Clean (1 * 2) ops ∧ RightLengths (1 * 2) ops ∧ q.length = 1 * 2 ∧
      (After (HashSetContainer Nat) 1 2 (.fin (1 / 2)) h ops).queryOwned q = .ok res ∧
      (After (HashSetContainer Nat) 1 2 (.fin (1 / 2)) h' ops).queryOwned q = .ok res' ∧
      res.elems = [1] ∧ res'.elems = [] := by
  have hc : Clean (1 * 2) ([.insert 1 [5, 6], .insert 2 [3, 4]] : List (Op Nat Nat)) := exDirect_clean
  have hl : RightLengths (1 * 2) ([.insert 1 [5, 6], .insert 2 [3, 4]] : List (Op Nat Nat)) := by
    simp [RightLengths, sigsOf]
  obtain ⟨res, _, e⟩ := C17_query_returns (C := HashSetContainer Nat) 1 2 (.fin (1 / 2)) exConst _ [5, 7] hl rfl
  obtain ⟨res', _, e'⟩ := C17_query_returns (C := HashSetContainer Nat) 1 2 (.fin (1 / 2)) exHash _ [5, 7] hl rfl
  have k1 : ((After (HashSetContainer Nat) 1 2 (.fin (1 / 2)) exConst
    [.insert 1 [5, 6], .insert 2 [3, 4]]).queryOwned [5, 7]).map HSet.elems = .ok [1] := by decide +kernel
  have k2 : ((After (HashSetContainer Nat) 1 2 (.fin (1 / 2)) exHash
    [.insert 1 [5, 6], .insert 2 [3, 4]]).queryOwned [5, 7]).map HSet.elems = .ok [] := by decide +kernel
  rw [e] at k1
  rw [e'] at k2
  exact ⟨exConst, exHash, _, [5, 7], res, res', hc, hl, rfl, e, e', Except.ok.inj k1, Except.ok.inj k2⟩

/-- The even ids go to shard 0, the odd ids to shard 1. -/
def exShard (id : Nat) : Fin 2 := if id % 2 = 0 then 0 else 1

/-- The histories of the two shards. -/
def exShardOps (j : Fin 2) : List (Op Nat Nat) := if j = 0 then [.insert 2 [3, 4]] else [.insert 1 [5, 6]]

/-- The hypotheses of C124 are met: two documents, two shards with different band hashes. -/
theorem exSharded : Sharded 2 1 exHash (fun j l => if j = 0 then exHash l else exHash l + 1) exShard [0, 1] exDirect
    exShardOps [5, 4] := by
  refine ⟨by decide, fun id => ?_, fun j id => ?_, fun id s _ i _ => ?_⟩
  · unfold exShard; split <;> simp
  · by_cases h1 : id = 1
    · subst h1; revert j; decide
    by_cases h2 : id = 2
    · subst h2; revert j; decide
    have h1' : ¬ 1 = id := fun e => h1 e.symm
    have h2' : ¬ 2 = id := fun e => h2 e.symm
    have e1 : live (2 * 1) exDirect id = none := by simp [live, touch, exDirect, h1', h2']
    have e2 : live (2 * 1) (exShardOps j) id = none := by
      unfold exShardOps; split <;> simp [live, touch, h1', h2']
    rw [e1, e2]; simp
  · by_cases hj : exShard id = 0 <;> simp [hj]

example : Clean (2 * 1) exDirect ∧ (∀ j, Clean (2 * 1) (exShardOps j)) ∧ RightLengths (2 * 1) exDirect ∧
    (∀ j, RightLengths (2 * 1) (exShardOps j)) ∧ [5, 4].length = 2 * 1 ∧
    ((After (VecContainer Nat) 2 1 (.fin (1 / 2)) exHash exDirect).queryOwned [5, 4]).map HSet.elems =
      .ok [2, 1] ∧
    ((After (VecContainer Nat) 2 1 (.fin (1 / 2)) exHash (exShardOps 1)).queryOwned [5, 4]).map HSet.elems =
      .ok [1] := by
  refine ⟨exDirect_clean, fun j => ?_, ?_, fun j => ?_, rfl, by decide +kernel, by decide +kernel⟩
  · apply clean_of_prefixes
    intro i hi op hop
    have hi' : i < 1 := by revert hi; unfold exShardOps; split <;> exact id
    interval_cases i
    unfold exShardOps at hop ⊢
    split at hop <;> simp at hop <;> subst hop <;> simp [cleanCall] <;> decide
  · simp [RightLengths, exDirect, sigsOf]
  · unfold exShardOps; split <;> simp [RightLengths, sigsOf]

end Verif.Props
