import Verif.Props.HistoryFree
import Verif.Props.SimHashIndex

/-! # Property C130: the ranked queries agree with each other -/
set_option linter.unusedSectionVars false
namespace Verif.Props
open Verif.Spec

/-- A ranking and the ranking of an upward closed part of its elements have the same scores as far as the second
one reaches, and the first one continues with elements outside the part. -/
theorem ranked_prefix {α : Type} (a : α → Nat) (P : α → Prop) (L A : List α) (hL : L.Nodup) (hA : A.Nodup)
    (hm : ∀ x, x ∈ L ↔ x ∈ A ∧ P x) (hup : ∀ x ∈ A, ∀ y ∈ A, a x ≤ a y → P x → P y)
    (hLs : L.Pairwise fun x y => a y ≤ a x) (hAs : A.Pairwise fun x y => a y ≤ a x) :
    ∃ U V, A = U ++ V ∧ U.Perm L ∧ U.map a = L.map a ∧ ∀ x ∈ V, ¬ P x := by
  classical
  have split : ∃ U V, A = U ++ V ∧ (∀ x ∈ U, P x) ∧ ∀ x ∈ V, ¬ P x := by
    clear hm hL hLs hA
    induction A with
    | nil => exact ⟨[], [], rfl, by simp, by simp⟩
    | cons x A ih =>
      rw [List.pairwise_cons] at hAs
      by_cases hx : P x
      · obtain ⟨U, V, e, h1, h2⟩ := ih (fun y hy z hz => hup y (by simp [hy]) z (by simp [hz])) hAs.2
        refine ⟨x :: U, V, by rw [e]; rfl, ?_, h2⟩
        intro y hy
        rcases List.mem_cons.mp hy with rfl | hy
        · exact hx
        · exact h1 y hy
      · refine ⟨[], x :: A, rfl, by simp, ?_⟩
        intro y hy
        rcases List.mem_cons.mp hy with rfl | hy
        · exact hx
        · exact fun hp => hx (hup y (by simp [hy]) x (by simp) (hAs.1 y hy) hp)
  obtain ⟨U, V, rfl, h1, h2⟩ := split
  have hp : U.Perm L := by
    rw [List.perm_ext_iff_of_nodup (List.nodup_append.mp hA).1 hL]
    intro x
    rw [hm, List.mem_append]
    constructor
    · exact fun h => ⟨.inl h, h1 x h⟩
    · rintro ⟨h | h, hx⟩
      · exact h
      · exact absurd hx (h2 x h)
  refine ⟨U, V, rfl, hp, ?_, h2⟩
  refine (hp.map a).eq_of_pairwise (le := fun x y => y ≤ x) (fun x y _ _ h3 h4 => le_antisymm h4 h3) ?_ ?_
  · exact List.pairwise_map.mpr (List.pairwise_append.mp hAs).1
  · exact List.pairwise_map.mpr hLs

section
variable {T Id : Type} [DecidableEq T] [DecidableEq Id]
variable {C : Type} [IdContainer C Id] [LawfulIdContainer C Id]

theorem sim_length {s q : List T} {v : Fl} (h : minhashSimilarity s q = .ok v) : s.length = q.length := by
  unfold minhashSimilarity at h
  split_ifs at h with hh
  exact hh

theorem dist_length {s q : List T} {v : Fl} (h : minhashDistance q s = .ok v) : s.length = q.length := by
  unfold minhashDistance minhashSimilarity at h
  split_ifs at h with hh
  · exact hh.symm
  · cases h

/-- Similarities order as agreement counts. -/
theorem sim_ge_agree {n : Nat} {q s s' : List T} {v v' : Fl} (hq : q.length = n) (h0 : 0 < n) (hn : n < 2 ^ 52)
    (h : minhashSimilarity s q = .ok v) (h' : minhashSimilarity s' q = .ok v') :
    Fl.ge v v' = true ↔ agree q s' ≤ agree q s := by
  obtain ⟨x, y, hx, hy, hxy, _⟩ := C09_similarity_order q s s' n hn h0 hq ((sim_length h).trans hq)
    ((sim_length h').trans hq)
  rw [minhashSimilarity_comm] at h h'
  rw [h] at hx; injection hx with hx
  rw [h'] at hy; injection hy with hy
  rw [hx, hy, ge_fin]
  constructor
  · intro hle
    by_contra hlt
    push Not at hlt
    have := hxy.mp hlt
    linarith
  · intro hle
    by_contra hlt
    push Not at hlt
    have := hxy.mpr hlt
    omega

/-- Distances order against agreement counts. -/
theorem dist_ge_agree {n : Nat} {q s s' : List T} {v v' : Fl} (hq : q.length = n) (h0 : 0 < n) (hn : n < 2 ^ 52)
    (h : minhashDistance q s = .ok v) (h' : minhashDistance q s' = .ok v') :
    Fl.ge v' v = true ↔ agree q s' ≤ agree q s := by
  obtain ⟨x, y, hx, hy, hxy, _⟩ := C09_distance_order q s s' n hn h0 hq ((dist_length h).trans hq)
    ((dist_length h').trans hq)
  rw [h] at hx; injection hx with hx
  rw [h'] at hy; injection hy with hy
  rw [hx, hy, ge_fin]
  constructor
  · intro hle
    by_contra hlt
    push Not at hlt
    have := hxy.mp hlt
    linarith
  · intro hle
    by_contra hlt
    push Not at hlt
    have := hxy.mpr hlt
    omega

theorem fl_ge_trans {a b c : Fl} (h1 : Fl.ge a b = true) (h2 : Fl.ge b c = true) : Fl.ge a c = true := by
  cases a <;> cases b <;> cases c <;> simp [Fl.ge, Fl.cmp] at *
  rename_i a b c
  rcases h1 with h1 | h1
  · rcases h2 with h2 | h2
    · rw [compare_gt_iff_gt] at *; exact .inl (lt_trans h2 h1)
    · subst h2; exact .inl h1
  · subst h1; exact h2

theorem fl_ge_antisymm {a b : Fl} (h1 : Fl.ge a b = true) (h2 : Fl.ge b a = true) : a = b := by
  have := fl_sorted_unique (l := [a, b]) (l' := [b, a]) (List.Perm.swap b a []) (by simpa using h1) (by simpa using h2)
  injection this

/-- C130, after every history: the i-th entry of `query_top_k` and the i-th entry of the query with similarities
agree with the query in equally many positions; `query_top_k` lists `k` entries unless it lists all that the other
query returns; once it is long enough it contains all of these; and what it lists beyond them is below the
threshold. -/
theorem C130_top_k_and_similarity (b r : Nat) (t : Fl) (h : List T → UInt64) (ops : List (Op T Id)) (q : List T)
    (hq : q.length = b * r) (h0 : 0 < b * r) (hn : b * r < 2 ^ 52) (o1 o2 o1' o2' : Order) (k : Nat)
    (l tk : List (Id × Fl)) (hl : (After C b r t h ops).queryOwnedReturnSimilarity o1 o2 q = .ok l)
    (htk : (After C b r t h ops).queryTopK o1' o2' q k = .ok tk) :
    (∀ (i : Nat) (p p' : Id × Fl), l[i]? = some p → tk[i]? = some p' → ∃ s s', live (b * r) ops p.1 = some s ∧
      live (b * r) ops p'.1 = some s' ∧ agree q s = agree q s') ∧
    min k l.length ≤ tk.length ∧
    (l.length ≤ k → ∀ p ∈ l, p.1 ∈ tk.map Prod.fst) ∧
    ∀ (i : Nat) (p : Id × Fl), l.length ≤ i → tk[i]? = some p → ∀ s v, live (b * r) ops p.1 = some s →
      minhashSimilarity s q = .ok v → Fl.ge v t = false := by
  have I := inv_run (C := C) h b r t ops
  obtain ⟨S, e1, e2, e3, e4, e5⟩ := retSim_ok hl
  obtain ⟨S', all, g1, g2, g3, g4, g5⟩ := topK_ok htk
  rw [e1] at g1; cases g1
  rw [I.ht] at e4
  simp only [I.sigs] at e2 e4 g3
  set a : Id → Nat := fun id => ((live (b * r) ops id).map (agree q)).getD 0 with ha
  have hav : ∀ id s, live (b * r) ops id = some s → a id = agree q s := by intro id s hs; simp [ha, hs]
  set P : Id → Prop := fun id => ∃ s v, live (b * r) ops id = some s ∧ minhashSimilarity s q = .ok v ∧
    Fl.ge v t = true with hP
  have hlP : ∀ id, id ∈ l.map Prod.fst ↔ id ∈ all.map Prod.fst ∧ P id := by
    intro id
    rw [g2.mem_iff, List.mem_map]
    constructor
    · rintro ⟨p, hp, rfl⟩
      obtain ⟨f1, s, f2, f3, f4⟩ := (e4 p).mp hp
      exact ⟨f1, s, p.2, f2, f3, f4⟩
    · rintro ⟨f1, s, v, f2, f3, f4⟩
      exact ⟨(id, v), (e4 _).mpr ⟨f1, s, f2, f3, f4⟩, rfl⟩
  have hup : ∀ x ∈ all.map Prod.fst, ∀ y ∈ all.map Prod.fst, a x ≤ a y → P x → P y := by
    rintro x _ y hy hxy ⟨s, v, f1, f2, f3⟩
    obtain ⟨s', v', f4, f5⟩ := e2 y (g2.mem_iff.mp hy)
    rw [hav x s f1, hav y s' f4] at hxy
    exact ⟨s', v', f4, f5, fl_ge_trans ((sim_ge_agree hq h0 hn f5 f2).mpr hxy) f3⟩
  have hls : (l.map Prod.fst).Pairwise fun x y => a y ≤ a x := by
    rw [List.pairwise_map]
    refine List.Pairwise.imp_of_mem ?_ e5
    intro x y hx hy hxy
    obtain ⟨_, s, f2, f3, _⟩ := (e4 x).mp hx
    obtain ⟨_, s', f2', f3', _⟩ := (e4 y).mp hy
    rw [hav _ _ f2, hav _ _ f2']
    exact (sim_ge_agree hq h0 hn f3 f3').mp hxy
  have has : (all.map Prod.fst).Pairwise fun x y => a y ≤ a x := by
    rw [List.pairwise_map]
    refine List.Pairwise.imp_of_mem ?_ g4
    intro x y hx hy hxy
    obtain ⟨s, f2, f3⟩ := g3 x hx
    obtain ⟨s', f2', f3'⟩ := g3 y hy
    rw [hav _ _ f2, hav _ _ f2']
    exact (dist_ge_agree hq h0 hn f3 f3').mp hxy
  obtain ⟨U, V, u1, u2, u3, u4⟩ := ranked_prefix a P _ _ e3 (g2.nodup_iff.mpr S.nodup) hlP hup hls has
  have hlen : U.length = l.length := by have := u2.length_eq; simpa using this
  have hidx : ∀ (i : Nat) (p : Id × Fl), tk[i]? = some p → i < k ∧ (U ++ V)[i]? = some p.1 ∧ p ∈ all := by
    intro i p hp
    rw [g5, List.getElem?_take] at hp
    split_ifs at hp with hi
    refine ⟨hi, ?_, List.mem_of_getElem? hp⟩
    rw [← u1, List.getElem?_map, hp]
    rfl
  refine ⟨?_, ?_, ?_, ?_⟩
  · intro i p p' hp hp'
    obtain ⟨_, s, f2, _⟩ := (e4 p).mp (List.mem_of_getElem? hp)
    obtain ⟨_, hi, hm⟩ := hidx i p' hp'
    obtain ⟨s', f2', _⟩ := g3 p' hm
    refine ⟨s, s', f2, f2', ?_⟩
    have hil : i < U.length := by rw [hlen]; exact (List.getElem?_eq_some_iff.mp hp).1
    rw [List.getElem?_append_left hil] at hi
    have h1 : (U.map a)[i]? = some (a p'.1) := by rw [List.getElem?_map, hi]; rfl
    rw [u3, List.map_map, List.getElem?_map, hp] at h1
    have h2 : a p.1 = a p'.1 := by simpa using h1
    rw [hav _ _ f2, hav _ _ f2'] at h2
    exact h2
  · rw [g5, List.length_take]
    have : all.length = U.length + V.length := by
      have := congrArg List.length u1
      simpa using this
    omega
  · intro hk p hp
    have hpU : p.1 ∈ U := u2.mem_iff.mpr (List.mem_map_of_mem hp)
    rw [g5, List.map_take, u1, List.take_append, List.take_of_length_le (by omega)]
    exact List.mem_append_left _ hpU
  · intro i p hi hp s v hs hv
    obtain ⟨_, hx, _⟩ := hidx i p hp
    rw [List.getElem?_append_right (by omega)] at hx
    have := u4 p.1 (List.mem_of_getElem? hx)
    by_contra hge
    exact this ⟨s, v, hs, hv, by simpa using hge⟩

/-- C130: asking for more neighbours only extends the list of distances; with the same iteration order and the same
choices of the sort it only extends the answer. -/
theorem C130_top_k_extends (b r : Nat) (t : Fl) (h : List T → UInt64) (ops : List (Op T Id)) (q : List T)
    (o1 o2 o1' o2' : Order) (k k' : Nat) (hk : k ≤ k')
    (tk tk' : List (Id × Fl)) (htk : (After C b r t h ops).queryTopK o1 o2 q k = .ok tk)
    (htk' : (After C b r t h ops).queryTopK o1' o2' q k' = .ok tk') :
    tk.map Prod.snd = (tk'.map Prod.snd).take k ∧ (o1 = o1' → o2 = o2' → tk = tk'.take k) := by
  obtain ⟨S, all, g1, g2, g3, g4, g5⟩ := topK_ok htk
  obtain ⟨S', all', f1, f2, f3, f4, f5⟩ := topK_ok htk'
  rw [g1] at f1; cases f1
  constructor
  · have hp : all.Perm all' := by
      rw [List.perm_ext_iff_of_nodup (g2.nodup_iff.mpr S.nodup).of_map (f2.nodup_iff.mpr S.nodup).of_map]
      have key : ∀ (A A' : List (Id × Fl)), (A.map Prod.fst).Perm S.elems → (A'.map Prod.fst).Perm S.elems →
          (∀ p ∈ A, ∃ s, (After C b r t h ops).idSignatures.get? p.1 = some s ∧ minhashDistance q s = .ok p.2) →
          (∀ p ∈ A', ∃ s, (After C b r t h ops).idSignatures.get? p.1 = some s ∧ minhashDistance q s = .ok p.2) →
          ∀ p, p ∈ A → p ∈ A' := by
        intro A A' a1 a2 a3 a4 p hp
        obtain ⟨p', b1, b2⟩ := List.mem_map.mp (a2.mem_iff.mpr (a1.mem_iff.mp (List.mem_map_of_mem hp)))
        obtain ⟨s, c1, c2⟩ := a3 p hp
        obtain ⟨s', c3, c4⟩ := a4 p' b1
        rw [b2, c1] at c3; cases c3
        have c5 := Except.ok.inj (c2.symm.trans c4)
        have : p' = p := Prod.ext b2 c5.symm
        exact this ▸ b1
      exact fun p => ⟨key _ _ g2 f2 g3 f3 p, key _ _ f2 g2 f3 g3 p⟩
    have hd : all.map Prod.snd = all'.map Prod.snd :=
      fl_sorted_unique' (hp.map _) (List.pairwise_map.mpr g4) (List.pairwise_map.mpr f4)
    rw [g5, f5, List.map_take, List.map_take, hd, List.take_take, Nat.min_eq_left hk]
  · rintro rfl rfl
    unfold MinHashIndex.queryTopK at htk htk'
    obtain ⟨S1, a1, a2⟩ := bind_ok htk
    obtain ⟨S2, b1, b2⟩ := bind_ok htk'
    rw [a1] at b1; cases b1
    obtain ⟨r1, a3, a4⟩ := bind_ok a2
    obtain ⟨r2, b3, b4⟩ := bind_ok b2
    rw [a3] at b3; cases b3
    obtain ⟨s1, a5, a6⟩ := bind_ok a4
    obtain ⟨s2, b5, b6⟩ := bind_ok b4
    rw [a5] at b5; cases b5
    have sl : ∀ (A B : List (Id × Fl)) (n : Nat), slice A 0 (min A.length n) = .ok B → B = A.take n := by
      intro A B n hs
      unfold slice at hs
      rw [if_pos (by simp)] at hs
      cases hs
      simp only [List.drop_zero, Nat.sub_zero]
      rcases le_total A.length n with hk | hk
      · rw [min_eq_left hk, List.take_length, List.take_of_length_le hk]
      · rw [min_eq_right hk]
    rw [sl _ _ _ a6, sl _ _ _ b6, List.take_take, Nat.min_eq_left hk]

/-- C130: the answer of `query_one` has the similarity of the first entry of the query with similarities, and agrees
with the query in as many positions as the nearest neighbour. Without an answer, the query with similarities has only
entries exactly at the threshold. -/
theorem C130_query_one (b r : Nat) (t : Fl) (h : List T → UInt64) (ops : List (Op T Id)) (q : List T)
    (hq : q.length = b * r) (h0 : 0 < b * r) (hn : b * r < 2 ^ 52) (o o1 o2 o1' o2' : Order) (k : Nat) (hk : 0 < k)
    (one : Option (Id × Fl)) (l tk : List (Id × Fl)) (hone : (After C b r t h ops).queryOne o q = .ok one)
    (hl : (After C b r t h ops).queryOwnedReturnSimilarity o1 o2 q = .ok l)
    (htk : (After C b r t h ops).queryTopK o1' o2' q k = .ok tk) :
    (∀ id v, one = some (id, v) → l.head?.map Prod.snd = some v ∧
      ∃ p s s', tk.head? = some p ∧ live (b * r) ops id = some s ∧ live (b * r) ops p.1 = some s' ∧
        agree q s = agree q s') ∧
    (one = none → ∀ p ∈ l, Fl.cmp p.2 t = some .eq) := by
  obtain ⟨res, f1, f2, f3, f4⟩ := C23_sorted_query b r t h ops q hq o1 o2 l hl
  have f1' : (After C b r t h ops).query q = .ok res := f1
  obtain ⟨one', g1, g2, g3⟩ := C21_best_match b r t h ops q res f1' o
  rw [hone] at g1; cases g1
  have hin : ∀ p ∈ l, p.1 ∈ res.elems := fun p hp => f2.mem_iff.mp (List.mem_map_of_mem hp)
  constructor
  · rintro id v rfl
    obtain ⟨g4, g5, ⟨s, g6, g7⟩, g8⟩ := g3 id v rfl
    obtain ⟨p, hp, rfl⟩ := List.mem_map.mp (f2.mem_iff.mpr g4)
    cases l with
    | nil => cases hp
    | cons x l =>
      obtain ⟨sx, x1, x2⟩ := f3 x (by simp)
      have hvx : v = x.2 := by
        have h1 := g8 x.1 (hin x (by simp)) sx x.2 x1 x2
        obtain ⟨s', p1, p2⟩ := f3 p hp
        rw [g6] at p1; cases p1
        have h2 : p.2 = v := Except.ok.inj (p2.symm.trans g7)
        rcases List.mem_cons.mp hp with rfl | hp'
        · exact h2.symm
        · have h3 := (List.pairwise_cons.mp f4).1 p hp'
          rw [h2] at h3
          exact fl_ge_antisymm h1 h3
      refine ⟨by rw [hvx]; rfl, ?_⟩
      obtain ⟨c1, c2, _, _⟩ := C130_top_k_and_similarity b r t h ops q hq h0 hn o1 o2 o1' o2' k (x :: l) tk hl htk
      cases tk with
      | nil => rw [List.length_cons, List.length_nil] at c2; omega
      | cons y tk =>
        obtain ⟨s1, s2, d1, d2, d3⟩ := c1 0 x y rfl rfl
        refine ⟨y, s, s2, rfl, g6, d2, ?_⟩
        rw [x1] at d1; cases d1
        rw [← d3]
        subst hvx
        have e1 := sim_ge_agree hq h0 hn g7 x2
        have e2 := sim_ge_agree hq h0 hn x2 g7
        have hself : Fl.ge x.2 x.2 = true := by
          have := g8 x.1 (hin x (by simp)) sx x.2 x1 x2
          exact this
        exact le_antisymm (e2.mp hself) (e1.mp hself)
  · intro hnone p hp
    obtain ⟨s, p1, p2⟩ := f3 p hp
    have h1 := g2.mp hnone p.1 (hin p hp) s p.2 p1 p2
    obtain ⟨s', v', p3, p4, p5⟩ := C16_query b r t h ops q res f1' p.1 (hin p hp)
    rw [p1] at p3; cases p3
    have := Except.ok.inj (p2.symm.trans p4)
    rw [← this] at p5
    revert h1 p5
    unfold Fl.gt Fl.ge
    cases Fl.cmp p.2 t with
    | none => intro _ h; cases h
    | some c => cases c <;> simp

/-- The hypotheses of C130 are met: the three queries return on an index with three documents, one of them
overwritten. -/
example : (∃ l, (After (HashSetContainer Nat) 2 1 (.fin (1 / 2)) exHash
      [.insert 1 [1, 2], .insert 2 [1, 7], .insert 3 [8, 9], .insert 3 [1, 9]]).queryOwnedReturnSimilarity Order.id
        Order.id [1, 2] = .ok l) ∧
    (∀ k, ∃ l, (After (HashSetContainer Nat) 2 1 (.fin (1 / 2)) exHash
      [.insert 1 [1, 2], .insert 2 [1, 7], .insert 3 [8, 9], .insert 3 [1, 9]]).queryTopK Order.id Order.rev [1, 2] k =
        .ok l) ∧
    (After (HashSetContainer Nat) 2 1 (.fin (1 / 2)) exHash
      [.insert 1 [1, 2], .insert 2 [1, 7], .insert 3 [8, 9], .insert 3 [1, 9]]).queryOne Order.id [1, 2] =
        .ok (some (1, .fin 1)) := by
  have h1 : ∀ op ∈ ([.insert 1 [1, 2], .insert 2 [1, 7], .insert 3 [8, 9], .insert 3 [1, 9]] : List (Op Nat Nat)),
      NoRemove op := by
    intro op hop; simp at hop; rcases hop with rfl | rfl | rfl | rfl <;> trivial
  have h2 : RightLengths 2 ([.insert 1 [1, 2], .insert 2 [1, 7], .insert 3 [8, 9], .insert 3 [1, 9]] :
      List (Op Nat Nat)) := by
    intro op hop s hs
    simp at hop
    rcases hop with rfl | rfl | rfl | rfl <;> simp [sigsOf] at hs <;> subst hs <;> rfl
  exact ⟨(C24_no_removal_partial 2 1 _ exHash _ [1, 2] h1 h2 rfl (by decide) (by decide) _ _).1,
    (C24_no_removal_partial 2 1 _ exHash _ [1, 2] h1 h2 rfl (by decide) (by decide) _ _).2, by decide +kernel⟩

end

/-! ### SimHash -/

section
variable {w : Nat} {Id : Type} [DecidableEq Id]

/-- C130 for SimHash: `query_one` and the query with distances return nothing together, and the distance of the one is
that of the first entry of the other. -/
theorem C130_simhash {fuel nb d : Nat} {idx : SimIndex w Id} (h : SimIndex.new fuel w Id nb d = .ok idx)
    (ops : List (SimOp w Id)) (q : BitVec w) (o o1 o2 : Order) :
    ∃ one l, (idx.run ops).queryOne o q = .ok one ∧ (idx.run ops).queryReturnDistance o1 o2 q = .ok l ∧
      one.map Prod.snd = l.head?.map Prod.snd := by
  obtain ⟨s, one, h1, h2, h3, h4⟩ := C53_query_one h ops q o
  obtain ⟨s', l, g1, g2, g3, g4, g5, g6⟩ := C53_query_return_distance h ops q o1 o2
  rw [h1] at g1; cases g1
  refine ⟨one, l, h2, g2, ?_⟩
  have hcomm : ∀ x y : BitVec w, (diffBits x y).card = (diffBits y x).card := by
    intro x y
    congr 1
    unfold diffBits
    congr 1
    funext i
    exact propext ne_comm
  cases one with
  | none =>
    have := h3.mp rfl
    cases l with
    | nil => rfl
    | cons x l =>
      have := (g4 x.1).mp (by simp)
      rw [h3.mp rfl] at this
      cases this
  | some p =>
    obtain ⟨id, dist⟩ := p
    obtain ⟨e1, ⟨sig, e2, e3⟩, e4⟩ := h4 id dist rfl
    obtain ⟨y, hy, hy1⟩ := List.mem_map.mp ((g4 id).mpr e1)
    obtain ⟨sy, y1, y2⟩ := g5 y.1 y.2 hy
    rw [hy1, e2] at y1; cases y1
    cases l with
    | nil => cases hy
    | cons x l =>
      obtain ⟨sx, x1, x2⟩ := g5 x.1 x.2 (by simp)
      have l1 := e4 x.1 ((g4 x.1).mp (by simp)) sx x1
      have l2 : x.2 ≤ y.2 := by
        rcases List.mem_cons.mp hy with rfl | hy'
        · exact le_rfl
        · exact (List.pairwise_cons.mp g6).1 y hy'
      have : dist = x.2 := by
        rw [hcomm] at l1
        rw [hcomm] at e3
        omega
      simp [this]

/-- An index of which both queries return the nearer of two documents. -/
example : (SimIndex.new 64 64 Nat 4 3).toOption.map (fun idx =>
    ((idx.run [.insert 7 0b11#64, .insert 8 0b1#64]).queryOne Order.id 0#64).toOption) = some (some (some (8, 1))) := by
  decide +kernel

end
end Verif.Props
