import Verif.Lemmas.ClusterParStep

/-! # Lemmas on parallel clustering: invariants of runs -/
namespace Verif
variable {P : Type} [DecidableEq P] {min N k me : Nat} {sh0 sh sh' : PShared P} {w : PWorker P}

/-! ### Where clusters are -/

/-- After a step, a cluster that exists is held by the worker, freed, returned, or is an older one that the worker did
not hold. -/
theorem pstep_class (nbrs : P → List P) (W : PW min N sh0 me sh w) :
    ∀ c, c < (pstep min nbrs k me sh w).1.heap.length →
      (c < sh.heap.length ∧ w.pc.own ≠ some c ∧
        ((sh.cell c).dropped = true → ((pstep min nbrs k me sh w).1.cell c).dropped = true)) ∨
      (pstep min nbrs k me sh w).2.pc.own = some c ∨ ((pstep min nbrs k me sh w).1.cell c).dropped = true ∨
      ∃ i, .committed i c ∈ (pstep min nbrs k me sh w).1.trace := by
  obtain ⟨pc, todo, out⟩ := w
  intro c hc
  cases pc with
  | next =>
    left
    cases todo with
    | nil => exact ⟨hc, by simp [Pc.own], fun h => h⟩
    | cons p rest =>
      revert hc
      simp only [pstep]
      split_ifs <;> exact fun hc => ⟨hc, by simp [Pc.own], fun h => h⟩
  | filter qs acc =>
    cases qs with
    | nil =>
      revert hc
      simp only [pstep]
      split_ifs
      · intro hc
        rw [heap_alloc] at hc
        by_cases h : c = sh.heap.length
        · right; left; rw [h]; rfl
        · left
          refine ⟨by omega, by simp [Pc.own], ?_⟩
          rw [cell_alloc, if_neg h]
          exact fun h => h
      · exact fun hc => Or.inl ⟨hc, by simp [Pc.own], fun h => h⟩
    | cons q qs =>
      left
      revert hc
      simp only [pstep]
      split_ifs <;> exact fun hc => ⟨hc, by simp [Pc.own], fun h => h⟩
  | check c' rest =>
    by_cases e : c = c'
    · subst e
      right; left
      cases rest with
      | nil => rfl
      | cons p rest => simp only [pstep]; split_ifs <;> rfl
    · left
      cases rest with
      | nil => exact ⟨hc, by simp [Pc.own]; exact fun h => e h.symm, fun h => h⟩
      | cons p rest =>
        revert hc
        simp only [pstep]
        split_ifs <;> exact fun hc => ⟨hc, by simp [Pc.own]; exact fun h => e h.symm, fun h => h⟩
  | undo c' qs p rest =>
    by_cases e : c = c'
    · subst e
      right; left
      cases qs <;> rfl
    · left
      cases qs with
      | nil => exact ⟨hc, by simp [Pc.own]; exact fun h => e h.symm, fun h => h⟩
      | cons q qs =>
        revert hc
        simp only [pstep, heap_unassign, cell_unassign]
        exact fun hc => ⟨hc, by simp [Pc.own]; exact fun h => e h.symm, fun h => h⟩
  | assign c' p rest =>
    have ho := (W.own c' rfl).2.1
    by_cases e : c = c'
    · subst e
      right; left
      simp only [pstep]
      cases sh.readAssign k p <;> rfl
    · left
      revert hc
      simp only [pstep]
      cases sh.readAssign k p with
      | none =>
        simp only [heap_push, heap_setPtr]
        intro hc
        refine ⟨hc, by simp [Pc.own]; exact fun h => e h.symm, ?_⟩
        rw [cell_push _ _ _ _ (by simpa using ho), if_neg e, cell_setPtr]
        exact fun h => h
      | some d => exact fun hc => ⟨hc, by simp [Pc.own]; exact fun h => e h.symm, fun h => h⟩
  | conflict1 c' d p rest =>
    by_cases e : c = c'
    · subst e
      right; left
      simp only [pstep]
      split_ifs <;> rfl
    · left
      revert hc
      simp only [pstep]
      split_ifs <;> simp only [heap_deref, cell_deref] <;>
        exact fun hc => ⟨hc, by simp [Pc.own]; exact fun h => e h.symm, fun h => h⟩
  | conflict2 c' d p rest =>
    by_cases e : c = c'
    · subst e
      right; left
      simp only [pstep]
      split_ifs <;> rfl
    · left
      revert hc
      simp only [pstep]
      split_ifs <;> simp only [heap_log, cell_log, heap_deref, cell_deref] <;>
        exact fun hc => ⟨hc, by simp [Pc.own]; exact fun h => e h.symm, fun h => h⟩
  | conflict3 c' d p rest =>
    by_cases e : c = c'
    · subst e
      right; left
      simp only [pstep]
      split_ifs <;> rfl
    · left
      revert hc
      simp only [pstep]
      split_ifs <;> simp only [heap_deref, cell_deref] <;>
        exact fun hc => ⟨hc, by simp [Pc.own]; exact fun h => e h.symm, fun h => h⟩
  | conflict4 c' d p rest =>
    have ho := (W.own c' rfl).2.1
    have hd := (W.other d rfl).2
    by_cases e : c = c'
    · subst e
      right; left
      simp only [pstep]
      split_ifs <;> rfl
    · left
      revert hc
      simp only [pstep]
      split_ifs
      · simp only [heap_push, heap_log, heap_setState, heap_deref]
        intro hc
        refine ⟨hc, by simp [Pc.own]; exact fun h => e h.symm, ?_⟩
        rw [cell_push _ _ _ _ (by simpa using ho), if_neg e, cell_log, cell_setState _ _ _ _ _ (by simpa using hd)]
        split_ifs with h
        · subst h; simp only [cell_deref]; exact fun h => h
        · rw [cell_deref]; exact fun h => h
      · simp only [heap_deref, cell_deref]
        exact fun hc => ⟨hc, by simp [Pc.own]; exact fun h => e h.symm, fun h => h⟩
  | giveUp c' =>
    have ho := (W.own c' rfl).2.1
    by_cases e : c = c'
    · subst e
      right; left
      simp only [pstep]
      split_ifs <;> rfl
    · left
      revert hc
      simp only [pstep]
      split_ifs
      · simp only [heap_setState]
        intro hc
        refine ⟨hc, by simp [Pc.own]; exact fun h => e h.symm, ?_⟩
        rw [cell_setState _ _ _ _ _ ho, if_neg e]
        exact fun h => h
      · exact fun hc => ⟨hc, by simp [Pc.own]; exact fun h => e h.symm, fun h => h⟩
  | release c' qs =>
    have ho := (W.own c' rfl).2.1
    cases qs with
    | nil =>
      by_cases e : c = c'
      · subst e
        right; right; left
        simp only [pstep]
        rw [cell_free _ _ _ _ ho, if_pos rfl]
      · left
        revert hc
        simp only [pstep, heap_free]
        intro hc
        refine ⟨hc, by simp [Pc.own]; exact fun h => e h.symm, ?_⟩
        rw [cell_free _ _ _ _ ho, if_neg e]
        exact fun h => h
    | cons q qs =>
      by_cases e : c = c'
      · subst e
        right; left
        rfl
      · left
        revert hc
        simp only [pstep, heap_unassign, cell_unassign]
        exact fun hc => ⟨hc, by simp [Pc.own]; exact fun h => e h.symm, fun h => h⟩
  | commit c' =>
    have ho := (W.own c' rfl).2.1
    simp only [pstep] at hc ⊢
    split_ifs at hc ⊢ with h
    · by_cases e : c = c'
      · subst e
        right; right; right
        exact ⟨me, by simp⟩
      · left
        simp only [heap_setState] at hc
        refine ⟨hc, by simp [Pc.own]; exact fun h => e h.symm, ?_⟩
        rw [cell_setState _ _ _ _ _ ho, if_neg e]
        exact fun h => h
    · by_cases e : c = c'
      · subst e
        right; left
        rfl
      · exact Or.inl ⟨hc, by simp [Pc.own]; exact fun h => e h.symm, fun h => h⟩
  | done => exact Or.inl ⟨hc, by simp [Pc.own], fun h => h⟩

/-! ### Which points a worker handles -/

/-- The points that a step can move around. -/
structure PShape (nbrs : P → List P) (sh : PShared P) (w : PWorker P) (r : PShared P × PWorker P) : Prop where
  todo : ∀ p ∈ r.2.todo, p ∈ w.todo
  foreign : ∀ c, c < sh.heap.length → w.pc.own ≠ some c → (r.1.cell c).points = (sh.cell c).points
  fresh : ∀ c, sh.heap.length ≤ c → (r.1.cell c).points = []
  grow : ∀ c, w.pc.own = some c → ∀ q ∈ (r.1.cell c).points, q ∈ (sh.cell c).points ∨ q ∈ w.pc.rest
  own : ∀ c, r.2.pc.own = some c → (w.pc.own = some c ∧ ∀ q ∈ r.2.pc.rest, q ∈ w.pc.rest) ∨
    (c = sh.heap.length ∧ (r.1.cell c).points = [] ∧ ∃ acc, w.pc = .filter [] acc ∧ ∀ q ∈ r.2.pc.rest, q ∈ acc)
  filter : ∀ qs acc, r.2.pc = .filter qs acc → (∃ p ∈ w.todo, acc ++ qs = nbrs p) ∨
    ∃ qs' acc', w.pc = .filter qs' acc' ∧ ∀ q ∈ acc ++ qs, q ∈ acc' ++ qs'
  out : ∀ c ∈ r.2.out, c ∈ w.out ∨ w.pc.own = some c

theorem points_of_ge {c : Nat} (h : sh.heap.length ≤ c) : (sh.cell c).points = [] := by
  unfold PShared.cell
  rw [List.getD_eq_getElem?_getD, List.getElem?_eq_none h]
  rfl

/-- Shape of steps that leave the clusters' points alone. -/
theorem PShape.of_same {nbrs : P → List P} {r : PShared P × PWorker P} (h1 : r.2.todo = w.todo)
    (h2 : ∀ c, (r.1.cell c).points = (sh.cell c).points)
    (h3 : r.2.pc.own = w.pc.own ∨ r.2.pc.own = none) (h4 : ∀ q ∈ r.2.pc.rest, q ∈ w.pc.rest)
    (h5 : ∀ qs acc, r.2.pc ≠ .filter qs acc) (h6 : ∀ c ∈ r.2.out, c ∈ w.out ∨ w.pc.own = some c) :
    PShape nbrs sh w r := by
  refine ⟨by rw [h1]; exact fun p h => h, fun c _ _ => h2 c, fun c h => by rw [h2]; exact points_of_ge h, fun c _ q hq => Or.inl (by rw [← h2]; exact hq), ?_,
    fun qs acc h => absurd h (h5 qs acc), h6⟩
  intro c hc
  rcases h3 with h3 | h3
  · exact Or.inl ⟨by rw [← h3]; exact hc, h4⟩
  · rw [h3] at hc; cases hc

/-- Shape of steps that add one point. -/
theorem PShape.of_add {nbrs : P → List P} {r : PShared P × PWorker P} {c : Nat} {p : P} {rest : List P}
    (hlt : c < sh.heap.length) (hc : w.pc.own = some c) (hr : w.pc.rest = p :: rest) (h1 : r.2 = { w with pc := .check c rest })
    (h2 : ∀ d, d ≠ c → (r.1.cell d).points = (sh.cell d).points)
    (h3 : (r.1.cell c).points = (sh.cell c).points ++ [p]) : PShape nbrs sh w r := by
  refine ⟨by rw [h1]; exact fun p h => h, ?_, ?_, ?_, ?_, ?_, ?_⟩
  · intro d _ hd
    exact h2 d (by rintro rfl; exact hd hc)
  · intro d hd
    rw [h2 d (by omega)]
    exact points_of_ge hd
  · intro d hd q hq
    rw [hc] at hd
    injection hd with hd
    subst hd
    rw [h3, List.mem_append, List.mem_singleton] at hq
    rcases hq with hq | hq
    · exact Or.inl hq
    · exact Or.inr (by rw [hr, hq]; simp)
  · intro d hd
    rw [h1] at hd ⊢
    simp only [Pc.own] at hd
    refine Or.inl ⟨by rw [hc, hd], ?_⟩
    intro q hq
    rw [hr]
    exact List.mem_cons_of_mem _ hq
  · intro qs acc h
    rw [h1] at h
    cases h
  · intro d hd
    rw [h1] at hd
    exact Or.inl hd

theorem points_setState {c v d : Nat} {e : PEvent P} :
    ((sh.setState c v e).cell d).points = (sh.cell d).points := by
  by_cases hc : c < sh.heap.length
  · rw [cell_setState _ _ _ _ _ hc]
    split_ifs with h
    · subst h; rfl
    · rfl
  · unfold PShared.cell PShared.setState
    simp only
    rw [List.modify_eq_self (by omega)]

theorem points_free {c d : Nat} : ((sh.free me c).cell d).points = (sh.cell d).points := by
  by_cases hc : c < sh.heap.length
  · rw [cell_free _ _ _ _ hc]
    split_ifs with h
    · subst h; rfl
    · rfl
  · unfold PShared.cell PShared.free
    simp only
    rw [List.modify_eq_self (by omega)]

theorem pstep_shape (nbrs : P → List P) (W : PW min N sh0 me sh w) :
    PShape nbrs sh w (pstep min nbrs k me sh w) := by
  obtain ⟨pc, todo, out⟩ := w
  cases pc with
  | next =>
    cases todo with
    | nil =>
      exact .of_same rfl (fun _ => rfl) (Or.inl rfl) (by simp [pstep, Pc.rest]) (by simp [pstep])
        fun c h => Or.inl h
    | cons p rest =>
      simp only [pstep]
      split_ifs
      · exact ⟨fun q h => List.mem_cons_of_mem _ h, fun _ _ _ => rfl, fun _ h => points_of_ge h, by simp [Pc.own], by simp [Pc.own], by simp,
          fun c h => Or.inl h⟩
      · refine ⟨fun q h => List.mem_cons_of_mem _ h, fun _ _ _ => rfl, fun _ h => points_of_ge h, by simp [Pc.own], by simp [Pc.own], ?_,
          fun c h => Or.inl h⟩
        intro qs acc h
        injection h with h1 h2
        subst h1; subst h2
        exact Or.inl ⟨p, by simp, rfl⟩
  | filter qs acc =>
    cases qs with
    | nil =>
      simp only [pstep]
      split_ifs
      · refine ⟨fun q h => h, ?_, ?_, by simp [Pc.own], ?_, by simp, fun c h => Or.inl h⟩
        · intro c hc _
          rw [cell_alloc, if_neg (by omega)]
        · intro c hc
          rw [cell_alloc]
          split_ifs
          · rfl
          · exact points_of_ge hc
        · intro c hc
          simp only [Pc.own, Option.some.injEq] at hc
          subst hc
          exact Or.inr ⟨rfl, by rw [cell_alloc, if_pos rfl], acc, rfl, fun q h => h⟩
      · exact .of_same rfl (fun _ => rfl) (Or.inr rfl) (by simp [Pc.rest]) (by simp) fun c h => Or.inl h
    | cons q qs =>
      simp only [pstep]
      split_ifs
      · refine ⟨fun q h => h, fun _ _ _ => rfl, fun _ h => points_of_ge h, by simp [Pc.own], by simp [Pc.own], ?_, fun c h => Or.inl h⟩
        intro qs' acc' h
        injection h with h1 h2
        subst h1; subst h2
        exact Or.inr ⟨q :: qs, acc, rfl, fun x hx => by simpa using hx⟩
      · refine ⟨fun q h => h, fun _ _ _ => rfl, fun _ h => points_of_ge h, by simp [Pc.own], by simp [Pc.own], ?_, fun c h => Or.inl h⟩
        intro qs' acc' h
        injection h with h1 h2
        subst h1; subst h2
        refine Or.inr ⟨q :: qs, acc, rfl, fun x hx => ?_⟩
        rw [List.mem_append] at hx ⊢
        exact hx.imp id (List.mem_cons_of_mem _)
  | check c rest =>
    cases rest with
    | nil =>
      exact .of_same rfl (fun _ => rfl) (Or.inl rfl) (by simp [pstep, Pc.rest]) (by simp [pstep])
        fun c h => Or.inl h
    | cons p rest =>
      simp only [pstep]
      split_ifs <;> exact .of_same rfl (fun _ => rfl) (Or.inl rfl) (by simp [Pc.rest]) (by simp) fun c h => Or.inl h
  | undo c qs p rest =>
    cases qs with
    | nil =>
      exact .of_same rfl (fun _ => rfl) (Or.inl rfl) (by simp [pstep, Pc.rest]) (by simp [pstep])
        fun c h => Or.inl h
    | cons q qs =>
      exact .of_same rfl (fun _ => by simp only [pstep, cell_unassign]) (Or.inl rfl)
        (by simp [pstep, Pc.rest]) (by simp [pstep]) fun c h => Or.inl h
  | assign c p rest =>
    have ho := (W.own c rfl).2.1
    simp only [pstep]
    cases sh.readAssign k p with
    | none =>
      refine .of_add (c := c) (p := p) ho rfl rfl rfl ?_ ?_
      · intro d hd
        simp only
        rw [cell_push _ _ _ _ (by simpa using ho), if_neg hd, cell_setPtr]
      · simp only
        rw [cell_push _ _ _ _ (by simpa using ho), if_pos rfl, cell_setPtr]
    | some d => exact .of_same rfl (fun _ => rfl) (Or.inl rfl) (by simp [Pc.rest]) (by simp) fun c h => Or.inl h
  | conflict1 c d p rest =>
    simp only [pstep]
    split_ifs <;> exact .of_same rfl (fun _ => by simp only [cell_deref]) (Or.inl rfl) (by simp [Pc.rest]) (by simp)
      fun c h => Or.inl h
  | conflict2 c d p rest =>
    simp only [pstep]
    split_ifs <;> exact .of_same rfl (fun _ => by simp only [cell_log, cell_deref]) (Or.inl rfl)
      (by simp [Pc.rest]; try exact fun q h => Or.inr h) (by simp) fun c h => Or.inl h
  | conflict3 c d p rest =>
    simp only [pstep]
    split_ifs <;> exact .of_same rfl (fun _ => by simp only [cell_deref]) (Or.inl rfl) (by simp [Pc.rest]) (by simp)
      fun c h => Or.inl h
  | conflict4 c d p rest =>
    have ho := (W.own c rfl).2.1
    simp only [pstep]
    split_ifs
    · refine .of_add (c := c) (p := p) ho rfl rfl rfl ?_ ?_
      · intro d' hd
        simp only
        rw [cell_push _ _ _ _ (by simpa using ho), if_neg hd, cell_log, points_setState, cell_deref]
      · simp only
        rw [cell_push _ _ _ _ (by simpa using ho), if_pos rfl, cell_log]
        simp only
        rw [points_setState, cell_deref]
    · exact .of_same rfl (fun _ => by simp only [cell_deref]) (Or.inl rfl) (by simp [Pc.rest]) (by simp)
        fun c h => Or.inl h
  | giveUp c =>
    simp only [pstep]
    split_ifs
    · exact .of_same rfl (fun _ => points_setState) (Or.inl rfl) (by simp [Pc.rest]) (by simp) fun c h => Or.inl h
    · exact .of_same rfl (fun _ => rfl) (Or.inl rfl) (by simp [Pc.rest]) (by simp) fun c h => Or.inl h
  | release c qs =>
    cases qs with
    | nil =>
      exact .of_same rfl (fun _ => points_free) (Or.inr rfl) (by simp [pstep, Pc.rest]) (by simp [pstep])
        fun c h => Or.inl h
    | cons q qs =>
      exact .of_same rfl (fun _ => by simp only [pstep, cell_unassign]) (Or.inl rfl)
        (by simp [pstep, Pc.rest]) (by simp [pstep]) fun c h => Or.inl h
  | commit c =>
    simp only [pstep]
    split_ifs
    · refine .of_same rfl (fun _ => points_setState) (Or.inr rfl) (by simp [Pc.rest]) (by simp) fun d h => ?_
      simp only [List.mem_append, List.mem_singleton] at h
      exact h.imp id fun h => by rw [h]; rfl
    · exact .of_same rfl (fun _ => rfl) (Or.inl rfl) (by simp [Pc.rest]) (by simp) fun c h => Or.inl h
  | done => exact .of_same rfl (fun _ => rfl) (Or.inl rfl) (fun q h => h) (by simp [pstep]) fun c h => Or.inl h

/-- All points that a worker handles together are similar to one point of its slice. -/
structure PQ (query : P → HSet P) (slice : List P) (sh : PShared P) (w : PWorker P) : Prop where
  todo : ∀ p ∈ w.todo, p ∈ slice
  filter : ∀ qs acc, w.pc = .filter qs acc → ∃ p ∈ slice, ∀ q ∈ acc ++ qs, q ∈ (query p).elems
  own : ∀ c, w.pc.own = some c → ∃ p ∈ slice, ∀ q, q ∈ (sh.cell c).points ∨ q ∈ w.pc.rest → q ∈ (query p).elems
  out : ∀ c ∈ w.out, ∃ p ∈ slice, ∀ q ∈ (sh.cell c).points, q ∈ (query p).elems

theorem PQ.step {query : P → HSet P} {slice : List P} (o : Order) {r : PShared P × PWorker P}
    (S : PShape (fun p => o.perm (query p).elems) sh w r) (hlen : ∀ c ∈ w.out, c < sh.heap.length) (Q : PQ query slice sh w) : PQ query slice r.1 r.2 := by
  refine ⟨fun p hp => Q.todo p (S.todo p hp), ?_, ?_, ?_⟩
  · intro qs acc h
    rcases S.filter qs acc h with ⟨p, hp, e⟩ | ⟨qs', acc', e, hs⟩
    · refine ⟨p, Q.todo p hp, fun q hq => ?_⟩
      rw [e] at hq
      exact (o.mem_perm _ _).mp hq
    · obtain ⟨p, hp, h⟩ := Q.filter qs' acc' e
      exact ⟨p, hp, fun q hq => h q (hs q hq)⟩
  · intro c hc
    rcases S.own c hc with ⟨h, hr⟩ | ⟨rfl, hp, acc, e, hr⟩
    · obtain ⟨p, hp, hq⟩ := Q.own c h
      refine ⟨p, hp, fun q h' => ?_⟩
      rcases h' with h' | h'
      · exact hq q (S.grow c h q h')
      · exact hq q (Or.inr (hr q h'))
    · obtain ⟨p, hp', h⟩ := Q.filter [] acc e
      refine ⟨p, hp', fun q h' => ?_⟩
      rw [hp] at h'
      rcases h' with h' | h'
      · cases h'
      · exact h q (by simpa using hr q h')
  · intro c hc
    by_cases ho : w.pc.own = some c
    · obtain ⟨p, hp, hq⟩ := Q.own c ho
      exact ⟨p, hp, fun q h => hq q (S.grow c ho q h)⟩
    · have hm := (S.out c hc).resolve_right ho
      obtain ⟨p, hp, hq⟩ := Q.out c hm
      refine ⟨p, hp, ?_⟩
      rw [S.foreign c (hlen c hm) ho]
      exact hq

theorem PQ.of_eff {query : P → HSet P} {slice : List P} {i : Nat} (Q : PQ query slice sh w)
    (W : PW min N sh0 me sh w) (G : PG min sh0 sh) (E : Eff i sh sh') (hi : i ≠ me) : PQ query slice sh' w := by
  refine ⟨Q.todo, Q.filter, ?_, ?_⟩
  · intro c hc
    obtain ⟨_, h2, h3, _⟩ := W.own c hc
    rw [(E.cell c h2 (by rw [h3]; exact hi.symm)).1]
    exact Q.own c hc
  · intro c hc
    obtain ⟨_, h2, h3, _⟩ := G.com me c ((W.out c).mp hc)
    rw [(E.cell c h2 (by rw [h3]; exact hi.symm)).1]
    exact Q.out c hc

/-! ### The invariant of the machine -/

/-- Everything that holds in every reachable state; `slices` are the inputs of the workers. -/
structure PInv (min N : Nat) (query : P → HSet P) (slices : List (List P)) (sh0 : PShared P) (s : PState P) :
    Prop where
  g : PG min sh0 s.shared
  l : PL sh0 s.shared
  w : ∀ (i : Nat) (w : PWorker P), s.workers[i]? = some w → PW min N sh0 i s.shared w
  q : ∀ (i : Nat) (w : PWorker P), s.workers[i]? = some w →
    ∃ slice, slices[i]? = some slice ∧ PQ query slice s.shared w
  cls : ∀ c, sh0.heap.length ≤ c → c < s.shared.heap.length → (s.shared.cell c).dropped = true ∨
    (∃ i, .committed i c ∈ s.shared.trace) ∨ ∃ (i : Nat) (w : PWorker P), s.workers[i]? = some w ∧ w.pc.own = some c
  by_worker : ∀ i c, .committed i c ∈ s.shared.trace → ∃ w : PWorker P, s.workers[i]? = some w

/-- The memory before a call: an earlier pointer leads to an earlier cluster, and nothing happened yet. -/
structure PShared.Fresh (sh0 : PShared P) : Prop where
  ptr : ∀ p d, sh0.ptr.get? p = some d → d < sh0.heap.length
  trace : sh0.trace = []
  past : ∀ p, sh0.past p = []

theorem pinv_start {query : P → HSet P} (h : sh0.Fresh) (slices : List (List P)) :
    PInv min N query slices sh0 (PState.start sh0 slices) := by
  have hno : ∀ e, e ∉ sh0.trace := by rw [h.trace]; simp
  refine ⟨⟨Nat.le_refl _, rfl, ?_, ?_, fun _ _ => rfl, fun _ _ _ => Iff.rfl, ?_, ?_, ?_, ?_, ?_, ?_, fun p _ _ _ => h.past p, ?_, ?_⟩, ?_, ?_, ?_, ?_, ?_⟩
  · intro c h1 h2; exact absurd h2 (Nat.not_lt.mpr h1)
  · intro c h1 h2; exact absurd h2 (Nat.not_lt.mpr h1)
  · intro i c hc; exact absurd hc (hno _)
  · intro i c hc; exact absurd hc (hno _)
  · intro p d hd h1; exact absurd (h.ptr p d hd) (Nat.not_lt.mpr h1)
  · intro c h1 h2; exact absurd h2 (Nat.not_lt.mpr h1)
  · intro i c hc; exact absurd hc (hno _)
  · intro p d hd; change _ ∈ sh0.past p at hd; rw [h.past] at hd; cases hd
  · intro c h1 h2; exact absurd h2 (Nat.not_lt.mpr h1)
  · intro c h1 h2; exact absurd h2 (Nat.not_lt.mpr h1)
  · intro c p h1 h2; exact absurd h2 (Nat.not_lt.mpr h1)
  · intro i w hw
    simp only [PState.start, List.getElem?_map, Option.map_eq_some_iff] at hw
    obtain ⟨slice, _, rfl⟩ := hw
    refine PW.idle (Or.inl rfl) ?_ List.nodup_nil
    intro c
    simp only [List.not_mem_nil, false_iff]
    exact hno _
  · intro i w hw
    simp only [PState.start, List.getElem?_map, Option.map_eq_some_iff] at hw
    obtain ⟨slice, hs, rfl⟩ := hw
    exact ⟨slice, hs, ⟨fun p hp => hp, by simp, by simp [Pc.own], by simp⟩⟩
  · intro c h1 h2; exact absurd h2 (Nat.not_lt.mpr h1)
  · intro i c hc; exact absurd hc (hno _)

/-- What the index answers: no point twice, at most `N` points. -/
theorem nbrs_ok {query : P → HSet P} {p : P} (hN : (query p).elems.length ≤ N) (o : Order) :
    (o.perm (query p).elems).Nodup ∧ (o.perm (query p).elems).length ≤ N := by
  have hp := o.isPerm (query p).elems
  exact ⟨hp.nodup_iff.mpr (query p).nodup, by rw [hp.length_eq]; exact hN⟩

theorem pinv_step {query : P → HSet P} {slices : List (List P)}
    (hN : ∀ slice ∈ slices, ∀ p ∈ slice, (query p).elems.length ≤ N) (ord : Nat → Order) (age : Nat → Nat) {s : PState P}
    (I : PInv min N query slices sh0 s) (i : Nat) : PInv min N query slices sh0 (s.step min query ord age i) := by
  unfold PState.step
  cases hi : s.workers[i]? with
  | none => exact ⟨I.g, I.l, I.w, I.q, I.cls, I.by_worker⟩
  | some w =>
    have hlt : i < s.workers.length := by
      by_contra h
      rw [List.getElem?_eq_none (by omega)] at hi
      cases hi
    have W := I.w i w hi
    obtain ⟨slice, hsl, Q⟩ := I.q i w hi
    have hnb : ∀ p ∈ w.todo, ((ord s.clock).perm (query p).elems).Nodup ∧
        ((ord s.clock).perm (query p).elems).length ≤ N := fun p hp =>
      nbrs_ok (hN slice (List.mem_of_getElem? hsl) p (Q.todo p hp)) _
    have S := stepOk (k := age s.clock) (fun p => (ord s.clock).perm (query p).elems) hnb I.g I.l W
    have C := pstep_class (fun p => (ord s.clock).perm (query p).elems) (k := age s.clock) W
    have T := pstep_shape (fun p => (ord s.clock).perm (query p).elems) (k := age s.clock) W
    have Q' := Q.step (ord s.clock) T fun c hc => (I.g.com i c ((W.out c).mp hc)).2.1
    simp only
    generalize pstep min (fun p => (ord s.clock).perm (query p).elems) (age s.clock) i s.shared w = r at S C T Q'
    refine ⟨S.g, S.l, ?_, ?_, ?_, ?_⟩
    · intro j v hv
      simp only [List.getElem?_set] at hv
      split_ifs at hv with h1
      · subst h1
        injection hv with hv
        subst hv
        exact S.w
      · exact (I.w j v hv).of_eff S.e h1
    · intro j v hv
      simp only [List.getElem?_set] at hv
      split_ifs at hv with h1
      · subst h1
        injection hv with hv
        subst hv
        exact ⟨slice, hsl, Q'⟩
      · obtain ⟨sl, h2, q⟩ := I.q j v hv
        exact ⟨sl, h2, q.of_eff (I.w j v hv) I.g S.e h1⟩
    · intro c h1 h2
      simp only at h2 ⊢
      rcases C c h2 with ⟨a, b, d⟩ | h | h | h
      · rcases I.cls c h1 a with h | ⟨j, h⟩ | ⟨j, v, hv, ho⟩
        · exact Or.inl (d h)
        · obtain ⟨es, hes⟩ := S.e.trace
          exact Or.inr (Or.inl ⟨j, by rw [hes]; exact List.mem_append_left _ h⟩)
        · have hne : j ≠ i := by
            rintro rfl
            rw [hi] at hv
            injection hv with hv
            subst hv
            exact b ho
          exact Or.inr (Or.inr ⟨j, v, by rw [List.getElem?_set_ne hne.symm]; exact hv, ho⟩)
      · exact Or.inr (Or.inr ⟨i, r.2, by rw [List.getElem?_set_self hlt], h⟩)
      · exact Or.inl h
      · exact Or.inr (Or.inl h)
    · intro j c hc
      simp only at hc ⊢
      have hlen : j < s.workers.length := by
        rcases S.e.com j c hc with h | ⟨h, _⟩
        · obtain ⟨v, hv⟩ := I.by_worker j c h
          by_contra hn
          rw [List.getElem?_eq_none (by omega)] at hv
          cases hv
        · rw [h]; exact hlt
      exact ⟨_, List.getElem?_eq_getElem (by simpa using hlen)⟩

theorem pinv_run {query : P → HSet P} {slices : List (List P)}
    (hN : ∀ slice ∈ slices, ∀ p ∈ slice, (query p).elems.length ≤ N) (ord : Nat → Order) (age : Nat → Nat) {s : PState P}
    (I : PInv min N query slices sh0 s) (sched : List Nat) :
    PInv min N query slices sh0 (s.run min query ord age sched) := by
  induction sched generalizing s with
  | nil => exact I
  | cons i is ih => exact ih (pinv_step hN ord age I i)

theorem le_sum_of_mem {l : List Nat} {n : Nat} (h : n ∈ l) : n ≤ l.sum := by
  induction l with
  | nil => cases h
  | cons a l ih =>
    rw [List.sum_cons]
    rcases List.mem_cons.mp h with rfl | h
    · omega
    · have := ih h
      omega

/-- A bound on the number of similar points always exists. -/
theorem exists_bound (query : P → HSet P) (slices : List (List P)) :
    ∃ N, ∀ slice ∈ slices, ∀ p ∈ slice, (query p).elems.length ≤ N := by
  refine ⟨(slices.flatten.map fun p => (query p).elems.length).sum, ?_⟩
  intro slice hs p hp
  exact le_sum_of_mem (List.mem_map.mpr ⟨p, List.mem_flatten.mpr ⟨slice, hs, hp⟩, rfl⟩)

end Verif
