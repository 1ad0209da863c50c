import Verif.Lemmas.ClusterPar

/-! # Lemmas on parallel clustering: one step preserves the invariant -/
namespace Verif
variable {P : Type} [DecidableEq P] {min N k me : Nat} {sh0 sh sh' : PShared P} {w : PWorker P}

/-! ### Points of live clusters -/

/-- The points of a cluster that is still new, or returned, point to it, unless they were taken from a competitor. -/
def PL (sh0 sh : PShared P) : Prop :=
  ∀ c p, sh0.heap.length ≤ c → c < sh.heap.length → ((sh.cell c).state = 0 ∨ ∃ i, .committed i c ∈ sh.trace) →
    p ∈ (sh.cell c).points → sh.ptr.get? p = some c ∨ ∃ i d, .stolen i c p d ∈ sh.trace

theorem PL.mono (L : PL sh0 sh) (ht : ∀ e ∈ sh.trace, e ∈ sh'.trace)
    (h : ∀ c p, sh0.heap.length ≤ c → c < sh'.heap.length →
      ((sh'.cell c).state = 0 ∨ ∃ i, .committed i c ∈ sh'.trace) → p ∈ (sh'.cell c).points →
      (c < sh.heap.length ∧ ((sh.cell c).state = 0 ∨ ∃ i, .committed i c ∈ sh.trace) ∧ p ∈ (sh.cell c).points ∧
        (sh.ptr.get? p = some c → sh'.ptr.get? p = some c)) ∨ sh'.ptr.get? p = some c ∨
        ∃ i d, .stolen i c p d ∈ sh'.trace) : PL sh0 sh' := by
  intro c p h1 h2 h3 h4
  rcases h c p h1 h2 h3 h4 with ⟨a, b, d, e⟩ | h
  · rcases L c p h1 a b d with h | ⟨i, j, h⟩
    · exact Or.inl (e h)
    · exact Or.inr ⟨i, j, ht _ h⟩
  · exact h

/-! ### What one worker can do to the others -/

/-- The effect of moves of worker `me` on the memory, as far as other workers can tell. -/
structure Eff (me : Nat) (sh sh' : PShared P) : Prop where
  len : sh.heap.length ≤ sh'.heap.length
  owner : ∀ c, c < sh.heap.length → (sh'.cell c).owner = (sh.cell c).owner
  cell : ∀ c, c < sh.heap.length → (sh.cell c).owner ≠ me →
    (sh'.cell c).points = (sh.cell c).points ∧ (sh'.cell c).dropped = (sh.cell c).dropped
  st : ∀ c, c < sh.heap.length → (sh.cell c).state = 1 → (sh'.cell c).state = 1
  com : ∀ j c, .committed j c ∈ sh'.trace → .committed j c ∈ sh.trace ∨ (j = me ∧ c < sh'.heap.length ∧ (sh'.cell c).owner = me)
  trace : ∃ es, sh'.trace = sh.trace ++ es
  ptr : ∀ p c, c < sh.heap.length → (sh.cell c).owner ≠ me → sh'.ptr.get? p = some c → sh.ptr.get? p = some c

theorem Eff.of_same (hh : sh'.heap = sh.heap) (ht : ∃ es, sh'.trace = sh.trace ++ es ∧ ∀ i c, .committed i c ∉ es)
    (hp : ∀ p c, sh'.ptr.get? p = some c → sh.ptr.get? p = some c) : Eff me sh sh' := by
  have hc : ∀ c, sh'.cell c = sh.cell c := fun c => by unfold PShared.cell; rw [hh]
  obtain ⟨es, ht, hn⟩ := ht
  refine ⟨by rw [hh], fun c _ => by rw [hc], fun c _ _ => by rw [hc]; exact ⟨rfl, rfl⟩, fun c _ h => by rw [hc]; exact h,
    ?_, ⟨es, ht⟩, fun p c _ _ h => hp p c h⟩
  intro j c h
  rw [ht, List.mem_append] at h
  rcases h with h | h
  · exact Or.inl h
  · exact absurd h (hn j c)

theorem Eff.refl (me : Nat) (sh : PShared P) : Eff me sh sh :=
  Eff.of_same rfl ⟨[], by simp, by simp⟩ fun _ _ h => h

theorem Eff.trans {sh'' : PShared P} (h1 : Eff me sh sh') (h2 : Eff me sh' sh'') : Eff me sh sh'' := by
  have hl := h1.len
  refine ⟨Nat.le_trans h1.len h2.len, ?_, ?_, ?_, ?_, ?_, ?_⟩
  · intro c hc; rw [h2.owner c (by omega), h1.owner c hc]
  · intro c hc ho
    have a := h1.cell c hc ho
    have b := h2.cell c (by omega) (by rw [h1.owner c hc]; exact ho)
    exact ⟨b.1.trans a.1, b.2.trans a.2⟩
  · intro c hc hs; exact h2.st c (by omega) (h1.st c hc hs)
  · intro j c h
    rcases h2.com j c h with h | h
    · rcases h1.com j c h with h' | ⟨h', hc, ho⟩
      · exact Or.inl h'
      · have := h2.len
        exact Or.inr ⟨h', by omega, by rw [h2.owner c hc]; exact ho⟩
    · exact Or.inr h
  · obtain ⟨a, ha⟩ := h1.trace
    obtain ⟨b, hb⟩ := h2.trace
    exact ⟨a ++ b, by rw [hb, ha, List.append_assoc]⟩
  · intro p c hc ho h
    exact h1.ptr p c hc ho (h2.ptr p c (by omega) (by rw [h1.owner c hc]; exact ho) h)

theorem Eff.log (e : PEvent P) (he : ∀ i c, e ≠ .committed i c) : Eff me sh (sh.log e) :=
  Eff.of_same rfl ⟨[e], rfl, fun i c h => he i c (List.mem_singleton.mp h).symm⟩ fun _ _ h => h

theorem Eff.deref (d : Nat) : Eff me sh (sh.deref me d) := by
  rcases deref_cases sh me d with h | h
  · rw [h]; exact Eff.refl _ _
  · rw [h.1]; exact Eff.log _ (by simp)

theorem Eff.unassign (c : Nat) (p : P) : Eff me sh (sh.unassign c p) := by
  refine Eff.of_same ?_ ⟨[], by simp, by simp⟩ ?_
  · unfold PShared.unassign; split_ifs <;> rfl
  · intro q d h
    rw [ptr_unassign] at h
    split_ifs at h
    exact h

theorem Eff.alloc : Eff me sh (sh.alloc me) := by
  have hc : ∀ c, c < sh.heap.length → (sh.alloc me).cell c = sh.cell c := by
    intro c hc
    rw [cell_alloc, if_neg (by omega)]
  refine ⟨by simp, fun c h => by rw [hc c h], fun c h _ => by rw [hc c h]; exact ⟨rfl, rfl⟩,
    fun c h hs => by rw [hc c h]; exact hs, fun j c h => Or.inl h, ⟨[], by simp⟩, fun p c _ _ h => h⟩

theorem Eff.push {c : Nat} {p : P} (hc : c < sh.heap.length) (ho : (sh.cell c).owner = me) :
    Eff me sh (sh.push c p) := by
  refine ⟨by simp, ?_, ?_, ?_, fun j d h => Or.inl h, ⟨[], by simp⟩, fun p c _ _ h => h⟩
  · intro d _
    rw [cell_push _ _ _ _ hc]
    split_ifs with h
    · subst h; rfl
    · rfl
  · intro d _ hne
    rw [cell_push _ _ _ _ hc, if_neg (by rintro rfl; exact hne ho)]
    exact ⟨rfl, rfl⟩
  · intro d _ hs
    rw [cell_push _ _ _ _ hc]
    split_ifs with h
    · subst h; exact hs
    · exact hs

theorem Eff.assign {c : Nat} {p : P} (hc : c < sh.heap.length) (ho : (sh.cell c).owner = me) :
    Eff me sh ((sh.setPtr p c).push c p) := by
  have e := Eff.push (p := p) hc ho
  refine ⟨e.len, e.owner, e.cell, e.st, e.com, e.trace, ?_⟩
  intro q d _ hne h
  rw [ptr_push, ptr_setPtr] at h
  split_ifs at h
  · injection h with h
    subst h
    exact absurd ho hne
  · exact h

theorem Eff.setState {c : Nat} {e : PEvent P} (hc : c < sh.heap.length)
    (he : ∀ j d, e = .committed j d → j = me ∧ d = c ∧ (sh.cell c).owner = me) : Eff me sh (sh.setState c 1 e) := by
  refine ⟨by simp, ?_, ?_, ?_, ?_, ⟨[e], rfl⟩, fun p c _ _ h => h⟩
  · intro d _
    rw [cell_setState _ _ _ _ _ hc]
    split_ifs with h
    · subst h; rfl
    · rfl
  · intro d _ _
    rw [cell_setState _ _ _ _ _ hc]
    split_ifs with h
    · subst h; exact ⟨rfl, rfl⟩
    · exact ⟨rfl, rfl⟩
  · intro d _ hs
    rw [cell_setState _ _ _ _ _ hc]
    split_ifs with h
    · rfl
    · exact hs
  · intro j d h
    rw [trace_setState, List.mem_append, List.mem_singleton] at h
    rcases h with h | h
    · exact Or.inl h
    · obtain ⟨a, b, o⟩ := he j d h.symm
      subst b
      refine Or.inr ⟨a, by simpa using hc, ?_⟩
      rw [cell_setState _ _ _ _ _ hc, if_pos rfl]
      exact o

theorem Eff.free {c : Nat} (hc : c < sh.heap.length) (ho : (sh.cell c).owner = me) : Eff me sh (sh.free me c) := by
  refine ⟨by simp, ?_, ?_, ?_, ?_, ⟨[.freed me c], rfl⟩, fun p c _ _ h => h⟩
  · intro d _
    rw [cell_free _ _ _ _ hc]
    split_ifs with h
    · subst h; rfl
    · rfl
  · intro d _ hne
    rw [cell_free _ _ _ _ hc, if_neg (by rintro rfl; exact hne ho)]
    exact ⟨rfl, rfl⟩
  · intro d _ hs
    rw [cell_free _ _ _ _ hc]
    split_ifs with h
    · subst h; exact hs
    · exact hs
  · intro j d h
    rw [trace_free, List.mem_append, List.mem_singleton] at h
    rcases h with h | h
    · exact Or.inl h
    · cases h

/-! ### The invariant of a worker -/

/-- The points that passed the filter and are not assigned yet. -/
def Pc.kept : Pc P → List P
  | .filter _ acc => acc
  | pc => pc.rest

/-- Facts about worker `me` that hold in every reachable state; `N` bounds the number of similar points. -/
structure PW (min N : Nat) (sh0 : PShared P) (me : Nat) (sh : PShared P) (w : PWorker P) : Prop where
  own : ∀ c, w.pc.own = some c → sh0.heap.length ≤ c ∧ c < sh.heap.length ∧ (sh.cell c).owner = me ∧
    (sh.cell c).dropped = false ∧ ∀ i, .committed i c ∉ sh.trace
  other : ∀ d, w.pc.other = some d → sh0.heap.length ≤ d ∧ d < sh.heap.length
  fresh : ∀ p ∈ w.pc.kept, ∀ d, d < sh0.heap.length → sh0.ptr.get? p ≠ some d
  nodup : w.pc.rest.Nodup
  apart : ∀ c, w.pc.own = some c → ∀ p ∈ w.pc.rest, p ∉ (sh.cell c).points
  undo : ∀ c todo p rest, w.pc = .undo c todo p rest → (sh.cell c).state = 1
  rel : ∀ c todo, w.pc = .release c todo → (sh.cell c).state = 1 ∧ ∀ p, sh.ptr.get? p = some c → p ∈ todo
  out : ∀ c, c ∈ w.out ↔ .committed me c ∈ sh.trace
  outnd : w.out.Nodup
  size : ∀ c, w.pc.building = some c → min ≤ (sh.cell c).points.length + w.pc.rest.length + skips sh c
  bound : w.pc.rest.length ≤ N
  bound' : ∀ c, w.pc.own = some c → (sh.cell c).points.length + w.pc.rest.length ≤ N

/-- Moves of another worker preserve it. -/
theorem PW.of_eff {i : Nat} (W : PW min N sh0 me sh w) (E : Eff i sh sh') (hi : i ≠ me) : PW min N sh0 me sh' w := by
  have hl := E.len
  have hcell : ∀ c, w.pc.own = some c → (sh'.cell c).points = (sh.cell c).points ∧
      (sh'.cell c).dropped = (sh.cell c).dropped ∧ (sh'.cell c).owner = me := by
    intro c hc
    obtain ⟨a, b, o, _⟩ := W.own c hc
    obtain ⟨e1, e2⟩ := E.cell c b (by rw [o]; exact fun h => hi h.symm)
    exact ⟨e1, e2, by rw [E.owner c b, o]⟩
  obtain ⟨es, hes⟩ := E.trace
  refine ⟨?_, ?_, W.fresh, W.nodup, ?_, ?_, ?_, ?_, W.outnd, ?_, W.bound, ?_⟩
  · intro c hc
    obtain ⟨a, b, o, d, nc⟩ := W.own c hc
    obtain ⟨e1, e2, e3⟩ := hcell c hc
    refine ⟨a, by omega, e3, by rw [e2, d], ?_⟩
    intro j hj
    rcases E.com j c hj with h | ⟨_, _, h⟩
    · exact nc j h
    · rw [e3] at h; exact hi h.symm
  · intro d hd
    have := W.other d hd
    exact ⟨this.1, by omega⟩
  · intro c hc
    rw [(hcell c hc).1]
    exact W.apart c hc
  · intro c todo p rest h
    exact E.st c (W.own c (by rw [h]; rfl)).2.1 (W.undo c todo p rest h)
  · intro c todo h
    have ho := W.own c (by rw [h]; rfl)
    obtain ⟨r1, r2⟩ := W.rel c todo h
    refine ⟨E.st c ho.2.1 r1, ?_⟩
    intro p hp
    exact r2 p (E.ptr p c ho.2.1 (by rw [ho.2.2.1]; exact fun h => hi h.symm) hp)
  · intro c
    rw [W.out]
    constructor
    · intro h; rw [hes]; exact List.mem_append_left _ h
    · intro h
      rcases E.com me c h with h | ⟨h, _⟩
      · exact h
      · exact absurd h.symm hi
  · intro c hc
    have := W.size c hc
    rw [(hcell c (Pc.own_of_building hc)).1, skips_append sh sh' c es hes]
    omega
  · intro c hc
    rw [(hcell c hc).1]
    exact W.bound' c hc

/-! ### Preservation by the moves of the worker itself -/

theorem PL.of_same (L : PL sh0 sh) (hh : sh'.heap = sh.heap)
    (ht : ∃ es, sh'.trace = sh.trace ++ es ∧ ∀ i c, .committed i c ∉ es)
    (hp : ∀ p c, sh.ptr.get? p = some c → (sh.cell c).state = 0 ∨ (∃ i, .committed i c ∈ sh.trace) →
      sh'.ptr.get? p = some c) : PL sh0 sh' := by
  have hc : ∀ c, sh'.cell c = sh.cell c := fun c => by unfold PShared.cell; rw [hh]
  obtain ⟨es, ht, hn⟩ := ht
  have tc : ∀ i c, PEvent.committed i c ∈ sh'.trace → PEvent.committed i c ∈ sh.trace := by
    intro i c h
    rw [ht, List.mem_append] at h
    rcases h with h | h
    · exact h
    · exact absurd h (hn i c)
  refine L.mono (fun e he => by rw [ht]; exact List.mem_append_left _ he) ?_
  intro c p h1 h2 h3 h4
  rw [hh] at h2
  rw [hc] at h3 h4
  have hl : (sh.cell c).state = 0 ∨ ∃ i, .committed i c ∈ sh.trace := by
    rcases h3 with h | ⟨i, h⟩
    · exact Or.inl h
    · exact Or.inr ⟨i, tc i c h⟩
  exact Or.inl ⟨h2, hl, h4, fun h => hp p c h hl⟩

theorem PL.log (L : PL sh0 sh) (e : PEvent P) (he : ∀ i c, e ≠ .committed i c) : PL sh0 (sh.log e) :=
  L.of_same rfl ⟨[e], rfl, fun i c h => he i c (List.mem_singleton.mp h).symm⟩ fun _ _ h _ => h

theorem PL.deref (L : PL sh0 sh) (d : Nat) : PL sh0 (sh.deref me d) := by
  rcases deref_cases sh me d with h | h
  · rw [h]; exact L
  · rw [h.1]; exact L.log _ (by simp)

theorem PL.unassign (L : PL sh0 sh) {c : Nat} (p : P) (h1 : (sh.cell c).state = 1)
    (h2 : ∀ i, .committed i c ∉ sh.trace) : PL sh0 (sh.unassign c p) := by
  refine L.of_same ?_ ⟨[], by simp, by simp⟩ ?_
  · unfold PShared.unassign; split_ifs <;> rfl
  · intro q d h hl
    rw [ptr_unassign, if_neg]
    · exact h
    · rintro ⟨rfl, e⟩
      rw [e] at h
      injection h with h
      subst h
      rcases hl with hl | ⟨i, hl⟩
      · rw [h1] at hl; cases hl
      · exact h2 i hl

theorem PL.alloc (L : PL sh0 sh) : PL sh0 (sh.alloc me) := by
  refine L.mono (fun e he => he) ?_
  intro c p h1 h2 h3 h4
  rw [heap_alloc] at h2
  rw [cell_alloc] at h3 h4
  split_ifs at h3 h4 with h
  · simp at h4
  · exact Or.inl ⟨by omega, h3, h4, fun h => h⟩

/-- A point is added that points to the cluster or was taken from a competitor. -/
theorem PL.add (L : PL sh0 sh) {c : Nat} {p : P} (hc : c < sh.heap.length) (hh : sh'.heap = (sh.push c p).heap)
    (ht : sh'.trace = sh.trace) (hp : ∀ q d, sh.ptr.get? q = some d → sh'.ptr.get? q = some d)
    (h : sh'.ptr.get? p = some c ∨ ∃ i d, .stolen i c p d ∈ sh'.trace) : PL sh0 sh' := by
  have hcell : ∀ d, sh'.cell d = (sh.push c p).cell d := fun d => by unfold PShared.cell; rw [hh]
  refine L.mono (fun e he => by rw [ht]; exact he) ?_
  intro d q h1 h2 h3 h4
  rw [hh, heap_push] at h2
  rw [hcell, cell_push _ _ _ _ hc] at h3 h4
  rw [ht] at h3
  split_ifs at h3 h4 with hd
  · subst hd
    simp only [List.mem_append, List.mem_singleton] at h4
    rcases h4 with h4 | h4
    · exact Or.inl ⟨h2, h3, h4, hp q d⟩
    · subst h4; exact Or.inr h
  · exact Or.inl ⟨h2, h3, h4, hp q d⟩

theorem PL.rollback (L : PL sh0 sh) {i c : Nat} (hc : c < sh.heap.length) :
    PL sh0 (sh.setState c ROLLED_BACK (.rolledBack i c)) := by
  refine L.mono (fun e he => by rw [trace_setState]; exact List.mem_append_left _ he) ?_
  intro d q h1 h2 h3 h4
  rw [heap_setState] at h2
  have tc : (∃ j, PEvent.committed j d ∈ (sh.setState c ROLLED_BACK (.rolledBack i c)).trace) →
      ∃ j, PEvent.committed j d ∈ sh.trace := by
    rintro ⟨j, h⟩
    rw [trace_setState, List.mem_append, List.mem_singleton] at h
    rcases h with h | h
    · exact ⟨j, h⟩
    · cases h
  rw [cell_setState _ _ _ _ _ hc] at h3 h4
  split_ifs at h3 h4 with hd
  · subst hd
    rcases h3 with h3 | h3
    · cases h3
    · exact Or.inl ⟨h2, Or.inr (tc h3), h4, fun h => h⟩
  · exact Or.inl ⟨h2, h3.imp id tc, h4, fun h => h⟩

theorem PL.commit (L : PL sh0 sh) {i c : Nat} (hc : c < sh.heap.length) (h0 : (sh.cell c).state = 0) :
    PL sh0 (sh.setState c COMMITTED (.committed i c)) := by
  refine L.mono (fun e he => by rw [trace_setState]; exact List.mem_append_left _ he) ?_
  intro d q h1 h2 h3 h4
  rw [heap_setState] at h2
  rw [cell_setState _ _ _ _ _ hc] at h3 h4
  by_cases hd : d = c
  · subst hd
    rw [if_pos rfl] at h4
    exact Or.inl ⟨h2, Or.inl h0, h4, fun h => h⟩
  · rw [if_neg hd] at h3 h4
    refine Or.inl ⟨h2, ?_, h4, fun h => h⟩
    rcases h3 with h3 | ⟨j, h3⟩
    · exact Or.inl h3
    · rw [trace_setState, List.mem_append, List.mem_singleton] at h3
      rcases h3 with h3 | h3
      · exact Or.inr ⟨j, h3⟩
      · injection h3 with _ h3
        exact absurd h3 hd

theorem PL.free (L : PL sh0 sh) {c : Nat} (hc : c < sh.heap.length) : PL sh0 (sh.free me c) := by
  refine L.mono (fun e he => by rw [trace_free]; exact List.mem_append_left _ he) ?_
  intro d q h1 h2 h3 h4
  rw [heap_free] at h2
  have hst : ((sh.free me c).cell d).state = (sh.cell d).state ∧
      ((sh.free me c).cell d).points = (sh.cell d).points := by
    rw [cell_free _ _ _ _ hc]
    split_ifs with h
    · subst h; exact ⟨rfl, rfl⟩
    · exact ⟨rfl, rfl⟩
  rw [hst.1] at h3
  rw [hst.2] at h4
  refine Or.inl ⟨h2, ?_, h4, fun h => h⟩
  rcases h3 with h3 | ⟨j, h3⟩
  · exact Or.inl h3
  · rw [trace_free, List.mem_append, List.mem_singleton] at h3
    rcases h3 with h3 | h3
    · exact Or.inr ⟨j, h3⟩
    · cases h3

theorem PW.of_same (W : PW min N sh0 me sh w) (hh : sh'.heap = sh.heap)
    (ht : ∃ es, sh'.trace = sh.trace ++ es ∧ ∀ i c, .committed i c ∉ es)
    (hp : ∀ p c, sh'.ptr.get? p = some c → sh.ptr.get? p = some c) : PW min N sh0 me sh' w := by
  have hc : ∀ c, sh'.cell c = sh.cell c := fun c => by unfold PShared.cell; rw [hh]
  obtain ⟨es, ht, hn⟩ := ht
  have tc : ∀ i c, PEvent.committed i c ∈ sh'.trace ↔ PEvent.committed i c ∈ sh.trace := by
    intro i c
    rw [ht, List.mem_append]
    constructor
    · rintro (h | h)
      · exact h
      · exact absurd h (hn i c)
    · exact Or.inl
  refine ⟨?_, ?_, W.fresh, W.nodup, ?_, ?_, ?_, ?_, W.outnd, ?_, W.bound, ?_⟩
  · intro c; rw [hh, hc]; simp only [tc]; exact W.own c
  · intro d; rw [hh]; exact W.other d
  · intro c; rw [hc]; exact W.apart c
  · intro c; rw [hc]; exact W.undo c
  · intro c todo h
    rw [hc]
    obtain ⟨a, b⟩ := W.rel c todo h
    exact ⟨a, fun p h => b p (hp p c h)⟩
  · intro c; rw [tc]; exact W.out c
  · intro c h
    rw [hc, skips_append sh sh' c es ht]
    have := W.size c h
    omega
  · intro c; rw [hc]; exact W.bound' c

theorem PW.log (W : PW min N sh0 me sh w) (e : PEvent P) (he : ∀ i c, e ≠ .committed i c) :
    PW min N sh0 me (sh.log e) w :=
  W.of_same rfl ⟨[e], rfl, fun i c h => he i c (List.mem_singleton.mp h).symm⟩ fun _ _ h => h

theorem PW.deref (W : PW min N sh0 me sh w) (d : Nat) : PW min N sh0 me (sh.deref me d) w := by
  rcases deref_cases sh me d with h | h
  · rw [h]; exact W
  · rw [h.1]; exact W.log _ (by simp)

theorem PW.unassign (W : PW min N sh0 me sh w) (c : Nat) (q : P) : PW min N sh0 me (sh.unassign c q) w := by
  refine W.of_same ?_ ⟨[], by simp, by simp⟩ ?_
  · unfold PShared.unassign; split_ifs <;> rfl
  · intro q d h
    rw [ptr_unassign] at h
    split_ifs at h
    exact h

theorem PW.rollback (W : PW min N sh0 me sh w) {i d : Nat} (hd : d < sh.heap.length) :
    PW min N sh0 me (sh.setState d ROLLED_BACK (.rolledBack i d)) w := by
  have ho : ∀ c, ((sh.setState d ROLLED_BACK (.rolledBack i d)).cell c).owner = (sh.cell c).owner ∧
      ((sh.setState d ROLLED_BACK (.rolledBack i d)).cell c).points = (sh.cell c).points ∧
      ((sh.setState d ROLLED_BACK (.rolledBack i d)).cell c).dropped = (sh.cell c).dropped ∧
      ((sh.cell c).state = 1 → ((sh.setState d ROLLED_BACK (.rolledBack i d)).cell c).state = 1) := by
    intro c
    rw [cell_setState _ _ _ _ _ hd]
    split_ifs with h
    · subst h; exact ⟨rfl, rfl, rfl, fun _ => rfl⟩
    · exact ⟨rfl, rfl, rfl, fun h => h⟩
  have tc : ∀ j c, PEvent.committed j c ∈ (sh.setState d ROLLED_BACK (.rolledBack i d)).trace ↔
      PEvent.committed j c ∈ sh.trace := by
    intro j c; simp
  refine ⟨?_, ?_, W.fresh, W.nodup, ?_, ?_, ?_, ?_, W.outnd, ?_, W.bound, ?_⟩
  · intro c; rw [heap_setState, (ho c).1, (ho c).2.2.1]; simp only [tc]; exact W.own c
  · intro d; rw [heap_setState]; exact W.other d
  · intro c; rw [(ho c).2.1]; exact W.apart c
  · intro c todo p rest h; exact (ho c).2.2.2 (W.undo c todo p rest h)
  · intro c todo h
    obtain ⟨a, b⟩ := W.rel c todo h
    exact ⟨(ho c).2.2.2 a, b⟩
  · intro c; rw [tc]; exact W.out c
  · intro c h
    rw [(ho c).2.1, skips_append sh _ c _ (trace_setState _ _ _ _)]
    have := W.size c h
    omega
  · intro c; rw [(ho c).2.1]; exact W.bound' c

/-- The program counter moves on and the memory stays. -/
theorem PW.advance (W : PW min N sh0 me sh w) {c : Nat} {pc : Pc P} (h : w.pc.own = some c) (h' : pc.own = some c)
    (hr : pc.rest = w.pc.rest ∨ (pc.building = none ∧ pc.rest = []))
    (hb : pc.building = some c → w.pc.building = some c)
    (ho : ∀ d, pc.other = some d → sh0.heap.length ≤ d ∧ d < sh.heap.length)
    (hu : ∀ c todo p rest, pc = .undo c todo p rest → (sh.cell c).state = 1)
    (hl : ∀ c todo, pc = .release c todo → (sh.cell c).state = 1 ∧ ∀ p, sh.ptr.get? p = some c → p ∈ todo) :
    PW min N sh0 me sh { w with pc := pc } := by
  have hk : ∀ pc : Pc P, pc.own = some c → pc.kept = pc.rest := by
    intro pc h; cases pc <;> simp_all [Pc.own, Pc.kept]
  have hsub : ∀ p ∈ pc.rest, p ∈ w.pc.rest := by
    rcases hr with hr | hr
    · rw [hr]; exact fun p h => h
    · rw [hr.2]; simp
  have hlen : pc.rest.length ≤ w.pc.rest.length := by
    rcases hr with hr | hr
    · rw [hr]
    · rw [hr.2]; simp
  refine ⟨?_, ho, ?_, ?_, ?_, hu, hl, W.out, W.outnd, ?_, ?_, ?_⟩
  · intro d hd
    rw [h'] at hd
    exact W.own d (by rw [h]; exact hd)
  · intro p hp
    simp only at hp
    rw [hk pc h'] at hp
    exact W.fresh p (by rw [hk _ h]; exact hsub p hp)
  · rcases hr with hr | hr
    · simp only; rw [hr]; exact W.nodup
    · simp only; rw [hr.2]; exact List.nodup_nil
  · intro d hd p hp
    rw [h'] at hd
    exact W.apart d (by rw [h]; exact hd) p (hsub p hp)
  · intro d hd
    have hdc := Pc.own_of_building hd
    rw [h'] at hdc
    injection hdc with hdc
    subst hdc
    rcases hr with hr | hr
    · simp only; rw [hr]; exact W.size c (hb hd)
    · rw [hr.1] at hd; cases hd
  · exact Nat.le_trans hlen W.bound
  · intro d hd
    rw [h'] at hd
    have := W.bound' d (by rw [h]; exact hd)
    simp only
    omega

/-- A point moves from the points to assign to the cluster. -/
theorem PW.add (W : PW min N sh0 me sh w) {c : Nat} {p : P} {rest : List P} (h : w.pc.own = some c)
    (hb : w.pc.building = some c) (hr : w.pc.rest = p :: rest) (hh : sh'.heap = (sh.push c p).heap)
    (ht : sh'.trace = sh.trace) : PW min N sh0 me sh' { w with pc := .check c rest } := by
  obtain ⟨o1, o2, o3, o4, o5⟩ := W.own c h
  have hk : w.pc.kept = w.pc.rest := by
    revert h; cases w.pc <;> simp [Pc.own, Pc.kept]
  have hc : sh'.cell c = { sh.cell c with points := (sh.cell c).points ++ [p] } := by
    have : sh'.cell c = (sh.push c p).cell c := by unfold PShared.cell; rw [hh]
    rw [this, cell_push _ _ _ _ o2, if_pos rfl]
  have hn := W.nodup
  rw [hr, List.nodup_cons] at hn
  have hs : skips sh' c = skips sh c := by unfold skips; rw [ht]
  refine ⟨?_, by simp [Pc.other], ?_, hn.2, ?_, by simp, by simp, ?_, W.outnd, ?_, ?_, ?_⟩
  · intro d hd
    simp only [Pc.own, Option.some.injEq] at hd
    subst hd
    rw [hh, heap_push, hc, ht]
    exact ⟨o1, o2, o3, o4, o5⟩
  · intro q hq
    exact W.fresh q (by rw [hk, hr]; exact List.mem_cons_of_mem _ hq)
  · intro d hd q hq
    simp only [Pc.own, Option.some.injEq] at hd
    subst hd
    simp only [Pc.rest] at hq
    rw [hc]
    simp only [List.mem_append, List.mem_singleton, not_or]
    refine ⟨W.apart c h q (by rw [hr]; exact List.mem_cons_of_mem _ hq), ?_⟩
    rintro rfl
    exact hn.1 hq
  · intro d; rw [ht]; exact W.out d
  · intro d hd
    simp only [Pc.building, Option.some.injEq] at hd
    subst hd
    have := W.size c hb
    rw [hr] at this
    rw [hc, hs]
    simp only [Pc.rest, List.length_append, List.length_cons, List.length_nil] at this ⊢
    omega
  · have := W.bound
    rw [hr] at this
    simp only [Pc.rest, List.length_cons] at this ⊢
    omega
  · intro d hd
    simp only [Pc.own, Option.some.injEq] at hd
    subst hd
    have := W.bound' c h
    rw [hr] at this
    rw [hc]
    simp only [Pc.rest, List.length_append, List.length_cons, List.length_nil] at this ⊢
    omega

/-- Nothing in hand. -/
theorem PW.idle {pc : Pc P} {todo : List P} {out : List Nat} (hpc : pc = .next ∨ pc = .done)
    (ho : ∀ c, c ∈ out ↔ .committed me c ∈ sh.trace) (hn : out.Nodup) :
    PW min N sh0 me sh { pc := pc, todo := todo, out := out } := by
  rcases hpc with rfl | rfl <;>
    exact ⟨by simp [Pc.own], by simp [Pc.other], by simp [Pc.kept, Pc.rest], by simp [Pc.rest], by simp [Pc.own],
      by simp, by simp, ho, hn, by simp [Pc.building], by simp [Pc.rest], by simp [Pc.own]⟩

theorem PW.filter {qs acc todo : List P} {out : List Nat}
    (ho : ∀ c, c ∈ out ↔ .committed me c ∈ sh.trace) (hn : out.Nodup) (hd : (acc ++ qs).Nodup)
    (hf : ∀ p ∈ acc, ∀ d, d < sh0.heap.length → sh0.ptr.get? p ≠ some d) (hb : (acc ++ qs).length ≤ N) :
    PW min N sh0 me sh { pc := .filter qs acc, todo := todo, out := out } :=
  ⟨by simp [Pc.own], by simp [Pc.other], hf, hd, by simp [Pc.own],
      by simp, by simp, ho, hn, by simp [Pc.building], hb, by simp [Pc.own]⟩

/-! ### One step -/

/-- The invariant after a step of worker `me`, and the effect of the step on the others. -/
structure StepOk (min N : Nat) (sh0 : PShared P) (me : Nat) (sh : PShared P) (r : PShared P × PWorker P) : Prop where
  g : PG min sh0 r.1
  l : PL sh0 r.1
  e : Eff me sh r.1
  w : PW min N sh0 me r.1 r.2

theorem stepOk (nbrs : P → List P) (hnb : ∀ p ∈ w.todo, (nbrs p).Nodup ∧ (nbrs p).length ≤ N) (G : PG min sh0 sh)
    (L : PL sh0 sh) (W : PW min N sh0 me sh w) : StepOk min N sh0 me sh (pstep min nbrs k me sh w) := by
  obtain ⟨pc, todo, out⟩ := w
  have hout := W.out
  have hond := W.outnd
  simp only at hout hond
  cases pc with
  | next =>
    cases todo with
    | nil => exact ⟨G, L, Eff.refl _ _, PW.idle (Or.inr rfl) hout hond⟩
    | cons p rest =>
      simp only [pstep]
      split_ifs with h
      · exact ⟨G, L, Eff.refl _ _, PW.idle (Or.inl rfl) hout hond⟩
      · exact ⟨G, L, Eff.refl _ _, PW.filter hout hond (by simpa using (hnb p (by simp)).1)
          (by simp) (by simpa using (hnb p (by simp)).2)⟩
  | filter qs acc =>
    have hnd := W.nodup
    have hb := W.bound
    have hf := W.fresh
    simp only [Pc.rest, Pc.kept] at hnd hb hf
    cases qs with
    | nil =>
      rw [List.append_nil] at hnd hb
      simp only [pstep]
      split_ifs with h
      · refine ⟨G.alloc me, L.alloc, Eff.alloc, ?_⟩
        have hc : (sh.alloc me).cell sh.heap.length = { owner := me, clusterId := (sh.seq + 1) % 2 ^ 32,
                                                        points := [], state := 0, dropped := false } := by
          rw [cell_alloc, if_pos rfl]
        refine ⟨?_, by simp [Pc.other], hf, hnd, ?_, by simp, by simp, hout, hond, ?_, hb, ?_⟩
        · intro c hc'
          simp only [Pc.own, Option.some.injEq] at hc'
          subst hc'
          rw [hc]
          refine ⟨G.len, by simp, rfl, rfl, ?_⟩
          intro i hi
          exact absurd (G.com i _ hi).2.1 (by omega)
        · intro c hc' p _
          simp only [Pc.own, Option.some.injEq] at hc'
          subst hc'
          rw [hc]
          simp
        · intro c hc'
          simp only [Pc.building, Option.some.injEq] at hc'
          subst hc'
          simp only [Pc.rest]
          omega
        · intro c hc'
          simp only [Pc.own, Option.some.injEq] at hc'
          subst hc'
          rw [hc]
          simpa [Pc.rest] using hb
      · exact ⟨G, L, Eff.refl _ _, PW.idle (Or.inl rfl) hout hond⟩
    | cons q qs =>
      simp only [pstep]
      split_ifs with h
      · refine ⟨G, L, Eff.refl _ _, PW.filter hout hond (by simpa using hnd) ?_ (by simpa using hb)⟩
        intro p hp d hd hpd
        rw [List.mem_append, List.mem_singleton] at hp
        rcases hp with hp | rfl
        · exact hf p hp d hd hpd
        · rw [G.readPtr_old hd hpd] at h
          simp at h
      · refine ⟨G, L, Eff.refl _ _, PW.filter hout hond ?_ hf ?_⟩
        · exact hnd.sublist (List.Sublist.append_left (List.sublist_cons_self q qs) acc)
        · simp only [List.length_append, List.length_cons] at hb ⊢
          omega
  | check c rest =>
    cases rest with
    | nil =>
      exact ⟨G, L, Eff.refl _ _, W.advance (c := c) rfl rfl (Or.inl rfl) (fun _ => rfl) (by simp [Pc.other]) (by simp)
        (by simp)⟩
    | cons p rest =>
      simp only [pstep]
      split_ifs with h
      · refine ⟨G, L, Eff.refl _ _, W.advance (c := c) rfl rfl (Or.inl rfl) (fun _ => rfl) (by simp [Pc.other]) ?_
          (by simp)⟩
        intro c' t p' r' e
        injection e with e1
        subst e1
        exact G.readState_one (W.own c rfl).1 (W.own c rfl).2.1 h
      · exact ⟨G, L, Eff.refl _ _, W.advance (c := c) rfl rfl (Or.inl rfl) (fun _ => rfl) (by simp [Pc.other])
          (by simp) (by simp)⟩
  | undo c qs p rest =>
    have ho := W.own c rfl
    have hs := W.undo c qs p rest rfl
    cases qs with
    | nil =>
      exact ⟨G, L, Eff.refl _ _, W.advance (c := c) rfl rfl (Or.inl rfl) (fun _ => rfl) (by simp [Pc.other]) (by simp)
        (by simp)⟩
    | cons q qs =>
      refine ⟨G.unassign c q ho.1, L.unassign q hs ho.2.2.2.2, Eff.unassign c q, ?_⟩
      refine (W.unassign c q).advance (c := c) rfl rfl (Or.inl rfl) (fun _ => rfl) (by simp [Pc.other]) ?_ (by simp)
      intro c' t p' r' e
      injection e with e1
      subst e1
      rw [cell_unassign]
      exact hs
  | assign c p rest =>
    have ho := W.own c rfl
    have hp : p ∉ (sh.cell c).points := W.apart c rfl p (by simp [Pc.rest])
    simp only [pstep]
    cases h : sh.readAssign k p with
    | none =>
      have h := readAssign_none h
      simp only
      refine ⟨G.assign ho.1 ho.2.1 hp ho.2.2.2.1 h, ?_, Eff.assign ho.2.1 ho.2.2.1, W.add rfl rfl rfl rfl rfl⟩
      refine L.add ho.2.1 rfl rfl ?_ ?_
      · intro q d hq
        rw [ptr_push, ptr_setPtr, if_neg]
        · exact hq
        · rintro rfl
          rw [h] at hq
          cases hq
      · rw [ptr_push, ptr_setPtr, if_pos rfl]
        exact Or.inl rfl
    | some d =>
      simp only
      refine ⟨G, L, Eff.refl _ _, W.advance (c := c) rfl rfl (Or.inl rfl) (fun _ => rfl) ?_ (by simp) (by simp)⟩
      intro d' hd'
      simp only [Pc.other, Option.some.injEq] at hd'
      subst hd'
      have := G.readAssign_some (W.fresh p (by simp [Pc.kept, Pc.rest])) h
      exact ⟨this.1, this.2.1⟩
  | conflict1 c d p rest =>
    have hd := W.other d rfl
    simp only [pstep]
    split_ifs with h
    · exact ⟨G.deref me d, L.deref d, Eff.deref d, (W.deref d).advance (c := c) rfl rfl (Or.inr ⟨rfl, rfl⟩)
        (by simp [Pc.building]) (by simp [Pc.other]) (by simp) (by simp)⟩
    · refine ⟨G.deref me d, L.deref d, Eff.deref d, (W.deref d).advance (c := c) rfl rfl (Or.inl rfl)
        (fun _ => rfl) ?_ (by simp) (by simp)⟩
      intro d' hd'
      simp only [Pc.other, Option.some.injEq] at hd'
      subst hd'
      simpa using hd
  | conflict2 c d p rest =>
    have hd := W.other d rfl
    simp only [pstep]
    split_ifs with h
    · refine ⟨(G.deref me d).log _ (Or.inr ⟨_, _, _, rfl⟩), (L.deref d).log _ (by simp),
        (Eff.deref d).trans (Eff.log _ (by simp)), ?_⟩
      have W1 := W.deref d
      have W2 := W1.log (.skipped me c p) (by simp)
      have hn := W1.nodup
      simp only [Pc.rest, List.nodup_cons] at hn
      refine ⟨W2.own, by simp [Pc.other], ?_, hn.2, ?_, by simp, by simp, W2.out, W2.outnd, ?_, ?_, ?_⟩
      · intro q hq
        exact W2.fresh q (List.mem_cons_of_mem _ hq)
      · intro c' hc' q hq
        exact W2.apart c' hc' q (List.mem_cons_of_mem _ hq)
      · intro c' hc'
        have := W1.size c' hc'
        simp only [Pc.building, Option.some.injEq] at hc'
        subst hc'
        rw [cell_log, skips_append (sh.deref me d) _ c _ (trace_log _ _)]
        simp only [Pc.rest, List.length_cons, List.countP_cons, List.countP_nil, decide_true, if_true] at this ⊢
        omega
      · have := W1.bound
        simp only [Pc.rest, List.length_cons] at this ⊢
        omega
      · intro c' hc'
        have := W2.bound' c' hc'
        simp only [Pc.rest, List.length_cons] at this ⊢
        omega
    · refine ⟨G.deref me d, L.deref d, Eff.deref d, (W.deref d).advance (c := c) rfl rfl (Or.inl rfl)
        (fun _ => rfl) ?_ (by simp) (by simp)⟩
      intro d' hd'
      simp only [Pc.other, Option.some.injEq] at hd'
      subst hd'
      simpa using hd
  | conflict3 c d p rest =>
    have hd := W.other d rfl
    simp only [pstep]
    split_ifs with h
    · exact ⟨G.deref me d, L.deref d, Eff.deref d, (W.deref d).advance (c := c) rfl rfl (Or.inr ⟨rfl, rfl⟩)
        (by simp [Pc.building]) (by simp [Pc.other]) (by simp) (by simp)⟩
    · refine ⟨G.deref me d, L.deref d, Eff.deref d, (W.deref d).advance (c := c) rfl rfl (Or.inl rfl)
        (fun _ => rfl) ?_ (by simp) (by simp)⟩
      intro d' hd'
      simp only [Pc.other, Option.some.injEq] at hd'
      subst hd'
      simpa using hd
  | conflict4 c d p rest =>
    have hd := W.other d rfl
    have ho := W.own c rfl
    simp only [pstep]
    split_ifs with h
    · have hd' : d < (sh.deref me d).heap.length := by simpa using hd.2
      have hs' : ((sh.deref me d).cell d).state = 0 := by rw [cell_deref]; exact h
      have W1 := (((W.deref d).rollback (i := me) hd').log (.stolen me c p d) (by simp))
      have G1 := (((G.deref me d).rollback (i := me) hd.1 hd' hs').log (.stolen me c p d) (Or.inl trivial))
      have L1 := (((L.deref (me := me) d).rollback (i := me) hd').log (.stolen me c p d) (by simp))
      have E1 : Eff me sh (((sh.deref me d).setState d ROLLED_BACK (.rolledBack me d)).log (.stolen me c p d)) :=
        ((Eff.deref d).trans (Eff.setState hd' (by simp))).trans (Eff.log _ (by simp))
      have o1 := W1.own c rfl
      refine ⟨G1.push o1.1 o1.2.1 (W1.apart c rfl p (by simp [Pc.rest])), L1.add o1.2.1 rfl rfl (fun _ _ h => h) ?_,
        E1.trans (Eff.push o1.2.1 o1.2.2.1), W1.add rfl rfl rfl rfl rfl⟩
      exact Or.inr ⟨me, d, by simp⟩
    · exact ⟨G.deref me d, L.deref d, Eff.deref d, (W.deref d).advance (c := c) rfl rfl (Or.inr ⟨rfl, rfl⟩)
        (by simp [Pc.building]) (by simp [Pc.other]) (by simp) (by simp)⟩
  | giveUp c =>
    have ho := W.own c rfl
    have hrel : ∀ p, sh.ptr.get? p = some c → p ∈ (sh.cell c).points := fun p hp => (G.ptr p c hp ho.1).2.2
    simp only [pstep]
    split_ifs with h
    · refine ⟨G.rollback ho.1 ho.2.1 h, L.rollback ho.2.1, Eff.setState ho.2.1 (by simp), ?_⟩
      refine (W.rollback ho.2.1).advance (c := c) rfl rfl (Or.inl rfl) (by simp [Pc.building]) (by simp [Pc.other])
        (by simp) ?_
      intro c' t e
      injection e with e1 e2
      subst e1; subst e2
      refine ⟨?_, hrel⟩
      rw [cell_setState _ _ _ _ _ ho.2.1, if_pos rfl]
      rfl
    · refine ⟨G, L, Eff.refl _ _, W.advance (c := c) rfl rfl (Or.inl rfl) (by simp [Pc.building]) (by simp [Pc.other])
        (by simp) ?_⟩
      intro c' t e
      injection e with e1 e2
      subst e1; subst e2
      exact ⟨(G.state c ho.1 ho.2.1).resolve_left h, hrel⟩
  | release c qs =>
    have ho := W.own c rfl
    obtain ⟨hs, hrel⟩ := W.rel c qs rfl
    cases qs with
    | nil =>
      have hnone : ∀ p, sh.ptr.get? p ≠ some c := fun p hp => by simpa using hrel p hp
      refine ⟨G.free ho.1 ho.2.1 hnone ho.2.2.2.2 hs, L.free ho.2.1, Eff.free ho.2.1 ho.2.2.1, ?_⟩
      refine PW.idle (Or.inl rfl) ?_ hond
      intro d
      rw [hout]
      show _ ↔ _ ∈ (sh.free me c).trace
      simp
    | cons q qs =>
      refine ⟨G.unassign c q ho.1, L.unassign q hs ho.2.2.2.2, Eff.unassign c q, ?_⟩
      refine (W.unassign c q).advance (c := c) rfl rfl (Or.inl rfl) (by simp [Pc.building]) (by simp [Pc.other])
        (by simp) ?_
      intro c' t e
      injection e with e1 e2
      subst e1; subst e2
      rw [cell_unassign]
      refine ⟨hs, ?_⟩
      intro p hp
      rw [ptr_unassign] at hp
      split_ifs at hp with hq
      have := hrel p hp
      rw [List.mem_cons] at this
      rcases this with rfl | this
      · exact absurd ⟨rfl, hp⟩ hq
      · exact this
  | commit c =>
    have ho := W.own c rfl
    have hrel : ∀ p, sh.ptr.get? p = some c → p ∈ (sh.cell c).points := fun p hp => (G.ptr p c hp ho.1).2.2
    simp only [pstep]
    split_ifs with h
    · have hsz := W.size c rfl
      simp only [Pc.rest, List.length_nil, Nat.add_zero] at hsz
      refine ⟨G.commit ho.1 ho.2.1 h ho.2.2.1 ho.2.2.2.1 hsz, L.commit ho.2.1 h, Eff.setState ho.2.1 ?_, ?_⟩
      · intro j d e
        injection e with e1 e2
        exact ⟨e1.symm, e2.symm, ho.2.2.1⟩
      · refine PW.idle (Or.inl rfl) ?_ ?_
        · intro d
          rw [List.mem_append, hout, trace_setState, List.mem_append]
          simp
        · rw [List.nodup_append]
          refine ⟨hond, by simp, ?_⟩
          intro a ha b hb e
          rw [List.mem_singleton] at hb
          rw [hout] at ha
          rw [e, hb] at ha
          exact ho.2.2.2.2 me ha
    · refine ⟨G, L, Eff.refl _ _, W.advance (c := c) rfl rfl (Or.inl rfl) (by simp [Pc.building]) (by simp [Pc.other])
        (by simp) ?_⟩
      intro c' t e
      injection e with e1 e2
      subst e1; subst e2
      exact ⟨(G.state c ho.1 ho.2.1).resolve_left h, hrel⟩
  | done => exact ⟨G, L, Eff.refl _ _, W⟩

end Verif
