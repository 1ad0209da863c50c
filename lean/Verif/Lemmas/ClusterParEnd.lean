import Verif.Lemmas.ClusterParRun
import Mathlib.Data.List.Sort

/-! # Lemmas on parallel clustering: termination, attempts that do not overlap, a single worker -/
namespace Verif
variable {P : Type} [DecidableEq P] {min N k me : Nat} {sh0 sh sh' : PShared P} {w : PWorker P}

/-! ### Termination -/

/-- Steps that a worker needs at most to get from here to the next input point. -/
def Pc.cost (N : Nat) : Pc P → Nat
  | .next => 1
  | .done => 0
  | .filter qs acc => qs.length + 1 + ((acc.length + qs.length) * (N + 8) + N + 4)
  | .check _ rest => rest.length * (N + 8) + N + 4
  | .undo _ todo _ rest => rest.length * (N + 8) + N + 4 + todo.length + 6
  | .assign _ _ rest => rest.length * (N + 8) + N + 4 + 5
  | .conflict1 _ _ _ rest => rest.length * (N + 8) + N + 4 + 4
  | .conflict2 _ _ _ rest => rest.length * (N + 8) + N + 4 + 3
  | .conflict3 _ _ _ rest => rest.length * (N + 8) + N + 4 + 2
  | .conflict4 _ _ _ rest => rest.length * (N + 8) + N + 4 + 1
  | .giveUp _ => N + 3
  | .release _ todo => todo.length + 2
  | .commit _ => N + 3

/-- Steps per input point. -/
def costPerPoint (N : Nat) : Nat := N + 1 + (N * (N + 8) + N + 4)

/-- Steps that a worker needs at most to finish. -/
def PWorker.cost (N : Nat) (w : PWorker P) : Nat := w.todo.length * costPerPoint N + w.pc.cost N

theorem pstep_cost (nbrs : P → List P) (hnb : ∀ p ∈ w.todo, (nbrs p).length ≤ N) (W : PW min N sh0 me sh w)
    (h : w.pc ≠ .done) : (pstep min nbrs k me sh w).2.cost N < w.cost N := by
  obtain ⟨pc, todo, out⟩ := w
  cases pc with
  | next =>
    cases todo with
    | nil => simp [pstep, PWorker.cost, Pc.cost]
    | cons p rest =>
      simp only [pstep]
      split_ifs
      · simp only [PWorker.cost, Pc.cost, List.length_cons, Nat.add_mul, costPerPoint]
        omega
      · have hl := hnb p (by simp)
        have hm : (nbrs p).length * (N + 8) ≤ N * (N + 8) := Nat.mul_le_mul_right _ hl
        simp only [PWorker.cost, Pc.cost, List.length_cons, List.length_nil, Nat.zero_add]
        rw [Nat.add_mul, Nat.one_mul]
        unfold costPerPoint
        generalize (nbrs p).length * (N + 8) = x at *
        generalize N * (N + 8) = y at *
        generalize rest.length * (N + 1 + (y + N + 4)) = z
        omega
  | filter qs acc =>
    cases qs with
    | nil =>
      simp only [pstep]
      split_ifs <;> simp [PWorker.cost, Pc.cost]
    | cons q qs =>
      simp only [pstep]
      split_ifs
      · simp only [PWorker.cost, Pc.cost, List.length_append, List.length_cons, List.length_nil]
        have : acc.length + (0 + 1) + qs.length = acc.length + (qs.length + 1) := by omega
        rw [this]
        omega
      · simp only [PWorker.cost, Pc.cost, List.length_cons]
        have : (acc.length + qs.length) * (N + 8) ≤ (acc.length + (qs.length + 1)) * (N + 8) :=
          Nat.mul_le_mul_right _ (by omega)
        omega
  | check c rest =>
    have hb := W.bound' c rfl
    cases rest with
    | nil => simp [pstep, PWorker.cost, Pc.cost]
    | cons p rest =>
      simp only [Pc.rest, List.length_cons] at hb
      simp only [pstep]
      split_ifs <;> simp only [PWorker.cost, Pc.cost, List.length_cons, Nat.add_mul, Nat.one_mul] <;> omega
  | undo c qs p rest =>
    cases qs <;> simp only [pstep, PWorker.cost, Pc.cost, List.length_cons, List.length_nil] <;> omega
  | assign c p rest =>
    simp only [pstep]
    cases sh.readAssign k p <;> simp only [PWorker.cost, Pc.cost] <;> omega
  | conflict1 c d p rest => simp only [pstep]; split_ifs <;> simp only [PWorker.cost, Pc.cost] <;> omega
  | conflict2 c d p rest => simp only [pstep]; split_ifs <;> simp only [PWorker.cost, Pc.cost] <;> omega
  | conflict3 c d p rest => simp only [pstep]; split_ifs <;> simp only [PWorker.cost, Pc.cost] <;> omega
  | conflict4 c d p rest => simp only [pstep]; split_ifs <;> simp only [PWorker.cost, Pc.cost] <;> omega
  | giveUp c =>
    have hb := W.bound' c rfl
    simp only [Pc.rest, List.length_nil] at hb
    simp only [pstep]
    split_ifs <;> simp only [PWorker.cost, Pc.cost] <;> omega
  | release c qs =>
    cases qs <;> simp only [pstep, PWorker.cost, Pc.cost, List.length_cons, List.length_nil] <;> omega
  | commit c =>
    have hb := W.bound' c rfl
    simp only [Pc.rest, List.length_nil] at hb
    simp only [pstep]
    split_ifs <;> simp only [PWorker.cost, Pc.cost] <;> omega
  | done => exact absurd rfl h

/-- A worker that moves often enough is finished, whatever the others do. -/
theorem wait_free {query : P → HSet P} {slices : List (List P)}
    (hN : ∀ slice ∈ slices, ∀ p ∈ slice, (query p).elems.length ≤ N) (ord : Nat → Order) (age : Nat → Nat) {s : PState P}
    (I : PInv min N query slices sh0 s) (sched : List Nat) {i : Nat} {w : PWorker P} (hw : s.workers[i]? = some w)
    (hc : w.pc = .done ∨ w.cost N ≤ sched.count i) :
    ∃ w', (s.run min query ord age sched).workers[i]? = some w' ∧ w'.pc = .done := by
  induction sched generalizing s w with
  | nil =>
    refine ⟨w, hw, ?_⟩
    rcases hc with hc | hc
    · exact hc
    simp only [List.count_nil, Nat.le_zero, PWorker.cost] at hc
    have hc : w.pc.cost N = 0 := by omega
    revert hc
    cases w.pc <;> simp [Pc.cost]
  | cons j js ih =>
    have I' := pinv_step hN ord age I j
    have hlt : i < s.workers.length := by
      by_contra h
      rw [List.getElem?_eq_none (by omega)] at hw
      cases hw
    by_cases hij : j = i
    · subst hij
      obtain ⟨slice, hsl, Q⟩ := I.q j w hw
      have hnb : ∀ p ∈ w.todo, ((ord s.clock).perm (query p).elems).length ≤ N := fun p hp =>
        (nbrs_ok (hN slice (List.mem_of_getElem? hsl) p (Q.todo p hp)) _).2
      have hs : (s.step min query ord age j).workers[j]? =
          some (pstep min (fun p => (ord s.clock).perm (query p).elems) (age s.clock) j s.shared w).2 := by
        unfold PState.step
        rw [hw]
        simp only
        rw [List.getElem?_set_self hlt]
      refine ih I' hs ?_
      by_cases hd : w.pc = .done
      · left
        unfold pstep
        rw [hd]
        exact hd
      · right
        have hc := hc.resolve_left hd
        rw [List.count_cons_self] at hc
        have := pstep_cost (k := age s.clock) (fun p => (ord s.clock).perm (query p).elems) hnb (I.w j w hw) hd
        omega
    · rw [List.count_cons_of_ne hij] at hc
      refine ih I' (w := w) ?_ hc
      unfold PState.step
      cases hj : s.workers[j]? with
      | none => exact hw
      | some v =>
        simp only
        rw [List.getElem?_set_ne hij]
        exact hw

/-! ### Attempts that do not overlap -/

/-- At most one worker is between the allocation of a cluster and its return or release. -/
def PState.OneAttempt (s : PState P) : Prop :=
  ∀ (i j : Nat) (v w : PWorker P), s.workers[i]? = some v → s.workers[j]? = some w → v.pc.own ≠ none →
    w.pc.own ≠ none → i = j

/-- Events of the races: a point taken from a competitor, a point left out, an access to a freed cluster. -/
def PEvent.race : PEvent P → Bool
  | .stolen _ _ _ _ => true
  | .skipped _ _ _ => true
  | .useAfterFree _ _ => true
  | _ => false

/-- A worker that has met a conflict met a returned cluster. -/
def PQuiet (sh : PShared P) (w : PWorker P) : Prop :=
  ∀ d, w.pc.other = some d → (∃ c p rest, w.pc = .conflict1 c d p rest) ∧ ∃ j, .committed j d ∈ sh.trace

theorem pstep_quiet (nbrs : P → List P) (G : PG min sh0 sh) (Q : PQuiet sh w)
    (hA : ∀ c p rest d, w.pc = .assign c p rest → sh.ptr.get? p = some d → ∃ j, .committed j d ∈ sh.trace)
    (hN : ∀ e ∈ sh.trace, e.race = false) :
    PQuiet (pstep min nbrs 0 me sh w).1 (pstep min nbrs 0 me sh w).2 ∧
    ∀ e ∈ (pstep min nbrs 0 me sh w).1.trace, e.race = false := by
  obtain ⟨pc, todo, out⟩ := w
  have hset : ∀ (c v : Nat) (e : PEvent P), e.race = false → ∀ e' ∈ (sh.setState c v e).trace, e'.race = false := by
    intro c v e he e' h
    rw [trace_setState, List.mem_append, List.mem_singleton] at h
    rcases h with h | rfl
    · exact hN e' h
    · exact he
  cases pc with
  | next =>
    cases todo with
    | nil => exact ⟨by simp [PQuiet, pstep, Pc.other], hN⟩
    | cons p rest => simp only [pstep]; split_ifs <;> exact ⟨by simp [PQuiet, Pc.other], hN⟩
  | filter qs acc =>
    cases qs <;> simp only [pstep] <;> split_ifs <;> exact ⟨by simp [PQuiet, Pc.other], hN⟩
  | check c rest =>
    cases rest with
    | nil => exact ⟨by simp [PQuiet, pstep, Pc.other], hN⟩
    | cons p rest => simp only [pstep]; split_ifs <;> exact ⟨by simp [PQuiet, Pc.other], hN⟩
  | undo c qs p rest =>
    cases qs with
    | nil => exact ⟨by simp [PQuiet, pstep, Pc.other], hN⟩
    | cons q qs => exact ⟨by simp [PQuiet, pstep, Pc.other], by simpa [pstep] using hN⟩
  | assign c p rest =>
    simp only [pstep, readAssign_zero]
    cases h : sh.ptr.get? p with
    | none => exact ⟨by simp [PQuiet, Pc.other], hN⟩
    | some d =>
      refine ⟨?_, hN⟩
      intro d' hd'
      simp only [Pc.other, Option.some.injEq] at hd'
      subst hd'
      exact ⟨⟨c, p, rest, rfl⟩, hA c p rest d rfl h⟩
  | conflict1 c d p rest =>
    obtain ⟨_, j, hj⟩ := Q d rfl
    obtain ⟨_, _, _, h1, h2, _⟩ := G.com j d hj
    have hd : sh.deref me d = sh := by unfold PShared.deref; rw [h2]; rfl
    simp only [pstep]
    rw [if_pos (show sh.readState 0 d = COMMITTED from h1), hd]
    exact ⟨by simp [PQuiet, Pc.other], hN⟩
  | conflict2 c d p rest => obtain ⟨⟨_, _, _, h⟩, _⟩ := Q d rfl; cases h
  | conflict3 c d p rest => obtain ⟨⟨_, _, _, h⟩, _⟩ := Q d rfl; cases h
  | conflict4 c d p rest => obtain ⟨⟨_, _, _, h⟩, _⟩ := Q d rfl; cases h
  | giveUp c =>
    simp only [pstep]
    split_ifs
    · exact ⟨by simp [PQuiet, Pc.other], hset _ _ _ rfl⟩
    · exact ⟨by simp [PQuiet, Pc.other], hN⟩
  | release c qs =>
    cases qs with
    | nil =>
      refine ⟨by simp [PQuiet, pstep, Pc.other], ?_⟩
      intro e he
      simp only [pstep, trace_free, List.mem_append, List.mem_singleton] at he
      rcases he with he | rfl
      · exact hN e he
      · rfl
    | cons q qs => exact ⟨by simp [PQuiet, pstep, Pc.other], by simpa [pstep] using hN⟩
  | commit c =>
    simp only [pstep]
    split_ifs
    · exact ⟨by simp [PQuiet, Pc.other], hset _ _ _ rfl⟩
    · exact ⟨by simp [PQuiet, Pc.other], hN⟩
  | done => exact ⟨Q, hN⟩

/-- No race events, and conflicts only with returned clusters. -/
structure PNoRace (s : PState P) : Prop where
  q : ∀ (i : Nat) (w : PWorker P), s.workers[i]? = some w → PQuiet s.shared w
  t : ∀ e ∈ s.shared.trace, e.race = false

theorem pnorace_step {query : P → HSet P} {slices : List (List P)}
    (hN : ∀ slice ∈ slices, ∀ p ∈ slice, (query p).elems.length ≤ N) (ord : Nat → Order) {s : PState P}
    (I : PInv min N query slices sh0 s) (hone : s.OneAttempt) (R : PNoRace s) (i : Nat) :
    PNoRace (s.step min query ord latest i) := by
  unfold PState.step
  cases hi : s.workers[i]? with
  | none => exact ⟨R.q, R.t⟩
  | some w =>
    have W := I.w i w hi
    obtain ⟨slice, hsl, Q⟩ := I.q i w hi
    have hnb : ∀ p ∈ w.todo, ((ord s.clock).perm (query p).elems).Nodup ∧
        ((ord s.clock).perm (query p).elems).length ≤ N := fun p hp =>
      nbrs_ok (hN slice (List.mem_of_getElem? hsl) p (Q.todo p hp)) _
    have S := stepOk (k := latest s.clock) (fun p => (ord s.clock).perm (query p).elems) hnb I.g I.l W
    have hA : ∀ c p rest d, w.pc = .assign c p rest → s.shared.ptr.get? p = some d →
        ∃ j, .committed j d ∈ s.shared.trace := by
      intro c p rest d hpc hp
      have hown : w.pc.own = some c := by rw [hpc]; rfl
      have hd : sh0.heap.length ≤ d := by
        by_contra hlt
        have hlt : d < sh0.heap.length := by omega
        exact W.fresh p (by rw [hpc]; simp [Pc.kept, Pc.rest]) d hlt ((I.g.oldptr p d hlt).mp hp)
      obtain ⟨h1, h2, h3⟩ := I.g.ptr p d hp hd
      rcases I.cls d hd h1 with h | h | ⟨j, v, hv, ho⟩
      · rw [h2] at h; cases h
      · exact h
      · have hij := hone i j w v hi hv (by rw [hown]; simp) (by rw [ho]; simp)
        subst hij
        rw [hi] at hv
        injection hv with hv
        subst hv
        rw [hown] at ho
        injection ho with ho
        subst ho
        exact absurd h3 (W.apart c hown p (by rw [hpc]; simp [Pc.rest]))
    obtain ⟨q1, q2⟩ := pstep_quiet (me := i) (fun p => (ord s.clock).perm (query p).elems) I.g (R.q i w hi) hA R.t
    simp only
    change StepOk _ _ _ _ _ (pstep min (fun p => (ord s.clock).perm (query p).elems) 0 i s.shared w) at S
    rw [show latest s.clock = 0 from rfl]
    generalize pstep min (fun p => (ord s.clock).perm (query p).elems) 0 i s.shared w = r at S q1 q2
    refine ⟨?_, q2⟩
    intro j v hv
    simp only [List.getElem?_set] at hv
    split_ifs at hv with h1
    · subst h1
      injection hv with hv
      subst hv
      exact q1
    · intro d hd
      obtain ⟨a, k, hk⟩ := R.q j v hv d hd
      obtain ⟨es, hes⟩ := S.e.trace
      exact ⟨a, k, by simp only; rw [hes]; exact List.mem_append_left _ hk⟩

theorem pnorace_start (h : sh0.Fresh) (slices : List (List P)) : PNoRace (PState.start sh0 slices) := by
  refine ⟨?_, ?_⟩
  · intro i w hw
    simp only [PState.start, List.getElem?_map, Option.map_eq_some_iff] at hw
    obtain ⟨slice, _, rfl⟩ := hw
    intro d hd
    cases hd
  · intro e he
    simp only [PState.start, h.trace] at he
    cases he

theorem pnorace_run {query : P → HSet P} {slices : List (List P)}
    (hN : ∀ slice ∈ slices, ∀ p ∈ slice, (query p).elems.length ≤ N) (ord : Nat → Order) {s : PState P}
    (I : PInv min N query slices sh0 s) (R : PNoRace s) (sched : List Nat)
    (hone : ∀ pre, pre <+: sched → (s.run min query ord latest pre).OneAttempt) :
    PNoRace (s.run min query ord latest sched) := by
  induction sched generalizing s with
  | nil => exact R
  | cons i is ih =>
    refine ih (pinv_step hN ord latest I i) (pnorace_step hN ord I (hone [] (List.nil_prefix)) R i) ?_
    intro pre hpre
    exact hone (i :: pre) ((List.cons_prefix_cons).mpr ⟨rfl, hpre⟩)

/-! ### Attempts that do not overlap, with stale reads -/

/-- A worker that has met a conflict met a cluster that is not new any more. -/
def PLate (sh : PShared P) (w : PWorker P) : Prop := ∀ d, w.pc.other = some d → (sh.cell d).state = 1

theorem pstep_late (nbrs : P → List P) (Q : PLate sh w)
    (hA : ∀ c p rest d, w.pc = .assign c p rest → sh.readAssign k p = some d → (sh.cell d).state = 1)
    (hN : ∀ i c p d, .stolen i c p d ∉ sh.trace) :
    PLate (pstep min nbrs k me sh w).1 (pstep min nbrs k me sh w).2 ∧
    ∀ i c p d, .stolen i c p d ∉ (pstep min nbrs k me sh w).1.trace := by
  obtain ⟨pc, todo, out⟩ := w
  have hde : ∀ d i c p d', PEvent.stolen i c p d' ∉ (sh.deref me d).trace := by
    intro d i c p d' h
    rcases deref_cases sh me d with e | e
    · rw [e] at h; exact hN _ _ _ _ h
    · rw [e.1, trace_log, List.mem_append, List.mem_singleton] at h
      rcases h with h | h
      · exact hN _ _ _ _ h
      · cases h
  have hset : ∀ (c v : Nat) (e : PEvent P), (∀ i c p d, e ≠ .stolen i c p d) →
      ∀ i c' p d, .stolen i c' p d ∉ (sh.setState c v e).trace := by
    intro c v e he i c' p d h
    rw [trace_setState, List.mem_append, List.mem_singleton] at h
    rcases h with h | h
    · exact hN _ _ _ _ h
    · exact he _ _ _ _ h.symm
  cases pc with
  | next =>
    cases todo with
    | nil => exact ⟨by simp [PLate, pstep, Pc.other], hN⟩
    | cons p rest => simp only [pstep]; split_ifs <;> exact ⟨by simp [PLate, Pc.other], hN⟩
  | filter qs acc =>
    cases qs <;> simp only [pstep] <;> split_ifs <;> exact ⟨by simp [PLate, Pc.other], hN⟩
  | check c rest =>
    cases rest with
    | nil => exact ⟨by simp [PLate, pstep, Pc.other], hN⟩
    | cons p rest => simp only [pstep]; split_ifs <;> exact ⟨by simp [PLate, Pc.other], hN⟩
  | undo c qs p rest =>
    cases qs with
    | nil => exact ⟨by simp [PLate, pstep, Pc.other], hN⟩
    | cons q qs => exact ⟨by simp [PLate, pstep, Pc.other], by simpa [pstep] using hN⟩
  | assign c p rest =>
    simp only [pstep]
    cases h : sh.readAssign k p with
    | none => exact ⟨by simp [PLate, Pc.other], hN⟩
    | some d =>
      refine ⟨?_, hN⟩
      intro d' hd'
      simp only [Pc.other, Option.some.injEq] at hd'
      subst hd'
      exact hA c p rest d rfl h
  | conflict1 c d p rest =>
    have hd := Q d rfl
    simp only [pstep]
    split_ifs
    · exact ⟨by simp [PLate, Pc.other], hde d⟩
    · refine ⟨?_, hde d⟩
      intro d' hd'
      simp only [Pc.other, Option.some.injEq] at hd'
      subst hd'
      simp only [cell_deref]
      exact hd
  | conflict2 c d p rest =>
    have hd := Q d rfl
    simp only [pstep]
    split_ifs
    · refine ⟨by simp [PLate, Pc.other], ?_⟩
      intro i c' p' d' h
      simp only [trace_log, List.mem_append, List.mem_singleton, reduceCtorEq, or_false] at h
      exact hde d _ _ _ _ h
    · refine ⟨?_, hde d⟩
      intro d' hd'
      simp only [Pc.other, Option.some.injEq] at hd'
      subst hd'
      simp only [cell_deref]
      exact hd
  | conflict3 c d p rest =>
    have hd := Q d rfl
    simp only [pstep]
    split_ifs
    · exact ⟨by simp [PLate, Pc.other], hde d⟩
    · refine ⟨?_, hde d⟩
      intro d' hd'
      simp only [Pc.other, Option.some.injEq] at hd'
      subst hd'
      simp only [cell_deref]
      exact hd
  | conflict4 c d p rest =>
    have hd := Q d rfl
    simp only [pstep]
    rw [if_neg (by rw [hd]; simp)]
    exact ⟨by simp [PLate, Pc.other], hde d⟩
  | giveUp c =>
    simp only [pstep]
    split_ifs
    · exact ⟨by simp [PLate, Pc.other], hset _ _ _ (by simp)⟩
    · exact ⟨by simp [PLate, Pc.other], hN⟩
  | release c qs =>
    cases qs with
    | nil =>
      refine ⟨by simp [PLate, pstep, Pc.other], ?_⟩
      intro i c' p d h
      simp only [pstep, trace_free, List.mem_append, List.mem_singleton, reduceCtorEq, or_false] at h
      exact hN _ _ _ _ h
    | cons q qs => exact ⟨by simp [PLate, pstep, Pc.other], by simpa [pstep] using hN⟩
  | commit c =>
    simp only [pstep]
    split_ifs
    · exact ⟨by simp [PLate, Pc.other], hset _ _ _ (by simp)⟩
    · exact ⟨by simp [PLate, Pc.other], hN⟩
  | done => exact ⟨Q, hN⟩

/-- Conflicts only with clusters that are not new any more, and no point was taken over. -/
structure PNoSteal (s : PState P) : Prop where
  q : ∀ (i : Nat) (w : PWorker P), s.workers[i]? = some w →
    PLate s.shared w ∧ ∀ d, w.pc.other = some d → d < s.shared.heap.length
  t : ∀ i c p d, .stolen i c p d ∉ s.shared.trace

theorem pnosteal_step {query : P → HSet P} {slices : List (List P)}
    (hN : ∀ slice ∈ slices, ∀ p ∈ slice, (query p).elems.length ≤ N) (ord : Nat → Order) (age : Nat → Nat)
    {s : PState P} (I : PInv min N query slices sh0 s) (hone : s.OneAttempt) (R : PNoSteal s) (i : Nat) :
    PNoSteal (s.step min query ord age i) := by
  unfold PState.step
  cases hi : s.workers[i]? with
  | none => exact ⟨R.q, R.t⟩
  | some w =>
    have W := I.w i w hi
    obtain ⟨slice, hsl, Q⟩ := I.q i w hi
    have hnb : ∀ p ∈ w.todo, ((ord s.clock).perm (query p).elems).Nodup ∧
        ((ord s.clock).perm (query p).elems).length ≤ N := fun p hp =>
      nbrs_ok (hN slice (List.mem_of_getElem? hsl) p (Q.todo p hp)) _
    have S := stepOk (k := age s.clock) (fun p => (ord s.clock).perm (query p).elems) hnb I.g I.l W
    have hA : ∀ c p rest d, w.pc = .assign c p rest → s.shared.readAssign (age s.clock) p = some d →
        (s.shared.cell d).state = 1 := by
      intro c p rest d hpc hp
      have hown : w.pc.own = some c := by rw [hpc]; rfl
      obtain ⟨hd, h1, h3⟩ := I.g.readAssign_some (W.fresh p (by rw [hpc]; simp [Pc.kept, Pc.rest])) hp
      rcases I.cls d hd h1 with h | ⟨j, h⟩ | ⟨j, v, hv, ho⟩
      · exact I.g.drop d hd h1 h
      · exact (I.g.com j d h).2.2.2.1
      · have hij := hone i j w v hi hv (by rw [hown]; simp) (by rw [ho]; simp)
        subst hij
        rw [hi] at hv
        injection hv with hv
        subst hv
        rw [hown] at ho
        injection ho with ho
        subst ho
        exact absurd h3 (W.apart c hown p (by rw [hpc]; simp [Pc.rest]))
    obtain ⟨q1, q2⟩ := pstep_late (min := min) (me := i) (fun p => (ord s.clock).perm (query p).elems) (R.q i w hi).1 hA
      R.t
    simp only
    generalize pstep min (fun p => (ord s.clock).perm (query p).elems) (age s.clock) i s.shared w = r at S q1 q2
    refine ⟨?_, q2⟩
    intro j v hv
    simp only [List.getElem?_set] at hv
    split_ifs at hv with h1
    · subst h1
      injection hv with hv
      subst hv
      exact ⟨q1, fun d hd => (S.w.other d hd).2⟩
    · have hl := S.e.len
      refine ⟨?_, fun d hd => Nat.lt_of_lt_of_le ((R.q j v hv).2 d hd) hl⟩
      intro d hd
      exact S.e.st d ((R.q j v hv).2 d hd) ((R.q j v hv).1 d hd)

theorem pnosteal_start (h : sh0.Fresh) (slices : List (List P)) : PNoSteal (PState.start sh0 slices) := by
  refine ⟨?_, ?_⟩
  · intro i w hw
    simp only [PState.start, List.getElem?_map, Option.map_eq_some_iff] at hw
    obtain ⟨slice, _, rfl⟩ := hw
    exact ⟨by simp [PLate, Pc.other], by simp [Pc.other]⟩
  · intro i c p d he
    simp only [PState.start, h.trace] at he
    cases he

theorem pnosteal_run {query : P → HSet P} {slices : List (List P)}
    (hN : ∀ slice ∈ slices, ∀ p ∈ slice, (query p).elems.length ≤ N) (ord : Nat → Order) (age : Nat → Nat)
    {s : PState P} (I : PInv min N query slices sh0 s) (R : PNoSteal s) (sched : List Nat)
    (hone : ∀ pre, pre <+: sched → (s.run min query ord age pre).OneAttempt) :
    PNoSteal (s.run min query ord age sched) := by
  induction sched generalizing s with
  | nil => exact R
  | cons i is ih =>
    refine ih (pinv_step hN ord age I i) (pnosteal_step hN ord age I (hone [] (List.nil_prefix)) R i) ?_
    intro pre hpre
    exact hone (i :: pre) ((List.cons_prefix_cons).mpr ⟨rfl, hpre⟩)

/-! ### A single worker -/

/-- The similar points of `q` that no cluster has. -/
def unassignedOf (query : P → HSet P) (sh : PShared P) (q : P) : List P :=
  (query q).elems.filter fun p => (sh.ptr.get? p).isNone

/-- `q` needs no further attention: it is assigned or has too few unassigned similar points. -/
def settled (min : Nat) (query : P → HSet P) (sh : PShared P) (q : P) : Prop :=
  sh.ptr.get? q ≠ none ∨ (unassignedOf query sh q).length < min

theorem settled_mono {query : P → HSet P} (h : ∀ p, sh.ptr.get? p ≠ none → sh'.ptr.get? p ≠ none) {q : P}
    (hs : settled min query sh q) : settled min query sh' q := by
  rcases hs with hs | hs
  · exact Or.inl (h q hs)
  · refine Or.inr (Nat.lt_of_le_of_lt ?_ hs)
    unfold unassignedOf
    refine (List.monotone_filter_right _ ?_).length_le
    intro p hp
    by_contra hn
    have : sh.ptr.get? p ≠ none := by
      intro e
      rw [e] at hn
      exact hn rfl
    have := h p this
    rw [Option.isNone_iff_eq_none] at hp
    exact this hp

theorem settled_of_few {query : P → HSet P} {q : P} {l : List P} (hl : l.length < min)
    (h : ∀ p ∈ (query q).elems, sh.ptr.get? p = none → p ∈ l) : settled min query sh q := by
  refine Or.inr (Nat.lt_of_le_of_lt ?_ hl)
  have hn : (unassignedOf query sh q).Nodup := (query q).nodup.filter _
  refine (List.subperm_of_subset hn ?_).length_le
  intro p hp
  unfold unassignedOf at hp
  rw [List.mem_filter, Option.isNone_iff_eq_none] at hp
  exact h p hp.1 hp.2

/-- A worker that is alone, after the points of `slice` that are not in `todo`. -/
def PSolo (min : Nat) (query : P → HSet P) (slice : List P) (sh : PShared P) (w : PWorker P) : Prop :=
  let doing (p : P) : Prop := ∀ q ∈ slice, q ∈ w.todo ∨ q = p ∨ settled min query sh q
  match w.pc with
  | .next => ∀ q ∈ slice, q ∈ w.todo ∨ settled min query sh q
  | .done => ∀ q ∈ slice, settled min query sh q
  | .filter qs acc => (∀ q ∈ acc, sh.ptr.get? q = none) ∧
      ∃ p, doing p ∧ ∀ q ∈ (query p).elems, sh.ptr.get? q = none → q ∈ acc ++ qs
  | .check c rest => (sh.cell c).state = 0 ∧ (∀ q ∈ rest, sh.ptr.get? q = none) ∧
      ∃ p, doing p ∧ ∀ q ∈ (query p).elems, sh.ptr.get? q = none → q ∈ rest
  | .assign c r rest => (sh.cell c).state = 0 ∧ (∀ q ∈ r :: rest, sh.ptr.get? q = none) ∧
      ∃ p, doing p ∧ ∀ q ∈ (query p).elems, sh.ptr.get? q = none → q ∈ r :: rest
  | .commit c => (sh.cell c).state = 0 ∧ ∃ p, doing p ∧ ∀ q ∈ (query p).elems, sh.ptr.get? q ≠ none
  | _ => False

theorem psolo_step {query : P → HSet P} {slice : List P} (o : Order) (hmin : 1 ≤ min)
    (W : PW min N sh0 me sh w) (S : PSolo min query slice sh w) :
    PSolo min query slice (pstep min (fun p => o.perm (query p).elems) 0 me sh w).1
      (pstep min (fun p => o.perm (query p).elems) 0 me sh w).2 := by
  obtain ⟨pc, todo, out⟩ := w
  cases pc with
  | next =>
    simp only [PSolo] at S
    cases todo with
    | nil => simp only [pstep, PSolo]; exact fun q hq => (S q hq).resolve_left (by simp)
    | cons p rest =>
      simp only [pstep]
      split_ifs with h
      · simp only [PSolo]
        intro q hq
        rcases S q hq with h' | h'
        · rcases List.mem_cons.mp h' with rfl | h'
          · right; left
            intro e
            change (sh.ptr.get? q).isSome = true at h
            rw [e] at h
            cases h
          · exact Or.inl h'
        · exact Or.inr h'
      · simp only [PSolo]
        refine ⟨by simp, p, ?_, ?_⟩
        · intro q hq
          rcases S q hq with h' | h'
          · rcases List.mem_cons.mp h' with rfl | h'
            · exact Or.inr (Or.inl rfl)
            · exact Or.inl h'
          · exact Or.inr (Or.inr h')
        · intro q hq _
          rw [List.nil_append]
          exact (o.mem_perm _ _).mpr hq
  | filter qs acc =>
    simp only [PSolo] at S
    obtain ⟨S1, p, S2, S3⟩ := S
    cases qs with
    | nil =>
      rw [List.append_nil] at S3
      simp only [pstep]
      split_ifs with h
      · simp only [PSolo]
        refine ⟨by rw [cell_alloc, if_pos rfl], S1, p, ?_, S3⟩
        exact S2
      · simp only [PSolo]
        intro q hq
        rcases S2 q hq with h' | rfl | h'
        · exact Or.inl h'
        · exact Or.inr (settled_of_few (by omega) S3)
        · exact Or.inr h'
    | cons r qs =>
      simp only [pstep]
      split_ifs with h
      · simp only [PSolo]
        refine ⟨?_, p, S2, fun q hq hn => by simpa using S3 q hq hn⟩
        intro q hq
        rw [List.mem_append, List.mem_singleton] at hq
        rcases hq with hq | rfl
        · exact S1 q hq
        · exact Option.isNone_iff_eq_none.mp h
      · simp only [PSolo]
        refine ⟨S1, p, S2, fun q hq hn => ?_⟩
        have := S3 q hq hn
        rw [List.mem_append, List.mem_cons] at this
        rw [List.mem_append]
        rcases this with h' | rfl | h'
        · exact Or.inl h'
        · change ¬ (sh.ptr.get? q).isNone = true at h; rw [hn] at h; exact absurd rfl h
        · exact Or.inr h'
  | check c rest =>
    simp only [PSolo] at S
    obtain ⟨S0, S1, p, S2, S3⟩ := S
    cases rest with
    | nil =>
      simp only [pstep, PSolo]
      exact ⟨S0, p, S2, fun q hq hn => by simpa using S3 q hq hn⟩
    | cons r rest =>
      simp only [pstep]
      rw [if_neg (show ¬ sh.readState 0 c = ROLLED_BACK by
        change ¬ (sh.cell c).state = _; rw [S0]; simp [ROLLED_BACK])]
      simp only [PSolo]
      exact ⟨S0, S1, p, S2, S3⟩
  | assign c r rest =>
    simp only [PSolo] at S
    obtain ⟨S0, S1, p, S2, S3⟩ := S
    have ho := (W.own c rfl).2.1
    have hn := W.nodup
    simp only [Pc.rest, List.nodup_cons] at hn
    have hr := S1 r (by simp)
    simp only [pstep, readAssign_zero]
    rw [hr]
    simp only [PSolo]
    have hptr : ∀ q, ((sh.setPtr r c).push c r).ptr.get? q = if q = r then some c else sh.ptr.get? q := by
      intro q
      rw [ptr_push, ptr_setPtr]
    refine ⟨?_, ?_, p, ?_, ?_⟩
    · rw [cell_push _ _ _ _ (by simpa using ho), if_pos rfl]
      exact S0
    · intro q hq
      rw [hptr, if_neg (by rintro rfl; exact hn.1 hq)]
      exact S1 q (by simp [hq])
    · intro q hq
      rcases S2 q hq with h | h | h
      · exact Or.inl h
      · exact Or.inr (Or.inl h)
      · refine Or.inr (Or.inr (settled_mono ?_ h))
        intro x hx
        rw [hptr]
        split_ifs
        · simp
        · exact hx
    · intro q hq he
      rw [hptr] at he
      split_ifs at he with hqr
      exact (List.mem_cons.mp (S3 q hq he)).resolve_left hqr
  | commit c =>
    simp only [PSolo] at S
    obtain ⟨S0, p, S2, S3⟩ := S
    simp only [pstep]
    rw [if_pos S0]
    simp only [PSolo]
    intro q hq
    rcases S2 q hq with h | rfl | h
    · exact Or.inl h
    · exact Or.inr (settled_of_few (l := []) (by rw [List.length_nil]; omega) fun x hx he => absurd he (S3 x hx))
    · exact Or.inr h
  | done => exact S
  | undo c qs p rest => exact S.elim
  | conflict1 c d p rest => exact S.elim
  | conflict2 c d p rest => exact S.elim
  | conflict3 c d p rest => exact S.elim
  | conflict4 c d p rest => exact S.elim
  | giveUp c => exact S.elim
  | release c qs => exact S.elim

theorem psolo_run {query : P → HSet P} {slice : List P} (hN : ∀ p ∈ slice, (query p).elems.length ≤ N)
    (hmin : 1 ≤ min) (ord : Nat → Order) {s : PState P} (I : PInv min N query [slice] sh0 s)
    (hs : ∃ w, s.workers = [w] ∧ PSolo min query slice s.shared w) (sched : List Nat) :
    ∃ w, (s.run min query ord latest sched).workers = [w] ∧ PSolo min query slice (s.run min query ord latest sched).shared w := by
  induction sched generalizing s with
  | nil => exact hs
  | cons i is ih =>
    refine ih (pinv_step (by simpa using hN) ord latest I i) ?_
    obtain ⟨w, hw, S⟩ := hs
    unfold PState.step
    cases i with
    | zero =>
      have hi : s.workers[0]? = some w := by rw [hw]; rfl
      rw [hi]
      simp only
      exact ⟨_, by rw [hw]; rfl, psolo_step (ord s.clock) hmin (I.w 0 w hi) S⟩
    | succ i =>
      have hi : s.workers[i + 1]? = none := by rw [hw]; rfl
      rw [hi]
      exact ⟨w, hw, S⟩

/-- A machine with one worker never has two attempts. -/
theorem oneAttempt_single {query : P → HSet P} (ord : Nat → Order) (age : Nat → Nat) {s : PState P} (h : s.workers.length = 1)
    (sched : List Nat) : (s.run min query ord age sched).OneAttempt := by
  have hl : (s.run min query ord age sched).workers.length = 1 := by
    induction sched generalizing s with
    | nil => exact h
    | cons i is ih =>
      refine ih ?_
      unfold PState.step
      cases s.workers[i]? with
      | none => exact h
      | some w => simpa using h
  intro i j v w hv hw _ _
  have hi : i < 1 := by
    by_contra hn
    rw [List.getElem?_eq_none (by omega)] at hv
    cases hv
  have hj : j < 1 := by
    by_contra hn
    rw [List.getElem?_eq_none (by omega)] at hw
    cases hw
  omega

/-! ### Sorting -/

variable {Id : Type} [DecidableEq Id]

/-- The counting map has an entry for every id of the input. -/
theorem pointCount_some (idOf : P → Id) (f : P → Nat) (points : List P) (m : HMap Id Nat) (p : P)
    (h : p ∈ points ∨ (m.get? (idOf p)).isSome) :
    ((points.foldl (fun m p => m.insert (idOf p) (f p)) m).get? (idOf p)).isSome := by
  induction points generalizing m with
  | nil => exact h.resolve_left (by simp)
  | cons q qs ih =>
    rw [List.foldl_cons]
    refine ih _ ?_
    rcases h with h | h
    · rcases List.mem_cons.mp h with rfl | h
      · right; rw [HMap.get?_insert, if_pos rfl]; rfl
      · exact Or.inl h
    · right
      rw [HMap.get?_insert]
      split_ifs
      · rfl
      · exact h

/-- With distinct ids the entry is the count of the point. -/
theorem pointCount_eq (idOf : P → Id) (f : P → Nat) (points : List P) (m : HMap Id Nat) (p : P)
    (hinj : ∀ q ∈ points, idOf q = idOf p → q = p) (h : p ∈ points ∨ m.get? (idOf p) = some (f p)) :
    (points.foldl (fun m p => m.insert (idOf p) (f p)) m).get? (idOf p) = some (f p) := by
  induction points generalizing m with
  | nil => exact h.resolve_left (by simp)
  | cons q qs ih =>
    rw [List.foldl_cons]
    refine ih _ (fun x hx => hinj x (by simp [hx])) ?_
    by_cases e : idOf p = idOf q
    · have := hinj q (by simp) e.symm
      subst this
      right; rw [HMap.get?_insert, if_pos rfl]
    · rcases h with h | h
      · rcases List.mem_cons.mp h with rfl | h
        · exact absurd rfl e
        · exact Or.inl h
      · right; rw [HMap.get?_insert, if_neg e]; exact h

/-- Sorting never panics; it permutes the points and, with distinct ids, orders them by descending number of similar
points. -/
theorem sortByMostSimilar_spec (idOf : P → Id) (query : P → HSet P) (points : List P) :
    ∃ l, sortByMostSimilar idOf query points = .ok l ∧ l.Perm points ∧
      ((∀ p ∈ points, ∀ q ∈ points, idOf p = idOf q → p = q) →
        l.Pairwise fun p q => (query q).elems.length ≤ (query p).elems.length) := by
  unfold sortByMostSimilar
  simp only
  set m := points.foldl (fun m p => m.insert (idOf p) (query p).elems.length) (HMap.empty : HMap Id Nat) with hm
  have hmap : points.mapM (fun p => do
      let count ← unwrap (m.get? (idOf p))
      pure (count, p)) = (.ok (points.map fun p => ((m.get? (idOf p)).getD 0, p)) : Except Panic _) := by
    refine mapM_ok_of_forall ?_
    intro p hp
    obtain ⟨n, hn⟩ := Option.isSome_iff_exists.mp
      (pointCount_some idOf (fun p => (query p).elems.length) points HMap.empty p (Or.inl hp))
    rw [← hm] at hn
    rw [hn]
    rfl
  rw [hmap]
  refine ⟨_, rfl, ?_, ?_⟩
  · have h1 := (List.mergeSort_perm (points.map fun p => ((m.get? (idOf p)).getD 0, p))
      fun a b => decide (b.1 ≤ a.1)).map Prod.snd
    refine h1.trans ?_
    rw [List.map_map]
    exact List.Perm.of_eq (List.map_id' _)
  · intro hinj
    have hs := List.pairwise_mergeSort (le := fun a b : Nat × P => decide (b.1 ≤ a.1))
      (by intro a b c h1 h2; simp only [decide_eq_true_eq] at *; omega)
      (by intro a b; simp only [Bool.or_eq_true, decide_eq_true_eq]; omega)
      (points.map fun p => ((m.get? (idOf p)).getD 0, p))
    rw [List.pairwise_map]
    refine List.Pairwise.imp_of_mem ?_ hs
    intro a b ha hb h
    have key : ∀ a : Nat × P, a ∈ (points.map fun p => ((m.get? (idOf p)).getD 0, p)).mergeSort
        (fun a b => decide (b.1 ≤ a.1)) → a.1 = (query a.2).elems.length := by
      intro a ha
      rw [(List.mergeSort_perm _ _).mem_iff, List.mem_map] at ha
      obtain ⟨p, hp, rfl⟩ := ha
      simp only
      rw [hm, pointCount_eq idOf (fun p => (query p).elems.length) points HMap.empty p
        (fun q hq e => hinj q hq p hp e) (Or.inl hp)]
      rfl
    simp only [decide_eq_true_eq] at h
    rw [← key a ha, ← key b hb]
    exact h

/-! ### Further invariants -/

/-- Invariants that speak about the memory and the workers only. -/
theorem run_inv {query : P → HSet P} {slices : List (List P)}
    (hN : ∀ slice ∈ slices, ∀ p ∈ slice, (query p).elems.length ≤ N) (ord : Nat → Order) (age : Nat → Nat)
    (J : PShared P → List (PWorker P) → Prop)
    (hstep : ∀ (s : PState P) (i : Nat) (w : PWorker P) (o : Order) (k : Nat), PInv min N query slices sh0 s →
      J s.shared s.workers → s.workers[i]? = some w →
      J (pstep min (fun p => o.perm (query p).elems) k i s.shared w).1
        (s.workers.set i (pstep min (fun p => o.perm (query p).elems) k i s.shared w).2))
    {s : PState P} (I : PInv min N query slices sh0 s) (h : J s.shared s.workers) (sched : List Nat) :
    J (s.run min query ord age sched).shared (s.run min query ord age sched).workers := by
  induction sched generalizing s with
  | nil => exact h
  | cons i is ih =>
    refine ih (pinv_step hN ord age I i) ?_
    unfold PState.step
    cases hi : s.workers[i]? with
    | none => exact h
    | some w => exact hstep s i w (ord s.clock) (age s.clock) I h hi

/-- Points in clusters of the call were free before the call. -/
def PFree (sh0 sh : PShared P) : Prop :=
  ∀ c, sh0.heap.length ≤ c → c < sh.heap.length → ∀ p ∈ (sh.cell c).points, ∀ d, d < sh0.heap.length →
    sh0.ptr.get? p ≠ some d

theorem pfree_step (nbrs : P → List P) (W : PW min N sh0 me sh w) (F : PFree sh0 sh) :
    PFree sh0 (pstep min nbrs k me sh w).1 := by
  intro c h1 _ p hp
  have S := pstep_shape (k := k) nbrs W
  by_cases ho : w.pc.own = some c
  · rcases S.grow c ho p hp with h | h
    · exact F c h1 (W.own c ho).2.1 p h
    · refine W.fresh p ?_
      have hk : w.pc.kept = w.pc.rest := by
        revert ho; cases w.pc <;> simp [Pc.own, Pc.kept]
      rw [hk]
      exact h
  · by_cases hc : c < sh.heap.length
    · rw [S.foreign c hc ho] at hp
      exact F c h1 hc p hp
    · rw [S.fresh c (by omega)] at hp
      cases hp

/-- Clusters that a worker can still allocate. -/
def PWorker.credit (w : PWorker P) : Nat :=
  w.todo.length + match w.pc with | .filter _ _ => 1 | _ => 0

theorem pstep_credit (nbrs : P → List P) :
    (pstep min nbrs k me sh w).1.heap.length + (pstep min nbrs k me sh w).2.credit ≤ sh.heap.length + w.credit := by
  obtain ⟨pc, todo, out⟩ := w
  cases pc with
  | next =>
    cases todo with
    | nil => simp [pstep, PWorker.credit]
    | cons p rest => simp only [pstep]; split_ifs <;> simp [PWorker.credit]
  | filter qs acc =>
    cases qs <;> simp only [pstep] <;> split_ifs <;> simp [PWorker.credit] <;> omega
  | check c rest =>
    cases rest <;> simp only [pstep] <;> (try split_ifs) <;> simp [PWorker.credit]
  | undo c qs p rest => cases qs <;> simp [pstep, PWorker.credit]
  | assign c p rest =>
    simp only [pstep]
    cases sh.readAssign k p <;> simp [PWorker.credit]
  | conflict1 c d p rest => simp only [pstep]; split_ifs <;> simp [PWorker.credit]
  | conflict2 c d p rest => simp only [pstep]; split_ifs <;> simp [PWorker.credit]
  | conflict3 c d p rest => simp only [pstep]; split_ifs <;> simp [PWorker.credit]
  | conflict4 c d p rest => simp only [pstep]; split_ifs <;> simp [PWorker.credit]
  | giveUp c => simp only [pstep]; split_ifs <;> simp [PWorker.credit]
  | release c qs => cases qs <;> simp [pstep, PWorker.credit]
  | commit c => simp only [pstep]; split_ifs <;> simp [PWorker.credit]
  | done => exact Nat.le_refl _

theorem sum_map_set {α : Type} (f : α → Nat) (l : List α) (i : Nat) (a b : α) (h : l[i]? = some a) :
    ((l.set i b).map f).sum + f a = (l.map f).sum + f b := by
  induction l generalizing i with
  | nil => cases h
  | cons x l ih =>
    cases i with
    | zero =>
      simp only [List.getElem?_cons_zero, Option.some.injEq] at h
      subst h
      simp only [List.set_cons_zero, List.map_cons, List.sum_cons]
      omega
    | succ i =>
      rw [List.getElem?_cons_succ] at h
      have := ih i h
      simp only [List.set_cons_succ, List.map_cons, List.sum_cons]
      omega

/-- At most one attempt per input point. -/
theorem attempts_le {query : P → HSet P} {slices : List (List P)}
    (hN : ∀ slice ∈ slices, ∀ p ∈ slice, (query p).elems.length ≤ N) (ord : Nat → Order) (age : Nat → Nat) (h : sh0.Fresh)
    (sched : List Nat) :
    ((PState.start sh0 slices).run min query ord age sched).shared.heap.length ≤
      sh0.heap.length + slices.flatten.length := by
  have := run_inv (min := min) (sh0 := sh0) hN ord age
    (fun sh ws => sh.heap.length + (ws.map PWorker.credit).sum ≤ sh0.heap.length + slices.flatten.length) ?_
    (pinv_start h slices) ?_ sched
  · omega
  · intro s i w o k I hJ hi
    have h1 := pstep_credit (min := min) (k := k) (me := i) (sh := s.shared) (w := w) (fun p => o.perm (query p).elems)
    have h2 := sum_map_set PWorker.credit s.workers i w
      (pstep min (fun p => o.perm (query p).elems) k i s.shared w).2 hi
    omega
  · simp only [PState.start, List.map_map, List.length_flatten]
    refine Nat.le_of_eq ?_
    congr 2

/-- Freed clusters that are accessed are clusters of the call. -/
def PUaf (sh0 sh : PShared P) : Prop := ∀ i d, .useAfterFree i d ∈ sh.trace → sh0.heap.length ≤ d

theorem puaf_step (nbrs : P → List P) (W : PW min N sh0 me sh w) (U : PUaf sh0 sh) :
    PUaf sh0 (pstep min nbrs k me sh w).1 := by
  obtain ⟨pc, todo, out⟩ := w
  have hd : ∀ d, sh0.heap.length ≤ d → PUaf sh0 (sh.deref me d) := by
    intro d h
    rcases deref_cases sh me d with e | e
    · rw [e]; exact U
    · rw [e.1]
      intro i d' h'
      rw [trace_log, List.mem_append, List.mem_singleton] at h'
      rcases h' with h' | h'
      · exact U i d' h'
      · injection h' with _ h'
        rw [h']
        exact h
  cases pc with
  | next =>
    cases todo with
    | nil => exact U
    | cons p rest => simp only [pstep]; split_ifs <;> exact U
  | filter qs acc => cases qs <;> simp only [pstep] <;> split_ifs <;> exact U
  | check c rest => cases rest <;> simp only [pstep] <;> (try split_ifs) <;> exact U
  | undo c qs p rest =>
    cases qs with
    | nil => exact U
    | cons q qs => intro i d h; simp only [pstep, trace_unassign] at h; exact U i d h
  | assign c p rest =>
    simp only [pstep]
    cases sh.readAssign k p <;> exact U
  | conflict1 c d p rest => simp only [pstep]; split_ifs <;> exact hd d (W.other d rfl).1
  | conflict2 c d p rest =>
    simp only [pstep]
    split_ifs
    · intro i d' h
      simp only [trace_log, List.mem_append, List.mem_singleton, reduceCtorEq, or_false] at h
      exact hd d (W.other d rfl).1 i d' h
    · exact hd d (W.other d rfl).1
  | conflict3 c d p rest => simp only [pstep]; split_ifs <;> exact hd d (W.other d rfl).1
  | conflict4 c d p rest =>
    simp only [pstep]
    split_ifs
    · intro i d' h
      simp only [trace_push, trace_log, trace_setState, List.mem_append, List.mem_singleton, reduceCtorEq,
        or_false] at h
      exact hd d (W.other d rfl).1 i d' h
    · exact hd d (W.other d rfl).1
  | giveUp c =>
    simp only [pstep]
    split_ifs
    · intro i d' h
      simp only [trace_setState, List.mem_append, List.mem_singleton, reduceCtorEq, or_false] at h
      exact U i d' h
    · exact U
  | release c qs =>
    cases qs with
    | nil =>
      intro i d' h
      simp only [pstep, trace_free, List.mem_append, List.mem_singleton, reduceCtorEq, or_false] at h
      exact U i d' h
    | cons q qs => intro i d h; simp only [pstep, trace_unassign] at h; exact U i d h
  | commit c =>
    simp only [pstep]
    split_ifs
    · intro i d' h
      simp only [trace_setState, List.mem_append, List.mem_singleton, reduceCtorEq, or_false] at h
      exact U i d' h
    · exact U
  | done => exact U

end Verif
