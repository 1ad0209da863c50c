import Verif.Model.ClusterAddr
import Verif.Props.Sessions

/-!
# Property C140: the result does not depend on the allocator
-/
namespace Verif.Props
open Verif Verif.Spec
variable {P : Type} [DecidableEq P]

/-- What every allocator guarantees: boxes that are alive at the same time have different addresses. -/
def Apart (addr : Nat → Nat) (sh : PShared P) : Prop :=
  ∀ c d, c < sh.heap.length → d < sh.heap.length → (sh.cell c).dropped = false → (sh.cell d).dropped = false →
    addr c = addr d → c = d

omit [DecidableEq P] in
theorem occupant_eq {addr : Nat → Nat} {sh : PShared P} (h : Apart addr sh) {d : Nat} (hd : d < sh.heap.length)
    (ha : (sh.cell d).dropped = false) : sh.occupant addr d = d := by
  unfold PShared.occupant
  cases e : (List.range sh.heap.length).find? fun e => !(sh.cell e).dropped && addr e == addr d with
  | none => rfl
  | some x =>
    have h1 := List.find?_some e
    have h2 := List.mem_range.mp (List.mem_of_find?_eq_some e)
    simp only [Bool.and_eq_true, Bool.not_eq_true', beq_iff_eq] at h1
    exact h x d h2 hd h1.1 ha h1.2

/-- The points that a worker is about to release. -/
def releasing : Pc P → List P
  | .undo _ todo _ _ => todo
  | .release _ todo => todo
  | _ => []

/-- They were free before the call. -/
def PRel (sh0 : PShared P) (ws : List (PWorker P)) : Prop :=
  ∀ w ∈ ws, ∀ p ∈ releasing w.pc, ∀ d, d < sh0.heap.length → sh0.ptr.get? p ≠ some d

theorem prel_step {min N k me : Nat} {sh0 sh : PShared P} {w : PWorker P} (nbrs : P → List P) (W : PW min N sh0 me sh w)
    (F : PFree sh0 sh) (R : ∀ p ∈ releasing w.pc, ∀ d, d < sh0.heap.length → sh0.ptr.get? p ≠ some d) :
    ∀ p ∈ releasing (pstep min nbrs k me sh w).2.pc, ∀ d, d < sh0.heap.length → sh0.ptr.get? p ≠ some d := by
  have own : ∀ c, w.pc.own = some c → ∀ p ∈ (sh.cell c).points, ∀ d, d < sh0.heap.length → sh0.ptr.get? p ≠ some d :=
    fun c hc => F c (W.own c hc).1 (W.own c hc).2.1
  unfold pstep
  split <;> rename_i e
  all_goals try (rw [e] at R own)
  all_goals try (split)
  all_goals try (split)
  all_goals try (intro p hp; simp [releasing] at hp; done)
  all_goals try (exact own _ rfl)
  all_goals (intro p hp; exact R p (by simp_all [releasing]))

omit [DecidableEq P] in
theorem deref_trace (sh : PShared P) (me d : Nat) : ∀ e ∈ sh.trace, e ∈ (sh.deref me d).trace := by
  intro e he
  unfold PShared.deref
  split
  · exact List.mem_append_left _ he
  · exact he

/-- An access through a pointer to a freed box is recorded. -/
theorem uaf_recorded (addr : Nat → Nat) {min k me d : Nat} {nbrs : P → List P} {sh : PShared P} {w : PWorker P}
    (ho : w.pc.other = some d) (hd : (sh.cell d).dropped = true) :
    .useAfterFree me d ∈ (pstepAddr addr min nbrs k me sh w).1.trace := by
  have h : .useAfterFree me d ∈ (sh.deref me d).trace := by
    unfold PShared.deref
    rw [if_pos hd]
    exact List.mem_append_right _ List.mem_cons_self
  unfold pstepAddr
  cases hw : w.pc <;> rw [hw] at ho <;> simp only [Pc.other, Option.some.injEq, reduceCtorEq] at ho <;> subst ho <;> simp only
  · split <;> exact h
  · split
    · exact List.mem_append_left _ h
    · exact h
  · split <;> exact h
  · split
    · exact List.mem_append_left _ (List.mem_append_left _ h)
    · exact h

theorem unassignAddr_trace (addr : Nat → Nat) (sh : PShared P) (c : Nat) (p : P) :
    (sh.unassignAddr addr c p).trace = sh.trace := by
  unfold PShared.unassignAddr
  split
  · split <;> rfl
  · rfl

theorem unassign_trace (sh : PShared P) (c : Nat) (p : P) : (sh.unassign c p).trace = sh.trace := by
  unfold PShared.unassign
  split <;> rfl

theorem pstep_trace {min k me : Nat} (nbrs : P → List P) {sh : PShared P} {w : PWorker P} :
    ∀ e ∈ sh.trace, e ∈ (pstep min nbrs k me sh w).1.trace := by
  intro e he
  have hd := fun d => deref_trace sh me d e he
  unfold pstep
  repeat' split
  all_goals first
    | exact he
    | exact hd _
    | (rw [unassign_trace]; exact he)
    | exact List.mem_append_left _ (hd _)
    | exact List.mem_append_left _ (List.mem_append_left _ (hd _))
    | exact List.mem_append_left _ he

theorem pstepAddr_trace (addr : Nat → Nat) {min k me : Nat} (nbrs : P → List P) {sh : PShared P} {w : PWorker P} :
    ∀ e ∈ sh.trace, e ∈ (pstepAddr addr min nbrs k me sh w).1.trace := by
  intro e he
  have hd := fun d => deref_trace sh me d e he
  unfold pstepAddr
  simp only
  repeat' split
  all_goals first
    | exact pstep_trace nbrs e he
    | exact he
    | exact hd _
    | (rw [unassignAddr_trace]; exact he)
    | exact List.mem_append_left _ (hd _)
    | exact List.mem_append_left _ (List.mem_append_left _ (hd _))

/-- Without an access to a freed box, a step with addresses is a step without. -/
theorem addr_step {addr : Nat → Nat} {min N k me : Nat} {sh0 sh : PShared P} {w : PWorker P} (nbrs : P → List P)
    (G : PG min sh0 sh) (W : PW min N sh0 me sh w) (hA : Apart addr sh)
    (R : ∀ p ∈ releasing w.pc, ∀ d, d < sh0.heap.length → sh0.ptr.get? p ≠ some d)
    (hno : ∀ i d, .useAfterFree i d ∉ (pstepAddr addr min nbrs k me sh w).1.trace) :
    pstepAddr addr min nbrs k me sh w = pstep min nbrs k me sh w := by
  have occ : ∀ d, w.pc.other = some d → sh.occupant addr d = d := by
    intro d hd
    refine occupant_eq hA (W.other d hd).2 ?_
    cases e : (sh.cell d).dropped with
    | false => rfl
    | true => exact absurd (uaf_recorded addr hd e) (hno _ _)
  have una : ∀ c p, w.pc.own = some c → p ∈ releasing w.pc → sh.unassignAddr addr c p = sh.unassign c p := by
    intro c p hc hp
    obtain ⟨_, c2, _, c4, _⟩ := W.own c hc
    unfold PShared.unassignAddr PShared.unassign
    cases e : sh.ptr.get? p with
    | none => simp
    | some d =>
      have hnew : sh0.heap.length ≤ d := by
        by_contra hd
        exact R p hp d (by omega) ((G.oldptr p d (by omega)).mp e)
      obtain ⟨d1, d2, _⟩ := G.ptr p d e hnew
      by_cases hdc : d = c
      · subst hdc
        simp
      · have : addr d ≠ addr c := fun h => hdc (hA d c d1 c2 d2 c4 h)
        simp [this, hdc]
  unfold pstepAddr
  split <;> rename_i e <;> (try rw [e] at occ una)
  · rw [una _ _ rfl List.mem_cons_self]; unfold pstep; rw [e]
  · rw [una _ _ rfl List.mem_cons_self]; unfold pstep; rw [e]
  · rw [occ _ rfl]; unfold pstep; rw [e]
  · rw [occ _ rfl]; unfold pstep; rw [e]
  · rw [occ _ rfl]; unfold pstep; rw [e]
  · simp only; rw [occ _ rfl]; unfold pstep; rw [e]
  · rfl

/-- C140, what holds: as long as no freed cluster is accessed, the machine with addresses is the machine in which every box has
an address of its own, whatever addresses the allocator chooses, for every schedule and all values that relaxed loads
return. Missing: the absence of such accesses (C63). -/
theorem C140_allocator_partial (addr : Nat → Nat) (min : Nat) (query : P → HSet P) (ord : Nat → Order) (age : Nat → Nat)
    (sh0 : PShared P) (h0 : sh0.Fresh) (slices : List (List P)) (sched : List Nat)
    (halloc : ∀ pre, pre <+: sched → Apart addr ((PState.start sh0 slices).runAddr addr min query ord age pre).shared)
    (hno : ∀ i c, .useAfterFree i c ∉ ((PState.start sh0 slices).runAddr addr min query ord age sched).shared.trace) :
    (PState.start sh0 slices).runAddr addr min query ord age sched =
      (PState.start sh0 slices).run min query ord age sched := by
  obtain ⟨N, hN⟩ := exists_bound query slices
  induction sched using List.reverseRecOn with
  | nil => rfl
  | append_singleton sched i ih =>
    have e1 : (PState.start sh0 slices).runAddr addr min query ord age (sched ++ [i]) =
        ((PState.start sh0 slices).runAddr addr min query ord age sched).stepAddr addr min query ord age i := by
      unfold PState.runAddr
      rw [List.foldl_append]
      rfl
    have e2 : (PState.start sh0 slices).run min query ord age (sched ++ [i]) =
        ((PState.start sh0 slices).run min query ord age sched).step min query ord age i := by
      unfold PState.run
      rw [List.foldl_append]
      rfl
    rw [e1] at hno
    have hA := halloc sched (List.prefix_append _ _)
    have hno' : ∀ i c, .useAfterFree i c ∉
        ((PState.start sh0 slices).runAddr addr min query ord age sched).shared.trace := by
      intro j c h
      refine hno j c ?_
      unfold PState.stepAddr
      split
      · exact h
      · exact pstepAddr_trace addr _ _ h
    have heq := ih (fun pre h => halloc pre (h.trans (List.prefix_append _ _))) hno'
    rw [e1, e2, heq]
    rw [heq] at hno hA
    have I := pinv_run (min := min) hN ord age (pinv_start h0 slices) sched
    have J := run_inv (min := min) (sh0 := sh0) hN ord age (fun sh ws => PFree sh0 sh ∧ PRel sh0 ws)
      (fun s i w o k I F hi => ⟨pfree_step _ (I.w i w hi) F.1, by
        intro v hv
        rcases List.mem_or_eq_of_mem_set hv with hv | rfl
        · exact F.2 v hv
        · exact prel_step _ (I.w i w hi) F.1 (F.2 w (List.mem_of_getElem? hi))⟩)
      (pinv_start h0 slices) ⟨fun c h1 h2 => absurd h2 (Nat.not_lt.mpr h1), by
        intro w hw
        obtain ⟨slice, _, rfl⟩ := List.mem_map.mp hw
        intro p hp
        cases hp⟩ sched
    generalize (PState.start sh0 slices).run min query ord age sched = s at *
    unfold PState.stepAddr PState.step
    unfold PState.stepAddr at hno
    cases hi : s.workers[i]? with
    | none => rfl
    | some w =>
      rw [hi] at hno
      simp only at hno ⊢
      rw [addr_step _ I.g (I.w i w hi) hA (J.2 w (List.mem_of_getElem? hi)) hno]

/-! ### Where the allocator matters -/

/-- Points 0 and 1 are both similar to 0 and 3; 4 is similar to 5. -/
def exReuse (p : Nat) : HSet Nat :=
  if p = 0 then HSet.empty.extend [3, 0] else if p = 1 then HSet.empty.extend [0, 3]
  else if p = 4 then HSet.empty.extend [4, 5] else HSet.empty

/-- The third box gets the address of the second. -/
def reuseAddr (c : Nat) : Nat := if c = 2 then 1 else c

/-- Worker 0 reads a pointer to the cluster of worker 1; worker 1 frees it and begins another cluster. -/
def exSched140 : List Nat :=
  steps 4 0 ++ steps 4 1 ++ steps 2 0 ++ steps 2 1 ++ steps 2 0 ++ steps 14 1 ++ steps 20 0 ++ steps 20 1

def exAddr (addr : Nat → Nat) (sched : List Nat) : PState Nat :=
  (PState.start PShared.init [[0], [1, 4]]).runAddr addr 2 exReuse (fun _ => Order.id) latest sched

def apartB (addr : Nat → Nat) (sh : PShared Nat) : Bool :=
  (List.range sh.heap.length).all fun c => (List.range sh.heap.length).all fun d =>
    (sh.cell c).dropped || (sh.cell d).dropped || addr c != addr d || c == d

theorem apart_of_check {addr : Nat → Nat} {sh : PShared Nat} (h : apartB addr sh = true) : Apart addr sh := by
  intro c d hc hd h1 h2 e
  have := List.all_eq_true.mp (List.all_eq_true.mp h c (List.mem_range.mpr hc)) d (List.mem_range.mpr hd)
  simpa [h1, h2, e] using this

/-- C140 is false of the code: with the same schedule of two threads, an allocator that uses the memory of a freed cluster
again makes worker 0 roll back the new cluster at that address, and other clusters are returned than with an allocator
that does not. -/
theorem C140_allocator_false :
    (∀ pre, pre <+: exSched140 → Apart reuseAddr (exAddr reuseAddr pre).shared ∧ Apart id (exAddr id pre).shared) ∧
    (exAddr reuseAddr exSched140).finished ∧ (exAddr id exSched140).finished ∧
    ((exAddr reuseAddr exSched140).result.map fun c => c.points) = [[0, 3]] ∧
    ((exAddr id exSched140).result.map fun c => c.points) = [[5, 4]] := by
  refine ⟨?_, finished_of_allDone (by decide +kernel), finished_of_allDone (by decide +kernel), by decide +kernel,
    by decide +kernel⟩
  have key : ∀ n ∈ List.range (exSched140.length + 1),
      apartB reuseAddr (exAddr reuseAddr (exSched140.take n)).shared = true ∧
      apartB id (exAddr id (exSched140.take n)).shared = true := by decide +kernel
  intro pre hpre
  rw [List.prefix_iff_eq_take.mp hpre]
  obtain ⟨h1, h2⟩ := key pre.length (List.mem_range.mpr (Nat.lt_succ_of_le hpre.length_le))
  exact ⟨apart_of_check h1, apart_of_check h2⟩

/-- The hypotheses of `C140_allocator_partial` with an address that is used again: worker 1 gives up its cluster, frees it and
commits another one at the same address. -/
def exSchedCalm : List Nat := steps 3 1 ++ steps 30 0 ++ steps 30 1

example : (∀ pre, pre <+: exSchedCalm → Apart reuseAddr (exAddr reuseAddr pre).shared) ∧
    (exAddr reuseAddr exSchedCalm).shared.trace = [.committed 0 0, .rolledBack 1 1, .freed 1 1, .committed 1 2] := by
  refine ⟨?_, by decide +kernel⟩
  have key : ∀ n ∈ List.range (exSchedCalm.length + 1),
      apartB reuseAddr (exAddr reuseAddr (exSchedCalm.take n)).shared = true := by decide +kernel
  intro pre hpre
  rw [List.prefix_iff_eq_take.mp hpre]
  exact apart_of_check (key pre.length (List.mem_range.mpr (Nat.lt_succ_of_le hpre.length_le)))

end Verif.Props
