import Verif.Props.BothClusterers

/-!
# Property C138: cluster pointers and returned clusters of the parallel clusterer
-/
namespace Verif.Props
open Verif Verif.Spec
variable {P : Type} [DecidableEq P]

/-- C138, half of it: under every schedule, with old values read or not, when all workers have finished, a point whose cluster
pointer was set in the call is in the cluster it points to, which is returned and alive. -/
theorem C138_pointer_partial (min : Nat) (query : P → HSet P) (ord : Nat → Order) (age : Nat → Nat) (sh0 : PShared P)
    (h0 : sh0.Fresh) (slices : List (List P)) (sched : List Nat) :
    let s := (PState.start sh0 slices).run min query ord age sched
    s.finished → ∀ p c, s.shared.ptr.get? p = some c → sh0.ptr.get? p = none →
      (∃ w ∈ s.workers, c ∈ w.out) ∧ s.shared.cell c ∈ s.result ∧ p ∈ (s.shared.cell c).points ∧
      (s.shared.cell c).dropped = false := by
  intro s hfin p c hp hn
  obtain ⟨N, hN⟩ := exists_bound query slices
  have I := pinv_run (min := min) hN ord age (pinv_start h0 slices) sched
  change PInv min N query slices sh0 s at I
  have hnew : sh0.heap.length ≤ c := by
    by_contra hc
    rw [(I.g.oldptr p c (by omega)).mp hp] at hn
    cases hn
  obtain ⟨h1, h2, h3⟩ := I.g.ptr p c hp hnew
  have hc : c ∈ returned s := by
    rcases I.cls c hnew h1 with h | ⟨i, h⟩ | ⟨i, w, hw, ho⟩
    · rw [h2] at h; cases h
    · exact (mem_returned I c).mpr ⟨i, h⟩
    · rw [hfin w (List.mem_of_getElem? hw)] at ho
      cases ho
  obtain ⟨w, hw, hcw⟩ := List.mem_flatMap.mp hc
  exact ⟨⟨w, hw, hcw⟩, List.mem_map.mpr ⟨c, hc, rfl⟩, h3, h2⟩

/-- C138, the other half: a point of a returned cluster points to it, unless the cluster took it over from a competitor (lines
258-259 push the point without changing its pointer). Missing: the absence of takeovers. -/
theorem C138_member_partial (min : Nat) (query : P → HSet P) (ord : Nat → Order) (age : Nat → Nat) (sh0 : PShared P)
    (h0 : sh0.Fresh) (slices : List (List P)) (sched : List Nat) :
    let s := (PState.start sh0 slices).run min query ord age sched
    ∀ w ∈ s.workers, ∀ c ∈ w.out, ∀ p ∈ (s.shared.cell c).points,
      s.shared.ptr.get? p = some c ∨ ∃ i v, .stolen i c p v ∈ s.shared.trace := by
  intro s w hw c hcw p hp
  obtain ⟨N, hN⟩ := exists_bound query slices
  have I := pinv_run (min := min) hN ord age (pinv_start h0 slices) sched
  change PInv min N query slices sh0 s at I
  obtain ⟨i, hi⟩ := (mem_returned I c).mp (List.mem_flatMap.mpr ⟨w, hw, hcw⟩)
  obtain ⟨c1, c2, _⟩ := I.g.com i c hi
  exact I.l c p c1 c2 (Or.inr ⟨i, hi⟩) hp

/-- C138 when nothing was taken over: the pointers and the returned clusters say the same. -/
theorem C138_no_takeover_partial (min : Nat) (query : P → HSet P) (ord : Nat → Order) (age : Nat → Nat) (sh0 : PShared P)
    (h0 : sh0.Fresh) (slices : List (List P)) (sched : List Nat) :
    let s := (PState.start sh0 slices).run min query ord age sched
    s.finished → (∀ i c p v, .stolen i c p v ∉ s.shared.trace) → ∀ p, sh0.ptr.get? p = none → ∀ c,
      s.shared.ptr.get? p = some c ↔ (∃ w ∈ s.workers, c ∈ w.out) ∧ p ∈ (s.shared.cell c).points := by
  intro s hfin hno p hn c
  constructor
  · intro h
    obtain ⟨h1, _, h3, _⟩ := C138_pointer_partial min query ord age sh0 h0 slices sched hfin p c h hn
    exact ⟨h1, h3⟩
  · rintro ⟨⟨w, hw, hc⟩, hp⟩
    rcases C138_member_partial min query ord age sh0 h0 slices sched w hw c hc p hp with h | ⟨i, v, h⟩
    · exact h
    · exact absurd h (hno i c p v)

/-- A call leaves a memory with which the next one can start. -/
theorem next_fresh (min : Nat) (query : P → HSet P) (ord : Nat → Order) (age : Nat → Nat) (sh0 : PShared P)
    (h0 : sh0.Fresh) (slices : List (List P)) (sched : List Nat) :
    ({ ((PState.start sh0 slices).run min query ord age sched).shared with trace := [], past := fun _ => [] } :
      PShared P).Fresh := by
  obtain ⟨N, hN⟩ := exists_bound query slices
  have I := pinv_run (min := min) hN ord age (pinv_start h0 slices) sched
  refine ⟨?_, rfl, fun _ => rfl⟩
  intro p d h
  simp only at h ⊢
  by_cases hd : sh0.heap.length ≤ d
  · exact (I.g.ptr p d h hd).1
  · exact Nat.lt_of_lt_of_le (Nat.lt_of_not_le hd) I.g.len

/-- Worker 0 takes point 3 from worker 1, which then releases it. -/
def exSched138 : List Nat := steps 6 0 ++ steps 6 1 ++ steps 8 0 ++ steps 20 1 ++ steps 20 0

def exEnd138 : PState Nat := (PState.start PShared.init [[0], [1]]).run 2 exStar (fun _ => Order.id) latest exSched138

/-- C138 is false of the code: two threads can return a cluster with a point that points to no cluster. -/
theorem C138_member_false :
    ¬ ∀ (query : Nat → HSet Nat) (ord : Nat → Order) (min nThreads : Nat) (points : List Nat) (s0 : PState Nat)
      (sched : List Nat), clusterParStart (id : Nat → Nat) query PShared.init nThreads points = .ok s0 →
      (s0.run min query ord latest sched).finished →
      ∀ c ∈ (s0.run min query ord latest sched).result, ∀ p ∈ c.points,
        ((s0.run min query ord latest sched).shared.ptr.get? p).isSome := by
  intro hall
  have h := hall exStar (fun _ => Order.id) 2 2 [0, 1] _ exSched138 (exStart2 exStar)
    (finished_of_allDone (by decide +kernel))
  have h' : ∃ c ∈ exEnd138.result, 3 ∈ c.points ∧ (exEnd138.shared.ptr.get? 3).isSome = false := by
    have e : exEnd138.result.any (fun c => decide (3 ∈ c.points)) = true ∧
        (exEnd138.shared.ptr.get? 3).isSome = false := by decide +kernel
    obtain ⟨c, hc, hp⟩ := List.any_eq_true.mp e.1
    exact ⟨c, hc, of_decide_eq_true hp, e.2⟩
  unfold exEnd138 at h'
  obtain ⟨c, hc, hp, hn⟩ := h'
  have := h c hc 3 hp
  rw [hn] at this
  cases this

/-- What the next call starts with: the memory that the first one leaves. -/
def exNext138 : PShared Nat := { exEnd138.shared with trace := [], past := fun _ => [] }

/-- C138, consequence: the next call, on one thread, puts that point into a second cluster. -/
theorem C138_next_call_false (ord : Nat → Order) :
    exNext138.Fresh ∧ (exEnd138.result.map fun c => c.points) = [[0, 3]] ∧
    ∃ start n, parClusterStart id exStar exNext138 [2] = .ok start ∧ ∀ m, n ≤ m →
      let s := start.run 2 exStar ord latest (List.replicate m 0)
      s.finished ∧ ∃ c, s.result = [c] ∧ c.points.Perm [2, 3] := by
  have hfresh : exNext138.Fresh := by
    unfold exNext138 exEnd138
    exact next_fresh 2 exStar (fun _ => Order.id) latest PShared.init init_fresh [[0], [1]] exSched138
  refine ⟨hfresh, by decide +kernel, ?_⟩
  obtain ⟨slice, n, h1, h2, h3, h4⟩ := C60_greedy 2 id exStar ord exNext138 hfresh [2] fun _ _ _ _ h => h
  refine ⟨_, n, h3, fun m hm => ⟨(h4 m hm).1, ?_⟩⟩
  have h6 := (h4 m hm).2
  have key : greedy 2 exStar (fun p => (exNext138.ptr.get? p).isSome) [2] = [[2, 3]] := by decide +kernel
  obtain rfl := List.perm_singleton.mp h1
  rw [key] at h6
  exact forall₂_perm_single _ h6

/-- The hypotheses of `C138_no_takeover_partial` in a run of two workers, of which the second loses a point and gives up. -/
example :
    let s := (PState.start PShared.init [[0], [1]]).run 2 exStar (fun _ => Order.id) latest
      (steps 3 1 ++ steps 30 0 ++ steps 30 1)
    s.workers.all (fun w => match w.pc with | .done => true | _ => false) = true ∧
    s.shared.trace = [.committed 0 0, .rolledBack 1 1, .freed 1 1] ∧
    s.shared.ptr.get? 3 = some 0 ∧ s.shared.ptr.get? 1 = none := by decide +kernel

end Verif.Props
