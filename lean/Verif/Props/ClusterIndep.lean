import Verif.Lemmas.ClusterRace
import Verif.Lemmas.ClusterTeam
import Verif.Props.ClusterPar

/-!
# C100, C101: independent parts and data races of the parallel clusterer
-/
namespace Verif.Props
open Verif Spec
variable {P Id : Type} [DecidableEq P] [DecidableEq Id]

/-- No point of one part is, or is similar to, or shares a similar point with, a point of another part. -/
def Independent (query : P → HSet P) (slices : List (List P)) : Prop :=
  ∀ (i j : Nat) (a b : List P), i ≠ j → slices[i]? = some a → slices[j]? = some b → ∀ p ∈ a, ∀ q ∈ b,
    p ≠ q ∧ p ∉ (query q).elems ∧ q ∉ (query p).elems ∧ ∀ r ∈ (query p).elems, r ∉ (query q).elems

theorem Independent.region {query : P → HSet P} {slices : List (List P)} (h : Independent query slices) :
    ∀ i j, i ≠ j → ∀ p, region query slices i p → ¬ region query slices j p := by
  rintro i j hij p ⟨a, ha, x, hx, hp⟩ ⟨b, hb, y, hy, hq⟩
  obtain ⟨h1, h2, h3, h4⟩ := h i j a b hij ha hb x hx y hy
  rcases hp with rfl | hp
  · rcases hq with rfl | hq
    · exact h1 rfl
    · exact h2 hq
  · rcases hq with rfl | hq
    · exact h3 hp
    · exact h4 p hp hq

theorem independent_single (query : P → HSet P) (slice : List P) : Independent query [slice] := by
  intro i j a b hij ha hb
  exfalso
  have h1 := (List.getElem?_eq_some_iff.mp ha).1
  have h2 := (List.getElem?_eq_some_iff.mp hb).1
  simp only [List.length_cons, List.length_nil] at h1 h2
  omega

/-- C100: if the parts of the workers are independent, then under every schedule, and whatever coherent values relaxed
loads return, every worker that has finished has made exactly the clusters of the sequential greedy algorithm on its
part (the points of a cluster in some order), its points point to them, and nothing but commits has happened: no point
is taken over or left out, no cluster is rolled back or freed. -/
theorem C100_independent (min : Nat) (query : P → HSet P) (ord : Nat → Order) (age : Nat → Nat) (sh0 : PShared P)
    (h0 : sh0.Fresh) (slices : List (List P)) (hind : Independent query slices) (sched : List Nat)
    (hc : coherent min query ord age (PState.start sh0 slices) (fun _ _ => 0) sched) :
    let s := (PState.start sh0 slices).run min query ord age sched
    (∀ (i : Nat) (slice : List P) (w : PWorker P), slices[i]? = some slice → s.workers[i]? = some w → w.pc = .done →
      List.Forall₂ List.Perm (w.out.map fun c => (s.shared.cell c).points)
        (greedy min query (fun p => (sh0.ptr.get? p).isSome) slice) ∧
      ∀ c ∈ w.out, ∀ p ∈ (s.shared.cell c).points, s.shared.ptr.get? p = some c) ∧
    ∀ e ∈ s.shared.trace, ∃ i c, e = .committed i c := by
  intro s
  obtain ⟨view, I⟩ := indep_run ord age hind.region sched _ _ (indep_start (min := min) (query := query) h0 slices) hc
  refine ⟨?_, I.t⟩
  intro i slice w hi hw hdone
  obtain ⟨slice', hi', W⟩ := I.q i w hw
  rw [hi] at hi'
  injection hi' with hi'
  subst hi'
  refine ⟨?_, fun c hc p hp => ((W.out c hc).2.2 p hp).2⟩
  obtain ⟨L, hL, hP⟩ := W.ex
  unfold WPc at hP
  rw [hdone] at hP
  simp only at hP
  change List.Forall₂ List.Perm _ (greedy min query sh0.taken slice)
  rw [hP]
  exact hL

theorem run_workers_length (min : Nat) (query : P → HSet P) (ord : Nat → Order) (age : Nat → Nat) (sched : List Nat) :
    ∀ t : PState P, (t.run min query ord age sched).workers.length = t.workers.length := by
  induction sched with
  | nil => exact fun t => rfl
  | cons i is ih =>
    intro t
    change ((t.step min query ord age i).run min query ord age is).workers.length = _
    rw [ih]
    unfold PState.step
    cases t.workers[i]? with
    | none => rfl
    | some w => simp

theorem forall₂_flatMap {α β γ : Type} {r : β → γ → Prop} (f : α → List β) :
    ∀ (l : List α) (m : List (List γ)), List.Forall₂ (fun a c => List.Forall₂ r (f a) c) l m →
      List.Forall₂ r (l.flatMap f) m.flatten
  | _, _, .nil => .nil
  | _, _, .cons h t => by
    simp only [List.flatMap_cons, List.flatten_cons]
    exact List.rel_append h (forall₂_flatMap f _ _ t)

/-- C100: the result of `cluster_par` is that of the sequential greedy algorithm on the parts, one after the other, for
every schedule after which all workers have finished. -/
theorem C100_result (min : Nat) (query : P → HSet P) (ord : Nat → Order) (age : Nat → Nat) (sh0 : PShared P)
    (h0 : sh0.Fresh) (slices : List (List P)) (hind : Independent query slices) (sched : List Nat)
    (hc : coherent min query ord age (PState.start sh0 slices) (fun _ _ => 0) sched)
    (hfin : ((PState.start sh0 slices).run min query ord age sched).finished) :
    List.Forall₂ List.Perm (((PState.start sh0 slices).run min query ord age sched).result.map fun c => c.points)
      (slices.flatMap (greedy min query fun p => (sh0.ptr.get? p).isSome)) := by
  obtain ⟨h, _⟩ := C100_independent min query ord age sh0 h0 slices hind sched hc
  have hlen := run_workers_length min query ord age sched (PState.start sh0 slices)
  generalize (PState.start sh0 slices).run min query ord age sched = s at *
  unfold PState.result
  rw [List.map_map, List.map_flatMap, List.flatMap_def (l := slices)]
  refine forall₂_flatMap _ _ _ ?_
  rw [List.forall₂_iff_get]
  have hl : s.workers.length = slices.length := by rw [hlen]; simp [PState.start]
  refine ⟨by simpa using hl, ?_⟩
  intro i h1 h2
  simp only [List.length_map] at h2
  have hw : s.workers[i]? = some (s.workers.get ⟨i, h1⟩) := by simp [h1]
  have hs : slices[i]? = some slices[i] := List.getElem?_eq_getElem h2
  have := (h i _ _ hs hw (hfin _ (List.get_mem _ _))).1
  simpa using this

/-- Two independent parts: 0 and 1 are similar, and so are 2 and 3. -/
def exApart (p : Nat) : HSet Nat := if p < 2 then HSet.empty.extend [0, 1] else HSet.empty.extend [2, 3]

example : Independent exApart [[0, 1], [2, 3]] ∧
    coherent 2 exApart (fun _ => Order.rev) (fun t => if t < 10 then 1 else 0) (PState.start PShared.init [[0, 1], [2, 3]])
      (fun _ _ => 0) (steps 7 0 ++ steps 20 1 ++ steps 20 0) ∧
    ((PState.start PShared.init [[0, 1], [2, 3]]).run 2 exApart (fun _ => Order.rev) (fun t => if t < 10 then 1 else 0)
      (steps 7 0 ++ steps 20 1 ++ steps 20 0)).result.map (fun c => (c.clusterId, c.points)) =
        [(1, [0, 1]), (2, [2, 3])] ∧
    [[0, 1], [2, 3]].flatMap (greedy 2 exApart fun _ => false) = [[1, 0], [3, 2]] := by
  refine ⟨?_, by decide +kernel, by decide +kernel, by decide +kernel⟩
  have key : ∀ p ∈ [0, 1], ∀ q ∈ [2, 3],
      p ≠ q ∧ p ∉ (exApart q).elems ∧ q ∉ (exApart p).elems ∧ ∀ r ∈ (exApart p).elems, r ∉ (exApart q).elems := by
    decide +kernel
  intro i j a b hij ha hb p hp q hq
  have hi : i < 2 := (List.getElem?_eq_some_iff.mp ha).1
  have hj : j < 2 := (List.getElem?_eq_some_iff.mp hb).1
  have h01 : (i = 0 ∧ j = 1) ∨ (i = 1 ∧ j = 0) := by omega
  rcases h01 with ⟨rfl, rfl⟩ | ⟨rfl, rfl⟩
  · injection ha with ha
    injection hb with hb
    subst ha hb
    exact key p hp q hq
  · injection ha with ha
    injection hb with hb
    subst ha hb
    obtain ⟨h1, h2, h3, h4⟩ := key q hq p hp
    exact ⟨fun e => h1 e.symm, h3, h2, fun r hr hr' => h4 r hr' hr⟩

/-- C60: `Clusterer::cluster`, which runs on one thread, returns exactly the clusters of the sequential greedy algorithm
on the points in descending order of the number of similar points. -/
theorem C60_greedy (min : Nat) (idOf : P → Id) (query : P → HSet P) (ord : Nat → Order) (sh0 : PShared P)
    (h0 : sh0.Fresh) (points : List P) (hinj : ∀ p ∈ points, ∀ q ∈ points, idOf p = idOf q → p = q) :
    ∃ slice n, slice.Perm points ∧ (slice.Pairwise fun p q => (query q).elems.length ≤ (query p).elems.length) ∧
      parClusterStart idOf query sh0 points = .ok (PState.start sh0 [slice]) ∧ ∀ m, n ≤ m →
      let s := (PState.start sh0 [slice]).run min query ord latest (List.replicate m 0)
      s.finished ∧ List.Forall₂ List.Perm (s.result.map fun c => c.points)
        (greedy min query (fun p => (sh0.ptr.get? p).isSome) slice) := by
  obtain ⟨slice, hstart, hperm, hpw⟩ := C60_order idOf query sh0 points hinj
  obtain ⟨s0, n, hs0, hrun⟩ := C60_single_worker min idOf query ord sh0 h0 points
  rw [hstart] at hs0
  injection hs0 with hs0
  subst hs0
  refine ⟨slice, n, hperm, hpw, hstart, ?_⟩
  intro m hm s
  have hfin := (hrun m hm).1
  refine ⟨hfin, ?_⟩
  have := C100_result min query ord latest sh0 h0 [slice] (independent_single query slice) (List.replicate m 0)
    (coherent_latest min query ord _ _ _ fun _ _ => Nat.zero_le _) hfin
  simpa using this

example : greedy 2 exStar (fun _ => false) [0, 1, 2] = [[0, 3]] := by decide +kernel

/-! ### C75: maximality without lost attempts -/

/-- C75, what holds under every schedule, whatever old values loads return: if no attempt was rolled back, no clusterable
point is left. -/
theorem C75_no_rollback_partial (min : Nat) (hmin : 1 ≤ min) (query : P → HSet P) (ord : Nat → Order) (age : Nat → Nat)
    (sh0 : PShared P) (h0 : sh0.Fresh) (slices : List (List P)) (sched : List Nat) :
    let s := (PState.start sh0 slices).run min query ord age sched
    s.finished → (∀ i c, .rolledBack i c ∉ s.shared.trace) → ∀ slice ∈ slices, ∀ p ∈ slice,
      s.shared.ptr.get? p = none → ((query p).elems.filter fun q => (s.shared.ptr.get? q).isNone).length < min := by
  intro s hfin hno slice hsl p hp hn
  obtain ⟨N, hN⟩ := exists_bound query slices
  have hR : PRb sh0 (PState.start sh0 slices).shared := fun c h1 h2 => absurd h2 (Nat.not_lt.mpr h1)
  have hlen := run_workers_length min query ord age sched (PState.start sh0 slices)
  obtain ⟨_, T⟩ := pteams_run hN hmin ord age (pinv_start h0 slices) hR (Or.inr (pteams_start h0 slices)) sched
  change s.workers.length = _ at hlen
  change PLost s.shared s.workers ∨ PTeams min query slices s.shared s.workers at T
  rcases T with (⟨i, c, h⟩ | ⟨i, w, c, hw, hc⟩) | T
  · exact absurd h (hno i c)
  · rw [hfin w (List.mem_of_getElem? hw)] at hc
    cases hc
  · obtain ⟨i, hi, rfl⟩ := List.getElem_of_mem hsl
    have hi' : i < s.workers.length := by
      rw [hlen]
      simpa [PState.start] using hi
    have hT := T.team i _ _ (List.getElem?_eq_getElem hi') (List.getElem?_eq_getElem hi)
    have hd := hfin _ (List.getElem_mem hi')
    unfold PTeam at hT
    rw [hd] at hT
    exact (hT p hp).resolve_left fun h => h hn

/-- C75 for independent parts. -/
theorem C75_independent_partial (min : Nat) (hmin : 1 ≤ min) (query : P → HSet P) (ord : Nat → Order) (age : Nat → Nat)
    (sh0 : PShared P) (h0 : sh0.Fresh) (slices : List (List P)) (hind : Independent query slices) (sched : List Nat)
    (hc : coherent min query ord age (PState.start sh0 slices) (fun _ _ => 0) sched) :
    let s := (PState.start sh0 slices).run min query ord age sched
    s.finished → ∀ slice ∈ slices, ∀ p ∈ slice,
      s.shared.ptr.get? p = none → ((query p).elems.filter fun q => (s.shared.ptr.get? q).isNone).length < min := by
  intro s hfin
  refine C75_no_rollback_partial min hmin query ord age sh0 h0 slices sched hfin ?_
  intro i c h
  obtain ⟨j, d, e⟩ := (C100_independent min query ord age sh0 h0 slices hind sched hc).2 _ h
  cases e

/-- Point 0 has similar points 2 and 3, point 1 has 2. -/
def exLost (p : Nat) : HSet Nat := if p = 0 then HSet.empty.extend [0, 2, 3] else HSet.empty.extend [1, 2]

def exSchedLost : List Nat := steps 4 0 ++ steps 20 1 ++ steps 20 0

def exEndLost : PState Nat := (PState.start PShared.init [[0], [1]]).run 2 exLost (fun _ => Order.id) latest exSchedLost

/-- C75 is false even if no two attempts overlap and loads are current: a worker that finds one of its points taken by a
committed cluster gives up the others, too, and does not try again. -/
theorem C75_no_overlap_false :
    ¬ ∀ (query : Nat → HSet Nat) (ord : Nat → Order) (min nThreads : Nat) (points : List Nat) (s0 : PState Nat)
      (sched : List Nat), 1 ≤ min → clusterParStart (id : Nat → Nat) query PShared.init nThreads points = .ok s0 →
      (∀ pre, pre <+: sched → (s0.run min query ord latest pre).OneAttempt) →
      (s0.run min query ord latest sched).finished →
      ∀ p ∈ points, (s0.run min query ord latest sched).shared.ptr.get? p = none →
        ((query p).elems.filter fun q => ((s0.run min query ord latest sched).shared.ptr.get? q).isNone).length < min := by
  intro hall
  have hn : exEndLost.shared.ptr.get? 0 = none := by decide +kernel
  have h' : ((exLost 0).elems.filter fun q => (exEndLost.shared.ptr.get? q).isNone).length = 2 := by decide +kernel
  unfold exEndLost at hn h'
  have hone : ∀ pre, pre <+: exSchedLost →
      ((PState.start PShared.init [[0], [1]]).run 2 exLost (fun _ => Order.id) latest pre).OneAttempt := by
    intro pre hpre
    have hlen : pre.length < 45 := by
      have := hpre.length_le
      simp only [exSchedLost, steps, List.length_append, List.length_replicate] at this
      omega
    rw [List.prefix_iff_eq_take.mp hpre]
    have hall : ∀ n < 45, oneAttemptB ((PState.start PShared.init [[0], [1]]).run 2 exLost (fun _ => Order.id) latest
        (exSchedLost.take n)) = true := by decide +kernel
    exact oneAttempt_of_check (hall _ hlen)
  have h := hall exLost (fun _ => Order.id) 2 2 [0, 1] _ exSchedLost (by decide) (exStart2 exLost) hone
    (finished_of_allDone (by decide +kernel)) 0 (by simp) hn
  rw [h'] at h
  omega

/-- The run without rollbacks of two workers that share point 2: worker 1 filters after worker 0 is done. -/
example : let s := (PState.start PShared.init [[0], [1]]).run 2 exLost (fun _ => Order.id) latest (steps 20 0 ++ steps 20 1)
    s.shared.trace = [.committed 0 0] ∧ s.shared.ptr.get? 1 = none ∧
      ((exLost 1).elems.filter fun q => (s.shared.ptr.get? q).isNone) = [1] := by
  refine ⟨by decide +kernel, by decide +kernel, by decide +kernel⟩

/-! ### C101: data races -/

/-- Worker 1 looks at its points, worker 0 creates a cluster and assigns point 3, worker 1 meets that cluster. -/
def exSchedRace : List Nat := steps 3 1 ++ steps 8 0 ++ steps 6 1

/-- C101 is false of the code: worker 1 reads the plain field `cluster_id` of a cluster that worker 0 has created
meanwhile; there is no ordering between the two, as all atomic operations are relaxed. -/
theorem C101_data_race_free_false :
    ¬ ∀ (query : Nat → HSet Nat) (ord : Nat → Order) (age : Nat → Nat) (min nThreads : Nat) (points : List Nat)
      (s0 : PState Nat) (sched : List Nat), clusterParStart (id : Nat → Nat) query PShared.init nThreads points = .ok s0 →
      coherent min query ord age s0 (fun _ _ => 0) sched → ¬ DataRace (history min query ord age s0 sched) := by
  intro hall
  refine hall exStar (fun _ => Order.id) latest 2 2 [0, 1] _ exSchedRace (exStart2 exStar)
    (coherent_latest _ _ _ _ _ _ fun _ _ => Nat.zero_le _) ?_
  let h := history 2 exStar (fun _ => Order.id) latest (PState.start PShared.init [[0], [1]]) exSchedRace
  refine ⟨h.take 6, (h.take 16).drop 7, [], (0, wholeBox 0), (1, [⟨1, .clusterId, false, false⟩, ⟨0, .clusterId, false, false⟩]),
    ?_, by decide, ⟨(1, []), ?_, rfl⟩, ⟨0, .clusterId, false, true⟩, by decide, ⟨0, .clusterId, false, false⟩, by decide, by decide⟩
  · decide +kernel
  · decide +kernel

/-- C101, what holds under every schedule, with old values read or not: the list of points of a cluster is accessed by the
worker that created it only; and of the other fields nobody else writes except by an atomic operation, and this only
while resolving a conflict. -/
theorem C101_points_of_owner_partial (min : Nat) (query : P → HSet P) (ord : Nat → Order) (age : Nat → Nat)
    (sh0 : PShared P) (h0 : sh0.Fresh) (slices : List (List P)) (sched : List Nat) :
    let h := history min query ord age (PState.start sh0 slices) sched
    ∀ x ∈ h, ∀ y ∈ h, ∀ a ∈ x.2, ∀ b ∈ y.2, a.cluster = b.cluster → x.1 ≠ y.1 →
      ¬ (a.field = .points ∧ b.field = .points) ∧
      ¬ (a.write = true ∧ a.atomic = false ∧ b.write = true ∧ b.atomic = false) := by
  intro h x hx y hy a ha b hb hab hne
  obtain ⟨N, hN⟩ := exists_bound query slices
  have H := history_owner (min := min) hN ord age (pinv_start h0 slices) sched
  refine ⟨?_, ?_⟩
  · rintro ⟨f1, f2⟩
    have o1 := (H x hx a ha).resolve_right fun h => h.1 f1
    have o2 := (H y hy b hb).resolve_right fun h => h.1 f2
    rw [← hab] at o2
    exact hne (o1.symm.trans o2)
  · rintro ⟨w1, n1, w2, n2⟩
    have o1 := (H x hx a ha).resolve_right fun h => by rw [w1, n1] at h; simpa using h.2.1
    have o2 := (H y hy b hb).resolve_right fun h => by rw [w2, n2] at h; simpa using h.2.1
    rw [← hab] at o2
    exact hne (o1.symm.trans o2)

/-- In the run above two workers access cluster 0: one creates it, the other looks at its state and its id. -/
example : (history 2 exStar (fun _ => Order.id) latest (PState.start PShared.init [[0], [1]]) exSchedRace).map
    (fun x => (x.1, x.2.any fun a => a.cluster == 0)) =
      [(1, false), (1, false), (1, false), (0, false), (0, false), (0, false), (0, true), (0, true), (0, true), (0, true),
        (0, true), (1, false), (1, false), (1, false), (1, true), (1, true), (1, true)] := by decide +kernel

/-- C101 without conflicts: if no worker ever holds a pointer to a foreign cluster there is no data race. -/
theorem C101_no_conflict_partial (min : Nat) (query : P → HSet P) (ord : Nat → Order) (age : Nat → Nat)
    (sh0 : PShared P) (h0 : sh0.Fresh) (slices : List (List P)) (sched : List Nat)
    (hno : ∀ pre, pre <+: sched → ∀ (i : Nat) (w : PWorker P),
      ((PState.start sh0 slices).run min query ord age pre).workers[i]? = some w → w.pc.other = none) :
    ¬ DataRace (history min query ord age (PState.start sh0 slices) sched) := by
  rintro ⟨before, middle, after, x, y, he, hne, _, a, ha, b, hb, hcf⟩
  obtain ⟨N, hN⟩ := exists_bound query slices
  have H := history_owner (min := min) hN ord age (pinv_start h0 slices) sched
  have own : ∀ x ∈ history min query ord age (PState.start sh0 slices) sched, ∀ a ∈ x.2,
      (((PState.start sh0 slices).run min query ord age sched).shared.cell a.cluster).owner = x.1 := by
    intro x hx a ha
    rcases H x hx a ha with h | ⟨_, _, pre, hp, w, hw, ho⟩
    · exact h
    · rw [hno pre hp _ w hw] at ho; cases ho
  have o1 := own x (by rw [he]; simp) a ha
  have o2 := own y (by rw [he]; simp) b hb
  rw [← hcf.1] at o2
  exact hne (o1.symm.trans o2)

/-- C101 for independent parts: no data race, under every schedule and coherent values. -/
theorem C101_independent_partial (min : Nat) (query : P → HSet P) (ord : Nat → Order) (age : Nat → Nat)
    (sh0 : PShared P) (h0 : sh0.Fresh) (slices : List (List P)) (hind : Independent query slices) (sched : List Nat)
    (hc : coherent min query ord age (PState.start sh0 slices) (fun _ _ => 0) sched) :
    ¬ DataRace (history min query ord age (PState.start sh0 slices) sched) := by
  refine C101_no_conflict_partial min query ord age sh0 h0 slices sched ?_
  rintro pre ⟨post, rfl⟩ i w hw
  obtain ⟨view, I⟩ := indep_run ord age hind.region pre _ _ (indep_start (min := min) (query := query) h0 slices)
    (coherent_prefix ord age pre post _ _ hc)
  obtain ⟨_, _, W⟩ := I.q i w hw
  exact W.other

/-- C101 for one worker: `Clusterer::cluster` has no data race. -/
theorem C101_single_partial (min : Nat) (query : P → HSet P) (ord : Nat → Order) (age : Nat → Nat)
    (sh0 : PShared P) (h0 : sh0.Fresh) (slice : List P) (sched : List Nat)
    (hc : coherent min query ord age (PState.start sh0 [slice]) (fun _ _ => 0) sched) :
    ¬ DataRace (history min query ord age (PState.start sh0 [slice]) sched) :=
  C101_independent_partial min query ord age sh0 h0 [slice] (independent_single query slice) sched hc

end Verif.Props
