import Verif.Spec.Coherence
import Verif.Lemmas.ClusterParEnd

/-!
# Parallel clustering: C60-C65, C72-C75

`sched` ranges over all interleavings of any number of workers, `ord` over all iteration orders of the sets that the
index returns, `sh0` over all memories left by earlier calls (whose clusters the caller may have dropped).
-/
namespace Verif.Props
open Verif
variable {P : Type} [DecidableEq P] {Id : Type} [DecidableEq Id]

/-- Pointers to the clusters that the workers return, in the order of the result. -/
def returned (s : PState P) : List Nat := s.workers.flatMap fun w => w.out

theorem mem_returned {min N : Nat} {query : P → HSet P} {slices : List (List P)} {sh0 : PShared P} {s : PState P}
    (I : PInv min N query slices sh0 s) (c : Nat) : c ∈ returned s ↔ ∃ i, .committed i c ∈ s.shared.trace := by
  unfold returned
  rw [List.mem_flatMap]
  constructor
  · rintro ⟨w, hw, hc⟩
    obtain ⟨i, hi⟩ := List.mem_iff_getElem?.mp hw
    exact ⟨i, ((I.w i w hi).out c).mp hc⟩
  · rintro ⟨i, hi⟩
    obtain ⟨w, hw⟩ := I.by_worker i c hi
    exact ⟨w, List.mem_of_getElem? hw, ((I.w i w hw).out c).mpr hi⟩

theorem nodup_returned {min N : Nat} {query : P → HSet P} {slices : List (List P)} {sh0 : PShared P} {s : PState P}
    (I : PInv min N query slices sh0 s) : (returned s).Nodup := by
  unfold returned
  rw [List.nodup_flatMap]
  refine ⟨?_, ?_⟩
  · intro w hw
    obtain ⟨i, hi⟩ := List.mem_iff_getElem?.mp hw
    exact (I.w i w hi).outnd
  · rw [List.pairwise_iff_getElem]
    intro i j hi hj hij c h1 h2
    have e1 := (I.g.com i c (((I.w i _ (List.getElem?_eq_getElem hi)).out c).mp h1)).2.2.1
    have e2 := (I.g.com j c (((I.w j _ (List.getElem?_eq_getElem hj)).out c).mp h2)).2.2.1
    omega

/-- A check of the end of a run that computes. -/
def allDone (s : PState P) : Bool := s.workers.all fun w => match w.pc with | .done => true | _ => false

theorem finished_of_allDone {s : PState P} (h : allDone s = true) : s.finished := by
  intro w hw
  have := List.all_eq_true.mp h w hw
  revert this
  cases w.pc <;> simp

/-! ### C64: what is returned was committed -/

/-- C64: under every schedule, with old values read or not, a returned cluster was moved from NEW to COMMITTED by the worker that created it and was
never rolled back by anybody; its box is alive; and no cluster is returned twice. -/
theorem C64_returned_were_committed (min : Nat) (query : P → HSet P) (ord : Nat → Order) (age : Nat → Nat) (sh0 : PShared P)
    (h0 : sh0.Fresh) (slices : List (List P)) (sched : List Nat) :
    let s := (PState.start sh0 slices).run min query ord age sched
    (returned s).Nodup ∧ ∀ (i : Nat) (w : PWorker P), s.workers[i]? = some w → ∀ c ∈ w.out,
      .committed i c ∈ s.shared.trace ∧ (s.shared.cell c).owner = i ∧ (s.shared.cell c).dropped = false ∧
      ∀ j, .rolledBack j c ∉ s.shared.trace := by
  intro s
  obtain ⟨N, hN⟩ := exists_bound query slices
  have I := pinv_run (min := min) hN ord age (pinv_start h0 slices) sched
  refine ⟨nodup_returned I, ?_⟩
  intro i w hw c hc
  have hcom := ((I.w i w hw).out c).mp hc
  obtain ⟨_, _, a, _, b, d⟩ := I.g.com i c hcom
  exact ⟨hcom, a, b, d⟩

/-- C64: under every schedule, with old values read or not the ids of the returned clusters are distinct, and differ from the ids of all other
clusters created in the call, for at most 2^32 input points. -/
theorem C64_ids_distinct (min : Nat) (query : P → HSet P) (ord : Nat → Order) (age : Nat → Nat) (sh0 : PShared P)
    (h0 : sh0.Fresh) (slices : List (List P)) (hlen : slices.flatten.length ≤ 2 ^ 32) (sched : List Nat) :
    let s := (PState.start sh0 slices).run min query ord age sched
    (s.result.map fun c => c.clusterId).Nodup ∧
    ∀ c d, sh0.heap.length ≤ c → c < s.shared.heap.length → sh0.heap.length ≤ d → d < s.shared.heap.length → c ≠ d →
      (s.shared.cell c).clusterId ≠ (s.shared.cell d).clusterId := by
  intro s
  obtain ⟨N, hN⟩ := exists_bound query slices
  have I := pinv_run (min := min) hN ord age (pinv_start h0 slices) sched
  have hle := attempts_le (min := min) hN ord age h0 sched
  have key : ∀ c d, sh0.heap.length ≤ c → c < s.shared.heap.length → sh0.heap.length ≤ d →
      d < s.shared.heap.length → c ≠ d → (s.shared.cell c).clusterId ≠ (s.shared.cell d).clusterId := by
    intro c d c1 c2 d1 d2 hne
    rw [I.g.id c c1 c2, I.g.id d d1 d2]
    change s.shared.heap.length ≤ _ at hle
    omega
  refine ⟨?_, key⟩
  have hnd : (returned s).Nodup := nodup_returned I
  change (((returned s).map s.shared.cell).map fun c => c.clusterId).Nodup
  rw [List.map_map]
  refine List.Nodup.map_on ?_ hnd
  intro c hc d hd e
  by_contra hne
  obtain ⟨i, hi⟩ := (mem_returned I c).mp hc
  obtain ⟨j, hj⟩ := (mem_returned I d).mp hd
  obtain ⟨c1, c2, _⟩ := I.g.com i c hi
  obtain ⟨d1, d2, _⟩ := I.g.com j d hj
  exact key c d c1 c2 d1 d2 hne e

/-! ### C65: arguments -/

/-- C65, exactly: `cluster_par` starts iff there are at least as many points as threads and at least one thread; then
every worker gets a part of the points, each sorted, and the parts make up the input. -/
theorem C65_exact (idOf : P → Id) (query : P → HSet P) (sh0 : PShared P) (nThreads : Nat) (points : List P) :
    (clusterParStart idOf query sh0 nThreads points).isOk = true ↔ 1 ≤ nThreads ∧ nThreads ≤ points.length := by
  unfold clusterParStart
  by_cases h1 : nThreads = 0
  · rw [if_pos h1]; simp [Except.isOk, Except.toBool]; omega
  · rw [if_neg h1]
    simp only
    by_cases h2 : points.length / nThreads = 0
    · rw [if_pos h2]
      have := (Nat.div_eq_zero_iff_lt (by omega)).mp h2
      simp [Except.isOk, Except.toBool]; omega
    · rw [if_neg h2]
      have hle : nThreads ≤ points.length := by
        by_contra hn
        exact h2 (Nat.div_eq_of_lt (by omega))
      have hm : (chunks (points.length / nThreads) points).mapM (sortByMostSimilar idOf query) =
          .ok ((chunks (points.length / nThreads) points).map fun l =>
            ((sortByMostSimilar idOf query l).toOption.getD [])) := by
        refine mapM_ok_of_forall ?_
        intro l _
        obtain ⟨l', e, _⟩ := sortByMostSimilar_spec idOf query l
        rw [e]
        rfl
      rw [hm]
      simp [Except.isOk, Except.toBool, bind, Except.bind, pure, Except.pure]
      omega

example : (clusterParStart (id : Nat → Nat) (fun _ => HSet.empty) PShared.init 2 [7, 8, 9]).isOk = true :=
  (C65_exact _ _ _ _ _).mpr ⟨by decide, by decide⟩

theorem chunks_flatten {n : Nat} (hn : 1 ≤ n) (l : List P) : (chunks n l).flatten = l := by
  have key : ∀ k, ((List.range k).map fun i => (l.drop (i * n)).take n).flatten = l.take (k * n) := by
    intro k
    induction k with
    | zero => simp
    | succ k ih =>
      rw [List.range_succ, List.map_append, List.flatten_append, ih, Nat.add_mul, Nat.one_mul, List.take_add]
      simp
  unfold chunks
  rw [key, List.take_of_length_le]
  have h := Nat.div_add_mod (l.length + n - 1) n
  have h2 := Nat.mod_lt (l.length + n - 1) (show 0 < n by omega)
  rw [Nat.mul_comm] at h
  omega

theorem perm_flatten {idOf : P → Id} {query : P → HSet P} {ls slices : List (List P)}
    (h : List.Forall₂ (fun a b => sortByMostSimilar idOf query a = .ok b) ls slices) :
    slices.flatten.Perm ls.flatten := by
  induction h with
  | nil => exact List.Perm.refl _
  | @cons a b _ _ hab _ ih =>
    rw [List.flatten_cons, List.flatten_cons]
    refine List.Perm.append ?_ ih
    obtain ⟨l, e, hl, _⟩ := sortByMostSimilar_spec idOf query a
    rw [e] at hab
    injection hab with hab
    rw [← hab]
    exact hl

/-- C65: the parts of the workers make up the input, so that everything below, which is stated for arbitrary parts,
applies to `cluster_par`. -/
theorem C65_parts (idOf : P → Id) (query : P → HSet P) (sh0 : PShared P) (nThreads : Nat) (points : List P)
    (s : PState P) (h : clusterParStart idOf query sh0 nThreads points = .ok s) :
    ∃ slices, s = PState.start sh0 slices ∧ slices.flatten.Perm points := by
  unfold clusterParStart at h
  split_ifs at h with h1
  simp only at h
  split_ifs at h with h2
  cases hm : (chunks (points.length / nThreads) points).mapM (sortByMostSimilar idOf query) with
  | error e => rw [hm] at h; cases h
  | ok slices =>
    rw [hm] at h
    injection h with h
    refine ⟨slices, h.symm, ?_⟩
    rw [mapM_ok_iff] at hm
    have hp := perm_flatten hm
    rw [chunks_flatten (Nat.one_le_iff_ne_zero.mpr h2)] at hp
    exact hp

/-- C65 is false of the code: no points and one thread panic, as do two points and three threads. -/
theorem C65_accepts_every_input_false :
    (∀ nThreads, (clusterParStart (id : Nat → Nat) (fun _ => HSet.empty) PShared.init nThreads []).isOk = false) ∧
    (clusterParStart (id : Nat → Nat) (fun _ => HSet.empty) PShared.init 3 [7, 8]).isOk = false ∧
    ¬ ∀ (query : Nat → HSet Nat) (nThreads : Nat) (points : List Nat), 1 ≤ nThreads →
      (clusterParStart (id : Nat → Nat) query PShared.init nThreads points).isOk = true := by
  have key : ∀ n (l : List Nat), l.length < n ∨ n = 0 →
      (clusterParStart (id : Nat → Nat) (fun _ => HSet.empty) PShared.init n l).isOk = false := by
    intro n l h
    rw [Bool.eq_false_iff]
    intro e
    have := (C65_exact _ _ _ _ _).mp e
    omega
  refine ⟨?_, key 3 [7, 8] (Or.inl (by decide)), ?_⟩
  · intro n
    refine key n [] ?_
    rw [List.length_nil]
    omega
  · intro hall
    have := hall (fun _ => HSet.empty) 1 [] (Nat.le_refl _)
    rw [key 1 [] (Or.inl (by decide))] at this
    cases this

/-- C65, what holds: it starts whenever there are at least as many points as threads. -/
theorem C65_accepts_every_input_partial (idOf : P → Id) (query : P → HSet P) (sh0 : PShared P) (nThreads : Nat)
    (points : List P) (h1 : 1 ≤ nThreads) (h2 : nThreads ≤ points.length) :
    ∃ slices, clusterParStart idOf query sh0 nThreads points = .ok (PState.start sh0 slices) ∧
      slices.flatten.Perm points := by
  have h := (C65_exact idOf query sh0 nThreads points).mpr ⟨h1, h2⟩
  cases e : clusterParStart idOf query sh0 nThreads points with
  | error x => rw [e] at h; cases h
  | ok s =>
    obtain ⟨slices, rfl, hp⟩ := C65_parts idOf query sh0 nThreads points s e
    exact ⟨slices, rfl, hp⟩

example : 1 ≤ 2 ∧ 2 ≤ [7, 8, 9].length := by decide

/-! ### C61: disjointness -/

/-- Three points, each similar to itself and to point 3. -/
def exStar (p : Nat) : HSet Nat :=
  if p = 0 then HSet.empty.extend [3, 0] else if p = 1 then HSet.empty.extend [1, 3]
  else if p = 2 then HSet.empty.extend [3, 2] else HSet.empty

/-- `n` steps of worker `i`. -/
def steps (n i : Nat) : List Nat := List.replicate n i

/-- Three threads on points 0, 1, 2 get one point each. -/
theorem exStart (query : Nat → HSet Nat) :
    clusterParStart (id : Nat → Nat) query PShared.init 3 [0, 1, 2] =
      .ok (PState.start PShared.init [[0], [1], [2]]) := by
  have h1 : ∀ p : Nat, sortByMostSimilar (id : Nat → Nat) query [p] = .ok [p] := by
    intro p
    obtain ⟨l, e, hp, _⟩ := sortByMostSimilar_spec (id : Nat → Nat) query [p]
    rw [e, List.perm_singleton.mp hp]
  have h2 : chunks 1 [0, 1, 2] = [[0], [1], [2]] := by decide +kernel
  unfold clusterParStart
  rw [if_neg (by decide)]
  simp only [List.length_cons, List.length_nil]
  rw [if_neg (by decide)]
  simp only [Nat.zero_add, Nat.reduceAdd, Nat.reduceDiv]
  rw [h2]
  simp only [List.mapM_cons, List.mapM_nil, h1]
  rfl

/-- Two threads on points 0, 1. -/
theorem exStart2 (query : Nat → HSet Nat) :
    clusterParStart (id : Nat → Nat) query PShared.init 2 [0, 1] =
      .ok (PState.start PShared.init [[0], [1]]) := by
  have h1 : ∀ p : Nat, sortByMostSimilar (id : Nat → Nat) query [p] = .ok [p] := by
    intro p
    obtain ⟨l, e, hp, _⟩ := sortByMostSimilar_spec (id : Nat → Nat) query [p]
    rw [e, List.perm_singleton.mp hp]
  have h2 : chunks 1 [0, 1] = [[0], [1]] := by decide +kernel
  unfold clusterParStart
  rw [if_neg (by decide)]
  simp only [List.length_cons, List.length_nil]
  rw [if_neg (by decide)]
  simp only [Nat.zero_add, Nat.reduceAdd, Nat.reduceDiv]
  rw [h2]
  simp only [List.mapM_cons, List.mapM_nil, h1]
  rfl

/-- Worker 0 takes point 3 from worker 1, which then releases it, and worker 2 assigns it. -/
def exSched61 : List Nat := steps 6 0 ++ steps 6 1 ++ steps 8 0 ++ steps 20 1 ++ steps 20 2 ++ steps 20 0

def exEnd61 : PState Nat := (PState.start PShared.init [[0], [1], [2]]).run 2 exStar (fun _ => Order.id) latest exSched61

example : exEnd61.result.map (fun c => (c.clusterId, c.points)) = [(1, [0, 3]), (3, [2, 3])] := by decide +kernel

/-- C61 is false of the code: there is a schedule of three threads that returns point 3 in two clusters. -/
theorem C61_disjoint_false :
    ¬ ∀ (query : Nat → HSet Nat) (ord : Nat → Order) (min nThreads : Nat) (points : List Nat) (s0 : PState Nat)
      (sched : List Nat), clusterParStart (id : Nat → Nat) query PShared.init nThreads points = .ok s0 →
      (s0.run min query ord latest sched).finished →
      (s0.run min query ord latest sched).result.Pairwise fun a b => a.points.Disjoint b.points := by
  intro hall
  have h := hall exStar (fun _ => Order.id) 2 3 [0, 1, 2] _ exSched61 (exStart exStar)
    (finished_of_allDone (by decide +kernel))
  have hmap : exEnd61.result.map (fun c => c.points) = [[0, 3], [2, 3]] := by decide +kernel
  have h' : (exEnd61.result.map fun c => c.points).Pairwise List.Disjoint := List.pairwise_map.mpr h
  rw [hmap] at h'
  simp at h'

/-- C61, what holds under every schedule, with old values read or not: a point of two returned clusters was taken by one of them from a competitor
(lines 258-259: the point is pushed, but its pointer is not changed). What is missing is the absence of such takeovers. -/
theorem C61_disjoint_partial (min : Nat) (query : P → HSet P) (ord : Nat → Order) (age : Nat → Nat) (sh0 : PShared P)
    (h0 : sh0.Fresh) (slices : List (List P)) (sched : List Nat) :
    let s := (PState.start sh0 slices).run min query ord age sched
    (returned s).Pairwise fun c d => ∀ p ∈ (s.shared.cell c).points, p ∈ (s.shared.cell d).points →
      ∃ i v, .stolen i c p v ∈ s.shared.trace ∨ .stolen i d p v ∈ s.shared.trace := by
  intro s
  obtain ⟨N, hN⟩ := exists_bound query slices
  have I := pinv_run (min := min) hN ord age (pinv_start h0 slices) sched
  have hnd : (returned s).Nodup := nodup_returned I
  refine List.Pairwise.imp_of_mem ?_ hnd
  intro c d hc hd hne p hpc hpd
  obtain ⟨i, hi⟩ := (mem_returned I c).mp hc
  obtain ⟨j, hj⟩ := (mem_returned I d).mp hd
  obtain ⟨c1, c2, _⟩ := I.g.com i c hi
  obtain ⟨d1, d2, _⟩ := I.g.com j d hj
  rcases I.l c p c1 c2 (Or.inr ⟨i, hi⟩) hpc with h1 | ⟨k, v, h1⟩
  · rcases I.l d p d1 d2 (Or.inr ⟨j, hj⟩) hpd with h2 | ⟨k, v, h2⟩
    · rw [h1] at h2
      injection h2 with h2
      exact absurd h2 hne
    · exact ⟨k, v, Or.inr h2⟩
  · exact ⟨k, v, Or.inl h1⟩

/-- Both sides of the partial theorem in the run above: point 3 is in two clusters, and one took it over. -/
example : exEnd61.shared.trace.any (fun e => match e with | .stolen _ _ 3 _ => true | _ => false) = true := by
  decide +kernel

/-- What holds when no two attempts to create a cluster overlap (in particular with one thread): no race happens, the
clusters are disjoint and large enough, and all their points point to them. -/
theorem no_overlap (min : Nat) (query : P → HSet P) (ord : Nat → Order) (sh0 : PShared P)
    (h0 : sh0.Fresh) (slices : List (List P)) (sched : List Nat)
    (hone : ∀ pre, pre <+: sched → ((PState.start sh0 slices).run min query ord latest pre).OneAttempt) :
    let s := (PState.start sh0 slices).run min query ord latest sched
    s.result.Pairwise (fun a b => a.points.Disjoint b.points) ∧
    (∀ c ∈ returned s, min ≤ (s.shared.cell c).points.length ∧
      ∀ p ∈ (s.shared.cell c).points, s.shared.ptr.get? p = some c) ∧
    ∀ e ∈ s.shared.trace, e.race = false := by
  intro s
  obtain ⟨N, hN⟩ := exists_bound query slices
  have I := pinv_run (min := min) hN ord latest (pinv_start h0 slices) sched
  have R := pnorace_run (min := min) hN ord (pinv_start h0 slices) (pnorace_start h0 slices) sched hone
  have hnost : ∀ i c p d, PEvent.stolen i c p d ∉ s.shared.trace := fun i c p d h => by
    have := R.t _ h
    cases this
  refine ⟨?_, ?_, R.t⟩
  · have := C61_disjoint_partial min query ord latest sh0 h0 slices sched
    change ((returned s).map s.shared.cell).Pairwise _
    rw [List.pairwise_map]
    refine List.Pairwise.imp ?_ this
    intro c d h p hp hq
    obtain ⟨i, v, h | h⟩ := h p hp hq
    · exact hnost _ _ _ _ h
    · exact hnost _ _ _ _ h
  · intro c hc
    obtain ⟨i, hi⟩ := (mem_returned I c).mp hc
    obtain ⟨c1, c2, _⟩ := I.g.com i c hi
    refine ⟨?_, ?_⟩
    · have hs := I.g.size i c hi
      have h0 : skips s.shared c = 0 := by
        unfold skips
        rw [List.countP_eq_zero]
        intro e he
        have := R.t e he
        cases e <;> simp_all [PEvent.race]
      change min ≤ (s.shared.cell c).points.length + skips s.shared c at hs
      omega
    · intro p hp
      rcases I.l c p c1 c2 (Or.inr ⟨i, hi⟩) hp with h | ⟨k, v, h⟩
      · exact h
      · exact absurd h (hnost _ _ _ _)

/-- C61 when no two attempts overlap, even if loads return old values. -/
theorem C61_no_overlap_partial (min : Nat) (query : P → HSet P) (ord : Nat → Order) (age : Nat → Nat)
    (sh0 : PShared P) (h0 : sh0.Fresh) (slices : List (List P)) (sched : List Nat)
    (hone : ∀ pre, pre <+: sched → ((PState.start sh0 slices).run min query ord age pre).OneAttempt) :
    let s := (PState.start sh0 slices).run min query ord age sched
    s.result.Pairwise (fun a b => a.points.Disjoint b.points) ∧
    ∀ c ∈ returned s, ∀ p ∈ (s.shared.cell c).points, s.shared.ptr.get? p = some c := by
  intro s
  obtain ⟨N, hN⟩ := exists_bound query slices
  have I := pinv_run (min := min) hN ord age (pinv_start h0 slices) sched
  have R := pnosteal_run (min := min) hN ord age (pinv_start h0 slices) (pnosteal_start h0 slices) sched hone
  refine ⟨?_, ?_⟩
  · have := C61_disjoint_partial min query ord age sh0 h0 slices sched
    change ((returned s).map s.shared.cell).Pairwise _
    rw [List.pairwise_map]
    refine List.Pairwise.imp ?_ this
    intro c d h p hp hq
    obtain ⟨i, v, h | h⟩ := h p hp hq
    · exact R.t _ _ _ _ h
    · exact R.t _ _ _ _ h
  · intro c hc p hp
    obtain ⟨i, hi⟩ := (mem_returned I c).mp hc
    obtain ⟨c1, c2, _⟩ := I.g.com i c hi
    rcases I.l c p c1 c2 (Or.inr ⟨i, hi⟩) hp with h | ⟨k, v, h⟩
    · exact h
    · exact absurd h (R.t _ _ _ _)

/-! ### C62: size -/

/-- Worker 1 meets worker 0's cluster between the two looks at its state. -/
def exSched62 : List Nat := steps 4 1 ++ steps 9 0 ++ steps 3 1 ++ steps 1 0 ++ steps 20 1 ++ steps 20 0 ++ steps 20 2

def exEnd62 : PState Nat := (PState.start PShared.init [[0], [1], [2]]).run 2 exStar (fun _ => Order.id) latest exSched62

/-- C62 is false of the code: a cluster of one point is returned although the minimum is two. -/
theorem C62_min_size_false :
    ¬ ∀ (query : Nat → HSet Nat) (ord : Nat → Order) (min nThreads : Nat) (points : List Nat) (s0 : PState Nat)
      (sched : List Nat), clusterParStart (id : Nat → Nat) query PShared.init nThreads points = .ok s0 →
      (s0.run min query ord latest sched).finished →
      ∀ c ∈ (s0.run min query ord latest sched).result, min ≤ c.points.length := by
  intro hall
  have h := hall exStar (fun _ => Order.id) 2 3 [0, 1, 2] _ exSched62 (exStart exStar)
    (finished_of_allDone (by decide +kernel))
  have hb : (exEnd62.result.all fun c => decide (2 ≤ c.points.length)) = false := by decide +kernel
  have : (exEnd62.result.all fun c => decide (2 ≤ c.points.length)) = true := by
    rw [List.all_eq_true]
    intro c hc
    exact decide_eq_true (h c hc)
  rw [hb] at this
  cases this

/-- C62, what holds under every schedule, with old values read or not: a returned cluster lacks at most the points that its worker left out after
`i = i - 1` (which does not retry, since the loop variable is assigned anew). -/
theorem C62_min_size_partial (min : Nat) (query : P → HSet P) (ord : Nat → Order) (age : Nat → Nat) (sh0 : PShared P)
    (h0 : sh0.Fresh) (slices : List (List P)) (sched : List Nat) :
    let s := (PState.start sh0 slices).run min query ord age sched
    ∀ c ∈ returned s, min ≤ (s.shared.cell c).points.length + skips s.shared c := by
  intro s c hc
  obtain ⟨N, hN⟩ := exists_bound query slices
  have I := pinv_run (min := min) hN ord age (pinv_start h0 slices) sched
  obtain ⟨i, hi⟩ := (mem_returned I c).mp hc
  exact I.g.size i c hi

/-- In the run above the returned cluster of one point has one such point. -/
example : (returned exEnd62).map (fun c => ((exEnd62.shared.cell c).points.length, skips exEnd62.shared c)) =
    [(2, 0), (1, 1)] := by decide +kernel

/-- C62 when no two attempts overlap. -/
theorem C62_no_overlap_partial (min : Nat) (query : P → HSet P) (ord : Nat → Order) (sh0 : PShared P)
    (h0 : sh0.Fresh) (slices : List (List P)) (sched : List Nat)
    (hone : ∀ pre, pre <+: sched → ((PState.start sh0 slices).run min query ord latest pre).OneAttempt) :
    ∀ c ∈ ((PState.start sh0 slices).run min query ord latest sched).result, min ≤ c.points.length := by
  intro c hc
  change c ∈ (returned _).map _ at hc
  obtain ⟨d, hd, rfl⟩ := List.mem_map.mp hc
  exact ((no_overlap min query ord sh0 h0 slices sched hone).2.1 d hd).1

/-! ### C63: freed clusters -/

/-- Two points, each similar to itself and to point 3. -/
def exPair (p : Nat) : HSet Nat :=
  if p = 0 then HSet.empty.extend [3, 0] else if p = 1 then HSet.empty.extend [0, 3] else HSet.empty

/-- Worker 1 gives up, releases and frees its cluster after worker 0 has read a pointer to it. -/
def exSched63 : List Nat :=
  steps 4 0 ++ steps 4 1 ++ steps 2 0 ++ steps 2 1 ++ steps 2 0 ++ steps 20 1 ++ steps 40 0

def exEnd63 : PState Nat := (PState.start PShared.init [[0], [1]]).run 2 exPair (fun _ => Order.id) latest exSched63

/-- C63 is false of the code: there is a schedule of two threads in which a worker reads a freed cluster. -/
theorem C63_no_use_after_free_false :
    ¬ ∀ (query : Nat → HSet Nat) (ord : Nat → Order) (min nThreads : Nat) (points : List Nat) (s0 : PState Nat)
      (sched : List Nat), clusterParStart (id : Nat → Nat) query PShared.init nThreads points = .ok s0 →
      ∀ i c, .useAfterFree i c ∉ (s0.run min query ord latest sched).shared.trace := by
  intro hall
  refine hall exPair (fun _ => Order.id) 2 2 [0, 1] _ exSched63 (exStart2 exPair) 0 1 ?_
  have h : PEvent.useAfterFree 0 1 ∈ exEnd63.shared.trace := by decide +kernel
  unfold exEnd63 at h
  exact h

/-- C63, what holds under every schedule, with old values read or not: no point ever points to a freed cluster, and returned clusters are not freed;
only a pointer read before the release can be stale. -/
theorem C63_no_use_after_free_partial (min : Nat) (query : P → HSet P) (ord : Nat → Order) (age : Nat → Nat) (sh0 : PShared P)
    (h0 : sh0.Fresh) (slices : List (List P)) (sched : List Nat) :
    let s := (PState.start sh0 slices).run min query ord age sched
    (∀ p c, s.shared.ptr.get? p = some c → sh0.heap.length ≤ c → (s.shared.cell c).dropped = false) ∧
    ∀ c ∈ returned s, (s.shared.cell c).dropped = false := by
  intro s
  obtain ⟨N, hN⟩ := exists_bound query slices
  have I := pinv_run (min := min) hN ord age (pinv_start h0 slices) sched
  refine ⟨fun p c h hc => (I.g.ptr p c h hc).2.1, ?_⟩
  intro c hc
  obtain ⟨i, hi⟩ := (mem_returned I c).mp hc
  exact (I.g.com i c hi).2.2.2.2.1

/-- C63 when no two attempts overlap. -/
theorem C63_no_overlap_partial (min : Nat) (query : P → HSet P) (ord : Nat → Order) (sh0 : PShared P)
    (h0 : sh0.Fresh) (slices : List (List P)) (sched : List Nat)
    (hone : ∀ pre, pre <+: sched → ((PState.start sh0 slices).run min query ord latest pre).OneAttempt) :
    ∀ i c, .useAfterFree i c ∉ ((PState.start sh0 slices).run min query ord latest sched).shared.trace := by
  intro i c h
  have := (no_overlap min query ord sh0 h0 slices sched hone).2.2 _ h
  cases this

/-! ### C72: wait-freedom -/

/-- C72: a worker finishes after a bounded number of its own steps, whatever the other workers do (also if they stop);
the bound depends on the number of its points and of their similar points only. -/
theorem C72_wait_free (min N : Nat) (query : P → HSet P) (ord : Nat → Order) (age : Nat → Nat) (sh0 : PShared P) (h0 : sh0.Fresh)
    (slices : List (List P)) (hN : ∀ slice ∈ slices, ∀ p ∈ slice, (query p).elems.length ≤ N) (sched : List Nat)
    (i : Nat) (slice : List P) (hi : slices[i]? = some slice)
    (hc : slice.length * (N * N + 10 * N + 5) + 1 ≤ sched.count i) :
    ∃ w, ((PState.start sh0 slices).run min query ord age sched).workers[i]? = some w ∧ w.pc = .done := by
  refine wait_free hN ord age (pinv_start h0 slices) sched (w := { pc := .next, todo := slice, out := [] }) ?_ (Or.inr ?_)
  · simp only [PState.start, List.getElem?_map, hi, Option.map_some]
  · simp only [PWorker.cost, Pc.cost, costPerPoint]
    have : N + 1 + (N * (N + 8) + N + 4) = N * N + 10 * N + 5 := by
      rw [Nat.mul_add]; omega
    rw [this]
    exact hc

/-- Two threads with two points each; thread 0 never moves and thread 1 finishes. -/
example : (((PState.start PShared.init [[0, 3], [1, 2]]).run 2 exStar (fun _ => Order.id) latest
    (List.replicate (2 * (2 * 2 + 10 * 2 + 5) + 1) 1)).workers.map fun w => (w.todo, w.out)) =
    [([0, 3], []), ([], [0])] := by decide +kernel

/-! ### C73: what a cluster contains -/

/-- C73: under every schedule, with old values read or not, the points of a returned cluster are distinct, all similar to one input point of the
worker that returns it, and none of them was in a cluster before the call. -/
theorem C73_cohesive (min : Nat) (query : P → HSet P) (ord : Nat → Order) (age : Nat → Nat) (sh0 : PShared P) (h0 : sh0.Fresh)
    (slices : List (List P)) (sched : List Nat) (i : Nat) (w : PWorker P)
    (hw : ((PState.start sh0 slices).run min query ord age sched).workers[i]? = some w) (c : Nat) (hc : c ∈ w.out) :
    let points := (((PState.start sh0 slices).run min query ord age sched).shared.cell c).points
    points.Nodup ∧ (∃ slice, slices[i]? = some slice ∧ ∃ p ∈ slice, ∀ q ∈ points, q ∈ (query p).elems) ∧
    ∀ q ∈ points, sh0.ptr.get? q = none := by
  intro points
  obtain ⟨N, hN⟩ := exists_bound query slices
  have I := pinv_run (min := min) hN ord age (pinv_start h0 slices) sched
  have F := run_inv (min := min) (sh0 := sh0) hN ord age (fun sh _ => PFree sh0 sh)
    (fun s i w o k I F hi => pfree_step _ (I.w i w hi) F) (pinv_start h0 slices)
    (fun c h1 h2 => absurd h2 (Nat.not_lt.mpr h1)) sched
  obtain ⟨c1, c2, _⟩ := I.g.com i c (((I.w i w hw).out c).mp hc)
  obtain ⟨slice, hs, Q⟩ := I.q i w hw
  refine ⟨I.g.nodup c c1 c2, ⟨slice, hs, Q.out c hc⟩, ?_⟩
  intro q hq
  cases e : sh0.ptr.get? q with
  | none => rfl
  | some d => exact absurd e (F c c1 c2 q hq d (h0.ptr q d e))

/-- A worker that returns a cluster, in a run with three workers and a takeover. -/
example : exEnd61.workers.map (fun w => w.out.map fun c => (exEnd61.shared.cell c).points) =
    [[[0, 3]], [], [[2, 3]]] := by decide +kernel

/-! ### C74: earlier calls -/

/-- C74: under every schedule, with old values read or not, a point that was in a cluster before the call keeps its pointer, the earlier clusters
are not changed, and no earlier cluster that the caller has dropped is accessed. -/
theorem C74_earlier_clusters_untouched (min : Nat) (query : P → HSet P) (ord : Nat → Order) (age : Nat → Nat) (sh0 : PShared P)
    (h0 : sh0.Fresh) (slices : List (List P)) (sched : List Nat) :
    let s := (PState.start sh0 slices).run min query ord age sched
    (∀ p d, sh0.ptr.get? p = some d → s.shared.ptr.get? p = some d) ∧
    (∀ c, c < sh0.heap.length → s.shared.cell c = sh0.cell c) ∧
    ∀ i c, c < sh0.heap.length → .useAfterFree i c ∉ s.shared.trace := by
  intro s
  obtain ⟨N, hN⟩ := exists_bound query slices
  have I := pinv_run (min := min) hN ord age (pinv_start h0 slices) sched
  have U := run_inv (min := min) (sh0 := sh0) hN ord age (fun sh _ => PUaf sh0 sh)
    (fun s i w o k I U hi => puaf_step _ (I.w i w hi) U) (pinv_start h0 slices)
    (fun i d h => by simp [PState.start, h0.trace] at h) sched
  refine ⟨fun p d h => (I.g.oldptr p d (h0.ptr p d h)).mpr h, I.g.old, ?_⟩
  intro i c hc h
  exact absurd (U i c h) (Nat.not_le.mpr hc)

/-- Point 3 is in an earlier cluster that the caller has dropped. -/
def exEarlier : PShared Nat :=
  { ptr := HMap.empty.insert 3 0
    heap := [{ owner := 9, clusterId := 1, points := [3], state := 1, dropped := true }], seq := 1, trace := [] }

theorem exEarlier_fresh : exEarlier.Fresh := by
  refine ⟨?_, rfl, fun _ => rfl⟩
  intro p d h
  simp only [exEarlier, HMap.get?_insert] at h
  split_ifs at h
  · injection h with h; subst h; simp [exEarlier]
  · cases h

example : ((PState.start exEarlier [[0, 3], [1]]).run 1 exStar (fun _ => Order.id) latest (steps 40 0 ++ steps 40 1)).result.map
    (fun c => (c.clusterId, c.points)) = [(2, [0]), (3, [1])] := by decide +kernel

/-! ### C60: one worker -/

/-- C60: `Clusterer::cluster` never panics and terminates; the clusters are disjoint and large enough, all their points
point to them and are similar to one input point, and (for a minimum of at least one) every unassigned input point has
fewer than `min_cluster_size` unassigned similar points. -/
theorem C60_single_worker (min : Nat) (idOf : P → Id) (query : P → HSet P) (ord : Nat → Order) (sh0 : PShared P)
    (h0 : sh0.Fresh) (points : List P) :
    ∃ s0 n, parClusterStart idOf query sh0 points = .ok s0 ∧ ∀ m, n ≤ m →
      let s := s0.run min query ord latest (List.replicate m 0)
      s.finished ∧ s.result.Pairwise (fun a b => a.points.Disjoint b.points) ∧
      (∀ c ∈ returned s, min ≤ (s.shared.cell c).points.length ∧
        (∀ p ∈ (s.shared.cell c).points, s.shared.ptr.get? p = some c) ∧
        ∃ p ∈ points, ∀ q ∈ (s.shared.cell c).points, q ∈ (query p).elems) ∧
      (1 ≤ min → ∀ p ∈ points, s.shared.ptr.get? p = none →
        ((query p).elems.filter fun q => (s.shared.ptr.get? q).isNone).length < min) := by
  obtain ⟨slice, hsort, hperm, _⟩ := sortByMostSimilar_spec idOf query points
  obtain ⟨N, hN⟩ := exists_bound query [slice]
  refine ⟨PState.start sh0 [slice], slice.length * (N * N + 10 * N + 5) + 1, ?_, ?_⟩
  · unfold parClusterStart
    rw [hsort]
    rfl
  intro m hm s
  have hw1 : (PState.start sh0 [slice]).workers.length = 1 := rfl
  have hone := oneAttempt_single (min := min) (query := query) ord latest hw1
  have I : PInv min N query [slice] sh0 s := pinv_run hN ord latest (pinv_start h0 [slice]) _
  obtain ⟨w, hwait, hdone⟩ := C72_wait_free min N query ord latest sh0 h0 [slice] hN (List.replicate m 0) 0 slice rfl
    (by rw [List.count_replicate_self]; exact hm)
  have hlen : s.workers = [w] := by
    have h1 : ∀ (sched : List Nat) (t : PState P), (t.run min query ord latest sched).workers.length = t.workers.length := by
      intro sched
      induction sched with
      | nil => exact fun t => rfl
      | cons i is ih =>
        intro t
        change ((t.step min query ord latest i).run min query ord latest is).workers.length = _
        rw [ih]
        unfold PState.step
        cases t.workers[i]? with
        | none => rfl
        | some w => simp
    have h2 : s.workers.length = 1 := h1 _ _
    obtain ⟨v, hv⟩ := List.length_eq_one_iff.mp h2
    have h3 : s.workers[0]? = some w := hwait
    rw [hv] at h3 ⊢
    injection h3 with h3
    rw [h3]
  have hno := no_overlap min query ord sh0 h0 [slice] (List.replicate m 0) (fun pre _ => hone pre)
  refine ⟨?_, hno.1, ?_, ?_⟩
  · intro v hv
    rw [hlen, List.mem_singleton] at hv
    rw [hv]
    exact hdone
  · intro c hc
    refine ⟨(hno.2.1 c hc).1, (hno.2.1 c hc).2, ?_⟩
    have hc' : c ∈ w.out := by
      have : returned s = w.out := by unfold returned; rw [hlen]; simp
      rw [← this]
      exact hc
    obtain ⟨sl, hsl, Q⟩ := I.q 0 w hwait
    obtain ⟨p, hp, hq⟩ := Q.out c hc'
    simp only [List.getElem?_cons_zero, Option.some.injEq] at hsl
    subst hsl
    exact ⟨p, hperm.mem_iff.mp hp, hq⟩
  · intro hmin p hp hnone
    obtain ⟨v, hv, S⟩ := psolo_run (by simpa using hN) hmin ord (pinv_start h0 [slice])
      (s := PState.start sh0 [slice]) ⟨{ pc := .next, todo := slice, out := [] }, rfl, fun q hq => Or.inl hq⟩
      (List.replicate m 0)
    change s.workers = [v] at hv
    rw [hlen] at hv
    injection hv with hv
    subst hv
    unfold PSolo at S
    rw [hdone] at S
    exact (S p (hperm.mem_iff.mpr hp)).resolve_left (fun h => h hnone)

/-- One worker on points 0, 1, 2, starting from the memory of a fresh clusterer. -/
example : ((PState.start PShared.init [[0, 1, 2]]).run 2 exStar (fun _ => Order.rev) latest (steps 60 0)).result.map
    (fun c => (c.clusterId, c.points)) = [(1, [3, 0])] := by decide +kernel

/-- C60: the points are looked at in descending order of the number of similar points (with distinct ids). -/
theorem C60_order (idOf : P → Id) (query : P → HSet P) (sh0 : PShared P) (points : List P)
    (hinj : ∀ p ∈ points, ∀ q ∈ points, idOf p = idOf q → p = q) :
    ∃ slice, parClusterStart idOf query sh0 points = .ok (PState.start sh0 [slice]) ∧ slice.Perm points ∧
      slice.Pairwise fun p q => (query q).elems.length ≤ (query p).elems.length := by
  obtain ⟨slice, hsort, hperm, hp⟩ := sortByMostSimilar_spec idOf query points
  refine ⟨slice, ?_, hperm, hp hinj⟩
  unfold parClusterStart
  rw [hsort]
  rfl

/-- One worker on points 0, 1, 2: the first takes point 3, so that the others are alone. -/
example : ((PState.start PShared.init [[0, 1, 2]]).run 2 exStar (fun _ => Order.id) latest (steps 60 0)).result.map
    (fun c => (c.clusterId, c.points)) = [(1, [0, 3])] := by decide +kernel

/-- The memory of a fresh clusterer meets the hypothesis of the theorems of this file. -/
theorem init_fresh : (PShared.init : PShared P).Fresh := by
  refine ⟨?_, rfl, fun _ => rfl⟩
  intro p d h
  simp only [PShared.init, HMap.get?_empty] at h
  cases h

/-! ### C75: maximality -/

/-- C75 is false of the code: in the run of C63 both workers lose their attempt; points 0 and 3 stay unassigned. -/
theorem C75_maximal_false :
    ¬ ∀ (query : Nat → HSet Nat) (ord : Nat → Order) (min nThreads : Nat) (points : List Nat) (s0 : PState Nat)
      (sched : List Nat), 1 ≤ min → clusterParStart (id : Nat → Nat) query PShared.init nThreads points = .ok s0 →
      (s0.run min query ord latest sched).finished →
      ∀ p ∈ points, (s0.run min query ord latest sched).shared.ptr.get? p = none →
        ((query p).elems.filter fun q => ((s0.run min query ord latest sched).shared.ptr.get? q).isNone).length < min := by
  intro hall
  have hn : exEnd63.shared.ptr.get? 0 = none := by decide +kernel
  have h' : ((exPair 0).elems.filter fun q => (exEnd63.shared.ptr.get? q).isNone).length = 2 := by decide +kernel
  unfold exEnd63 at hn h'
  have h := hall exPair (fun _ => Order.id) 2 2 [0, 1] _ exSched63 (by decide) (exStart2 exPair)
    (finished_of_allDone (by decide +kernel)) 0 (by simp) hn
  rw [h'] at h
  omega

/-- C75, what holds: a single thread (any schedule long enough) leaves no such point. -/
theorem C75_maximal_partial (min : Nat) (hmin : 1 ≤ min) (idOf : P → Id) (query : P → HSet P) (ord : Nat → Order)
    (sh0 : PShared P) (h0 : sh0.Fresh) (points : List P) :
    ∃ s0 n, parClusterStart idOf query sh0 points = .ok s0 ∧ ∀ m, n ≤ m →
      ∀ p ∈ points, (s0.run min query ord latest (List.replicate m 0)).shared.ptr.get? p = none →
        ((query p).elems.filter fun q =>
          ((s0.run min query ord latest (List.replicate m 0)).shared.ptr.get? q).isNone).length < min := by
  obtain ⟨s0, n, h, hm⟩ := C60_single_worker min idOf query ord sh0 h0 points
  exact ⟨s0, n, h, fun m h' => (hm m h').2.2.2 hmin⟩

/-! ### The hypothesis on overlapping attempts -/

/-- A check of `OneAttempt` that computes. -/
def oneAttemptB (s : PState P) : Bool := decide ((s.workers.filter fun w => w.pc.own.isSome).length ≤ 1)

theorem oneAttempt_of_check {s : PState P} (h : oneAttemptB s = true) : s.OneAttempt := by
  have h := of_decide_eq_true h
  have key : ∀ (l : List (PWorker P)) (i j : Nat) (v w : PWorker P), i < j → l[i]? = some v → l[j]? = some w →
      v.pc.own ≠ none → w.pc.own ≠ none → 2 ≤ (l.filter fun w => w.pc.own.isSome).length := by
    intro l
    induction l with
    | nil => intro i j v w _ h; cases h
    | cons x l ih =>
      intro i j v w hij hv hw h1 h2
      obtain ⟨j, rfl⟩ : ∃ k, j = k + 1 := ⟨j - 1, by omega⟩
      rw [List.getElem?_cons_succ] at hw
      cases i with
      | zero =>
        simp only [List.getElem?_cons_zero, Option.some.injEq] at hv
        subst hv
        have hm : w ∈ l.filter fun w => w.pc.own.isSome :=
          List.mem_filter.mpr ⟨List.mem_of_getElem? hw, by rw [Option.isSome_iff_ne_none]; exact h2⟩
        rw [List.filter_cons_of_pos (by rw [Option.isSome_iff_ne_none]; exact h1), List.length_cons]
        have := List.length_pos_of_mem hm
        omega
      | succ i =>
        rw [List.getElem?_cons_succ] at hv
        have := ih i j v w (by omega) hv hw h1 h2
        refine Nat.le_trans this ?_
        rw [List.filter_cons]
        split_ifs
        · simp
        · exact Nat.le_refl _
  intro i j v w hv hw h1 h2
  rcases Nat.lt_trichotomy i j with hij | hij | hij
  · have := key _ i j v w hij hv hw h1 h2; omega
  · exact hij
  · have := key _ j i w v hij hw hv h2 h1; omega

/-- Worker 0 moves up to the allocation of its cluster, worker 1 makes its cluster, then worker 0 goes on: it gives up
when it meets point 3. The attempts of the two do not overlap. -/
example : let sched := steps 3 0 ++ steps 30 1 ++ steps 30 0
    (∀ pre, pre <+: sched →
      ((PState.start PShared.init [[0], [1]]).run 2 exStar (fun _ => Order.id) latest pre).OneAttempt) ∧
    ((PState.start PShared.init [[0], [1]]).run 2 exStar (fun _ => Order.id) latest sched).result.map
      (fun c => (c.clusterId, c.points)) = [(1, [3, 1])] ∧
    ((PState.start PShared.init [[0], [1]]).run 2 exStar (fun _ => Order.id) latest sched).shared.trace =
      [.committed 1 0, .rolledBack 0 1, .freed 0 1] := by
  refine ⟨?_, by decide +kernel, by decide +kernel⟩
  intro pre hpre
  have hlen : pre.length < 64 := by
    have := hpre.length_le
    simp only [steps, List.length_append, List.length_replicate] at this
    omega
  rw [List.prefix_iff_eq_take.mp hpre]
  have hall : ∀ n < 64, oneAttemptB ((PState.start PShared.init [[0], [1]]).run 2 exStar (fun _ => Order.id) latest
      ((steps 3 0 ++ steps 30 1 ++ steps 30 0).take n)) = true := by decide +kernel
  exact oneAttempt_of_check (hall _ hlen)

/-! ### Old values -/

/-- Worker 0 is about to allocate its cluster when worker 1 makes its own; then worker 0 reads the state of the latter
twice, the first time the old value. The attempts do not overlap. -/
def exAge62 : Nat → Nat := fun t => if t = 38 then 1 else 0

def exStale62 : PState Nat → List Nat → PState Nat := fun s => s.run 2 exStar (fun _ => Order.id) exAge62

theorem exStale62_one : ∀ pre, pre <+: steps 3 0 ++ steps 30 1 ++ steps 30 0 →
    (exStale62 (PState.start PShared.init [[0], [1]]) pre).OneAttempt := by
  intro pre hpre
  have hlen : pre.length < 64 := by
    have := hpre.length_le
    simp only [steps, List.length_append, List.length_replicate] at this
    omega
  rw [List.prefix_iff_eq_take.mp hpre]
  have hall : ∀ n < 64, oneAttemptB (exStale62 (PState.start PShared.init [[0], [1]])
      ((steps 3 0 ++ steps 30 1 ++ steps 30 0).take n)) = true := by decide +kernel
  exact oneAttempt_of_check (hall _ hlen)

/-- C62 is false when loads may return old values (never going back), even if no two attempts overlap: a worker that sees a committed
cluster first as uncommitted and then as `ROLLED_BACK` (the same number) leaves the point out. -/
theorem C62_no_overlap_stale_false :
    ¬ ∀ (query : Nat → HSet Nat) (ord : Nat → Order) (age : Nat → Nat) (min nThreads : Nat) (points : List Nat)
      (s0 : PState Nat) (sched : List Nat), clusterParStart (id : Nat → Nat) query PShared.init nThreads points = .ok s0 →
      Spec.coherent min query ord age s0 (fun _ _ => 0) sched →
      (∀ pre, pre <+: sched → (s0.run min query ord age pre).OneAttempt) → (s0.run min query ord age sched).finished →
      ∀ c ∈ (s0.run min query ord age sched).result, min ≤ c.points.length := by
  intro hall
  have h := hall exStar (fun _ => Order.id) exAge62 2 2 [0, 1] _ (steps 3 0 ++ steps 30 1 ++ steps 30 0) (exStart2 exStar)
    (by decide +kernel) exStale62_one (finished_of_allDone (by decide +kernel))
  have hb : ((exStale62 (PState.start PShared.init [[0], [1]]) (steps 3 0 ++ steps 30 1 ++ steps 30 0)).result.all
    fun c => decide (2 ≤ c.points.length)) = false := by decide +kernel
  have : ((exStale62 (PState.start PShared.init [[0], [1]]) (steps 3 0 ++ steps 30 1 ++ steps 30 0)).result.all
      fun c => decide (2 ≤ c.points.length)) = true := by
    rw [List.all_eq_true]
    intro c hc
    exact decide_eq_true (h c hc)
  rw [hb] at this
  cases this

/-- The clusters of that run are still disjoint, and their points point to them. -/
example : (exStale62 (PState.start PShared.init [[0], [1]]) (steps 3 0 ++ steps 30 1 ++ steps 30 0)).result.map
    (fun c => (c.clusterId, c.points)) = [(2, [0]), (1, [3, 1])] := by decide +kernel

/-- Points 0 and 1 are similar to point 3, and point 2 to point 0. -/
def exChain (p : Nat) : HSet Nat :=
  if p = 0 then HSet.empty.extend [3, 0] else if p = 1 then HSet.empty.extend [1, 3]
  else if p = 2 then HSet.empty.extend [2, 0] else HSet.empty

/-- Worker 2 reads the three values of the pointer of point 0 one by one: null, the cluster that worker 0 has released. -/
def exAge63 : Nat → Nat := fun t => if t = 64 then 2 else if t = 68 then 1 else 0

/-- Worker 0 gives up after worker 1 has made its cluster, and frees its own; then worker 2 runs. -/
def exSchedStale63 : List Nat := steps 3 0 ++ steps 30 1 ++ steps 30 0 ++ steps 30 2

def exStale63 : PState Nat → List Nat → PState Nat := fun s => s.run 2 exChain (fun _ => Order.id) exAge63

theorem exStale63_one : ∀ pre, pre <+: exSchedStale63 →
    (exStale63 (PState.start PShared.init [[0], [1], [2]]) pre).OneAttempt := by
  intro pre hpre
  have hlen : pre.length < 94 := by
    have := hpre.length_le
    simp only [exSchedStale63, steps, List.length_append, List.length_replicate] at this
    omega
  rw [List.prefix_iff_eq_take.mp hpre]
  have hall : ∀ n < 94, oneAttemptB (exStale63 (PState.start PShared.init [[0], [1], [2]])
      (exSchedStale63.take n)) = true := by decide +kernel
  exact oneAttempt_of_check (hall _ hlen)

/-- C63 is false when loads may return old values (never going back), even if no two attempts overlap: the pointer to a released and
freed cluster is still read and followed. -/
theorem C63_no_overlap_stale_false :
    ¬ ∀ (query : Nat → HSet Nat) (ord : Nat → Order) (age : Nat → Nat) (min nThreads : Nat) (points : List Nat)
      (s0 : PState Nat) (sched : List Nat), clusterParStart (id : Nat → Nat) query PShared.init nThreads points = .ok s0 →
      Spec.coherent min query ord age s0 (fun _ _ => 0) sched →
      (∀ pre, pre <+: sched → (s0.run min query ord age pre).OneAttempt) →
      ∀ i c, .useAfterFree i c ∉ (s0.run min query ord age sched).shared.trace := by
  intro hall
  refine hall exChain (fun _ => Order.id) exAge63 2 3 [0, 1, 2] _ exSchedStale63 (exStart exChain)
    (by decide +kernel) exStale63_one 2 1 ?_
  have h : PEvent.useAfterFree 2 1 ∈
    (exStale63 (PState.start PShared.init [[0], [1], [2]]) exSchedStale63).shared.trace := by decide +kernel
  unfold exStale63 at h
  exact h

/-- An execution that is not coherent: worker 2 sees the latest value of the pointer first, and then an older one. -/
example : ¬ Spec.coherent 2 exChain (fun _ => Order.id) (fun t => if t = 68 then 1 else 0)
    (PState.start PShared.init [[0], [1], [2]]) (fun _ _ => 0) exSchedStale63 := by decide +kernel

/-- With `latest` the executions of this file are coherent. -/
example : Spec.coherent 2 exStar (fun _ => Order.id) latest
    (PState.start PShared.init [[0], [1], [2]]) (fun _ _ => 0) exSched61 := by decide +kernel

end Verif.Props
