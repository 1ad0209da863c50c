import Verif.Spec.Sessions
import Verif.Props.ParallelLabels

/-!
# Property C139: several calls of the parallel clusterer
-/
namespace Verif.Props
open Verif Verif.Spec
variable {P : Type} [DecidableEq P]

theorem call_inv (k : Call P) {sh : PShared P} (h : sh.Fresh) : ∃ N, PInv k.min N k.query k.slices sh (k.run sh) := by
  obtain ⟨N, hN⟩ := exists_bound k.query k.slices
  exact ⟨N, pinv_run hN k.ord k.age (pinv_start h k.slices) k.sched⟩

theorem call_next (k : Call P) {sh : PShared P} (h : sh.Fresh) : (k.next (k.run sh).shared).Fresh := by
  obtain ⟨N, I⟩ := call_inv k h
  refine ⟨?_, rfl, fun _ => rfl⟩
  intro p d hp
  change (k.run sh).shared.ptr.get? p = some d at hp
  change d < (List.mapIdx _ (k.run sh).shared.heap).length
  rw [List.length_mapIdx]
  by_cases hd : sh.heap.length ≤ d
  · exact (I.g.ptr p d hp hd).1
  · exact Nat.lt_of_lt_of_le (Nat.lt_of_not_le hd) I.g.len

/-- The clusters created in a call, and the sequence after it. -/
theorem call_ids (k : Call P) {sh : PShared P} (h : sh.Fresh) :
    ∃ n, n ≤ k.slices.flatten.length ∧ (k.run sh).shared.seq = sh.seq + n ∧
      ∀ c ∈ (k.run sh).result, ∃ j < n, c.clusterId = (sh.seq + j + 1) % 2 ^ 32 := by
  obtain ⟨N, hN⟩ := exists_bound k.query k.slices
  have I := pinv_run (min := k.min) hN k.ord k.age (pinv_start h k.slices) k.sched
  have hle := attempts_le (min := k.min) hN k.ord k.age h k.sched
  change PInv k.min N k.query k.slices sh (k.run sh) at I
  change (k.run sh).shared.heap.length ≤ _ at hle
  have hseq := I.g.seq
  have hlen := I.g.len
  refine ⟨(k.run sh).shared.heap.length - sh.heap.length, by omega, by omega, ?_⟩
  intro c hc
  obtain ⟨a, ha, rfl⟩ := List.mem_map.mp hc
  obtain ⟨i, hi⟩ := (mem_returned I a).mp ha
  obtain ⟨a1, a2, _⟩ := I.g.com i a hi
  exact ⟨a - sh.heap.length, by omega, I.g.id a a1 a2⟩

theorem session_ids (ks : List (Call P)) {sh : PShared P} (h : sh.Fresh) :
    ∀ s ∈ session sh ks, ∀ c ∈ s.result,
      ∃ j < (ks.flatMap fun k => k.slices.flatten).length, c.clusterId = (sh.seq + j + 1) % 2 ^ 32 := by
  induction ks generalizing sh with
  | nil => intro s hs; cases hs
  | cons k ks ih =>
    obtain ⟨n, h1, h2, h3⟩ := call_ids k h
    intro s hs c hc
    rw [List.flatMap_cons, List.length_append]
    rcases List.mem_cons.mp hs with rfl | hs
    · obtain ⟨j, hj, e⟩ := h3 c hc
      exact ⟨j, by omega, e⟩
    · obtain ⟨j, hj, e⟩ := ih (call_next k h) s hs c hc
      change c.clusterId = ((k.run sh).shared.seq + j + 1) % 2 ^ 32 at e
      exact ⟨n + j, by omega, by rw [e, h2]; congr 1; omega⟩

/-- C139: the ids of the clusters that all calls of one clusterer return are distinct, for at most 2^32 points in all calls
together, under every schedule and whatever old values loads return. -/
theorem C139_ids_distinct (sh0 : PShared P) (h0 : sh0.Fresh) (ks : List (Call P))
    (hlen : (ks.flatMap fun k => k.slices.flatten).length ≤ 2 ^ 32) :
    ((session sh0 ks).flatMap fun s => s.result.map fun c => c.clusterId).Nodup := by
  induction ks generalizing sh0 with
  | nil => exact List.nodup_nil
  | cons k ks ih =>
    obtain ⟨n, h1, h2, h3⟩ := call_ids k h0
    rw [List.flatMap_cons, List.length_append] at hlen
    have hfst := (C64_ids_distinct k.min k.query k.ord k.age sh0 h0 k.slices (by omega) k.sched).1
    change (((k.run sh0).result.map fun c => c.clusterId) ++ (session (k.next (k.run sh0).shared) ks).flatMap fun s =>
      s.result.map fun c => c.clusterId).Nodup
    refine List.nodup_append.mpr ⟨hfst, ih _ (call_next k h0) (by omega), ?_⟩
    intro a ha b hb
    obtain ⟨c, hc, rfl⟩ := List.mem_map.mp ha
    obtain ⟨s, hs, hb⟩ := List.mem_flatMap.mp hb
    obtain ⟨d, hd, rfl⟩ := List.mem_map.mp hb
    obtain ⟨i, hi, e1⟩ := h3 c hc
    obtain ⟨j, hj, e2⟩ := session_ids ks (call_next k h0) s hs d hd
    change d.clusterId = ((k.run sh0).shared.seq + j + 1) % 2 ^ 32 at e2
    rw [e1, e2, h2]
    omega

/-- A point that is in a cluster before a call is in no cluster that this call or a later one returns. -/
theorem session_free (ks : List (Call P)) {sh : PShared P} (h : sh.Fresh) (p : P) (hp : sh.ptr.get? p ≠ none) :
    ∀ s ∈ session sh ks, ∀ c ∈ s.result, p ∉ c.points := by
  induction ks generalizing sh with
  | nil => intro s hs; cases hs
  | cons k ks ih =>
    intro s hs c hc hpc
    rcases List.mem_cons.mp hs with rfl | hs
    · obtain ⟨a, ha, rfl⟩ := List.mem_map.mp hc
      obtain ⟨w, hw, haw⟩ := List.mem_flatMap.mp ha
      obtain ⟨i, hi⟩ := List.mem_iff_getElem?.mp hw
      exact hp ((C73_cohesive k.min k.query k.ord k.age sh h k.slices k.sched i w hi a haw).2.2 p hpc)
    · refine ih (call_next k h) ?_ s hs c hc hpc
      change (k.run sh).shared.ptr.get? p ≠ none
      obtain ⟨d, hd⟩ := Option.ne_none_iff_exists'.mp hp
      have := (C74_earlier_clusters_untouched k.min k.query k.ord k.age sh h k.slices k.sched).1 p d hd
      change (k.run sh).shared.ptr.get? p = some d at this
      rw [this]
      simp

/-- C139: if no call takes a point over from a competitor, then the clusters that all calls return are disjoint. -/
theorem C139_disjoint_no_takeover (sh0 : PShared P) (h0 : sh0.Fresh) (ks : List (Call P))
    (hno : ∀ s ∈ session sh0 ks, ∀ i c p v, .stolen i c p v ∉ s.shared.trace) :
    ((session sh0 ks).flatMap fun s => s.result).Pairwise fun c d => c.points.Disjoint d.points := by
  induction ks generalizing sh0 with
  | nil => exact List.Pairwise.nil
  | cons k ks ih =>
    change ((k.run sh0).result ++ (session (k.next (k.run sh0).shared) ks).flatMap fun s => s.result).Pairwise _
    have hk := hno (k.run sh0) List.mem_cons_self
    refine List.pairwise_append.mpr ⟨?_, ih _ (call_next k h0) fun s hs => hno s (List.mem_cons_of_mem _ hs), ?_⟩
    · refine List.pairwise_map.mpr ?_
      refine (C61_disjoint_partial k.min k.query k.ord k.age sh0 h0 k.slices k.sched).imp ?_
      intro c d h p hc hd
      obtain ⟨i, v, h | h⟩ := h p hc hd
      · exact hk _ _ _ _ h
      · exact hk _ _ _ _ h
    · intro c hc d hd p hpc hpd
      obtain ⟨s, hs, hd⟩ := List.mem_flatMap.mp hd
      refine session_free ks (call_next k h0) p ?_ s hs d hd hpd
      change (k.run sh0).shared.ptr.get? p ≠ none
      obtain ⟨a, ha, rfl⟩ := List.mem_map.mp hc
      obtain ⟨w, hw, haw⟩ := List.mem_flatMap.mp ha
      rcases C138_member_partial k.min k.query k.ord k.age sh0 h0 k.slices k.sched w hw a haw p hpc with h | ⟨i, v, h⟩
      · change (k.run sh0).shared.ptr.get? p = _ at h
        rw [h]
        simp
      · exact absurd h (hk _ _ _ _)

/-- All states at the start of the calls of a session have the calls' own runs; coherent executions with one worker, or with
independent parts, take no point over. -/
def Calm : PShared P → List (Call P) → Prop
  | _, [] => True
  | sh, k :: ks => Independent k.query k.slices ∧
      coherent k.min k.query k.ord k.age (PState.start sh k.slices) (fun _ _ => 0) k.sched ∧
      Calm (k.next (k.run sh).shared) ks

/-- C139: in particular the clusters of all calls are disjoint if each call runs on one thread, or on independent parts of the
points. -/
theorem C139_disjoint (sh0 : PShared P) (h0 : sh0.Fresh) (ks : List (Call P)) (hcalm : Calm sh0 ks) :
    ((session sh0 ks).flatMap fun s => s.result).Pairwise fun c d => c.points.Disjoint d.points := by
  refine C139_disjoint_no_takeover sh0 h0 ks ?_
  induction ks generalizing sh0 with
  | nil => intro s hs; cases hs
  | cons k ks ih =>
    obtain ⟨c1, c2, c3⟩ := hcalm
    intro s hs i c p v h
    rcases List.mem_cons.mp hs with rfl | hs
    · obtain ⟨j, d, e⟩ := (C100_independent k.min k.query k.ord k.age sh0 h0 k.slices c1 k.sched c2).2 _ h
      cases e
    · exact ih _ (call_next k h0) c3 s hs i c p v h

/-- C139: in particular if each call runs on one thread (`Clusterer::cluster`). -/
theorem C139_one_thread (sh0 : PShared P) (h0 : sh0.Fresh) (ks : List (Call P))
    (hone : ∀ k ∈ ks, (∃ slice, k.slices = [slice]) ∧ k.age = latest) :
    ((session sh0 ks).flatMap fun s => s.result).Pairwise fun c d => c.points.Disjoint d.points := by
  refine C139_disjoint sh0 h0 ks ?_
  clear h0
  induction ks generalizing sh0 with
  | nil => trivial
  | cons k ks ih =>
    obtain ⟨⟨slice, e⟩, e'⟩ := hone k List.mem_cons_self
    refine ⟨?_, ?_, ih _ fun k' h => hone k' (List.mem_cons_of_mem _ h)⟩
    · rw [e]; exact independent_single k.query slice
    · rw [e']; exact coherent_latest _ _ _ _ _ _ fun _ _ => Nat.zero_le _

/-- Two calls of two threads each, the clusters of the first being dropped before the second, which has new points (4, 5). -/
def exCalls : List (Call Nat) :=
  [⟨2, exApart, fun _ => Order.id, latest, [[0, 1], [2]], steps 30 0 ++ steps 30 1, fun _ => true⟩,
   ⟨2, fun _ => HSet.empty.extend [4, 5, 0], fun _ => Order.id, latest, [[4], [0]], steps 30 1 ++ steps 30 0, fun _ => false⟩]

example : (exCalls.flatMap fun k => k.slices.flatten).length ≤ 2 ^ 32 ∧
    ((session PShared.init exCalls).map fun s => s.result.map fun c => (c.clusterId, c.points)) =
      [[(1, [1, 0]), (2, [3, 2])], [(3, [5, 4])]] ∧
    ((session PShared.init exCalls).all fun s => s.shared.trace.all fun e => match e with | .stolen .. => false | _ => true) =
      true := by decide +kernel

end Verif.Props
