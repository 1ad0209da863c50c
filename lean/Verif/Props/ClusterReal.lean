import Verif.Props.ClusterIndex

/-!
# The parallel clusterer on two threads over a MinHash index (C61, C62, C63, C75)

The counterexamples to C61, C62, C63 and C75 in `ClusterPar.lean` use arbitrary neighbourhoods and up to three threads.
Here they are found in the plainest use of the crate: documents are inserted into a `MinHashIndex`, each once, and exactly
the inserted documents are clustered with two threads. All loads return the latest values.
-/
set_option linter.unusedSectionVars false
namespace Verif.Props
open Verif.Spec

/-- The documents are inserted into a new index, each once and with a signature of the right length, `query` is the
answer of the index, and `s0` is the start of `cluster_par` on these documents with `nThreads` threads. -/
def IndexedRun (nThreads : Nat) (docs : List (Nat × List Nat)) (query : Nat → HSet Nat) (s0 : PState Nat) : Prop :=
  ∃ (b r : Nat) (t : Fl) (h : List Nat → UInt64), (docs.map Prod.fst).Nodup ∧ (∀ d ∈ docs, d.2.length = b * r) ∧
    (∀ p, (After (HashSetContainer Nat) b r t h (docs.map fun d => .insert d.1 d.2)).queryIndexQuery p = .ok (query p)) ∧
    clusterParStart (id : Nat → Nat) query PShared.init nThreads (docs.map Prod.fst) = .ok s0

/-- The answers of the index of the examples: two bands of one row, threshold 1/2. -/
def docsQuery (docs : List (Nat × List Nat)) (p : Nat) : HSet Nat :=
  match (After (HashSetContainer Nat) 2 1 (.fin (1 / 2)) exHash (docs.map fun d => .insert d.1 d.2)).queryIndexQuery p with
  | .ok s => s
  | .error _ => HSet.empty

theorem docsQuery_spec (docs : List (Nat × List Nat)) (hd : ∀ d ∈ docs, d.2.length = 2) (p : Nat) :
    (After (HashSetContainer Nat) 2 1 (.fin (1 / 2)) exHash (docs.map fun d => .insert d.1 d.2)).queryIndexQuery p =
      .ok (docsQuery docs p) := by
  have hl : RightLengths (2 * 1) (docs.map fun d => (.insert d.1 d.2 : Op Nat Nat)) := by
    intro op hop s hs
    obtain ⟨d, hd', rfl⟩ := List.mem_map.mp hop
    simp [sigsOf] at hs
    subst hs
    exact hd d hd'
  obtain ⟨res, hres, _⟩ := queryIndex_spec (C := HashSetContainer Nat) 2 1 (.fin (1 / 2)) exHash _ hl p
  unfold docsQuery
  rw [hres]

/-- Four documents: 2 is similar to 0 and to 3, and 1 to none. -/
def docs4 : List (Nat × List Nat) := [(0, [1, 5]), (1, [9, 9]), (2, [1, 2]), (3, [6, 2])]

example : (List.range 4).map (fun p => (docsQuery docs4 p).elems) = [[0, 2], [1], [3, 0, 2], [2, 3]] := by decide +kernel

/-- The same documents in another order. -/
def docs4' : List (Nat × List Nat) := [(0, [1, 5]), (2, [1, 2]), (3, [6, 2]), (1, [9, 9])]

/-- Two equal documents. -/
def docs2 : List (Nat × List Nat) := [(0, [1, 2]), (1, [1, 2])]

theorem sort_two (query : Nat → HSet Nat) (p q a b : Nat) (hpq : [a, b].Perm [p, q])
    (h : (query b).elems.length < (query a).elems.length) :
    sortByMostSimilar (id : Nat → Nat) query [p, q] = .ok [a, b] := by
  obtain ⟨l, e, hp, hs⟩ := sortByMostSimilar_spec (id : Nat → Nat) query [p, q]
  rw [e]
  have hs := hs fun _ _ _ _ h => h
  have hp := hp.trans hpq.symm
  rcases l with _ | ⟨x, _ | ⟨y, _ | ⟨z, l⟩⟩⟩
  · exact absurd hp.length_eq (by simp)
  · exact absurd hp.length_eq (by simp)
  · have hx : x ∈ [a, b] := hp.subset (by simp)
    have hy : y ∈ [a, b] := hp.subset (by simp)
    have ha : a ∈ [x, y] := hp.symm.subset (by simp)
    have hb : b ∈ [x, y] := hp.symm.subset (by simp)
    simp only [List.mem_cons, List.not_mem_nil, or_false] at hx hy ha hb
    simp only [List.pairwise_cons, List.mem_cons, List.not_mem_nil, or_false, forall_eq] at hs
    have hne : a ≠ b := by rintro rfl; omega
    rcases hx with rfl | rfl
    · rcases hy with rfl | rfl
      · rcases hb with rfl | rfl <;> exact absurd rfl hne
      · rfl
    · rcases hy with rfl | rfl
      · exact absurd hs.1 (by omega)
      · rcases ha with rfl | rfl <;> exact absurd rfl hne
  · exact absurd hp.length_eq (by simp)

theorem start_two {query : Nat → HSet Nat} {p q p' q' a b a' b' : Nat}
    (h1 : sortByMostSimilar (id : Nat → Nat) query [p, q] = .ok [a, b])
    (h2 : sortByMostSimilar (id : Nat → Nat) query [p', q'] = .ok [a', b']) :
    clusterParStart (id : Nat → Nat) query PShared.init 2 [p, q, p', q'] =
      .ok (PState.start PShared.init [[a, b], [a', b']]) := by
  have hc : chunks 2 [p, q, p', q'] = [[p, q], [p', q']] := by
    simp [chunks, List.range_succ]
  unfold clusterParStart
  rw [if_neg (by decide)]
  simp only [List.length_cons, List.length_nil]
  rw [if_neg (by decide)]
  simp only [Nat.zero_add, Nat.reduceAdd, Nat.reduceDiv]
  rw [hc]
  simp only [List.mapM_cons, List.mapM_nil, h1, h2]
  rfl

theorem docs4_run : IndexedRun 2 docs4 (docsQuery docs4) (PState.start PShared.init [[0, 1], [2, 3]]) :=
  ⟨2, 1, .fin (1 / 2), exHash, by decide, by decide, docsQuery_spec docs4 (by decide),
    start_two (sort_two _ 0 1 0 1 (.refl _) (by decide +kernel)) (sort_two _ 2 3 2 3 (.refl _) (by decide +kernel))⟩

theorem docs4'_run : IndexedRun 2 docs4' (docsQuery docs4') (PState.start PShared.init [[2, 0], [3, 1]]) :=
  ⟨2, 1, .fin (1 / 2), exHash, by decide, by decide, docsQuery_spec docs4' (by decide),
    start_two (sort_two _ 0 2 2 0 (.swap _ _ _) (by decide +kernel)) (sort_two _ 3 1 3 1 (.refl _) (by decide +kernel))⟩

theorem docs2_run : IndexedRun 2 docs2 (docsQuery docs2) (PState.start PShared.init [[0], [1]]) :=
  ⟨2, 1, .fin (1 / 2), exHash, by decide, by decide, docsQuery_spec docs2 (by decide), exStart2 _⟩

/-- Worker 1 iterates over its first answer in the other order. -/
def exOrd61 : Nat → Order := fun n => if n = 4 then Order.rev else Order.id

/-- Worker 0 takes document 2 from worker 1, which releases it and puts it into its next cluster. -/
def exSched61' : List Nat := steps 4 0 ++ steps 7 1 ++ steps 30 0 ++ steps 40 1

def exEnd61' : PState Nat := (PState.start PShared.init [[0, 1], [2, 3]]).run 2 (docsQuery docs4) exOrd61 latest exSched61'

/-- C61 is false already for two threads that cluster the documents of a MinHash index. -/
theorem C61_two_threads_false :
    ¬ ∀ (docs : List (Nat × List Nat)) (query : Nat → HSet Nat) (s0 : PState Nat) (min : Nat) (ord : Nat → Order)
      (sched : List Nat), IndexedRun 2 docs query s0 → (s0.run min query ord latest sched).finished →
      (s0.run min query ord latest sched).result.Pairwise fun a b => a.points.Disjoint b.points := by
  intro hall
  have h := hall docs4 _ _ 2 exOrd61 exSched61' docs4_run (finished_of_allDone (by decide +kernel))
  have hmap : exEnd61'.result.map (fun c => c.points) = [[0, 2], [2, 3]] := by decide +kernel
  have h' : (exEnd61'.result.map fun c => c.points).Pairwise List.Disjoint := List.pairwise_map.mpr h
  rw [hmap] at h'
  simp at h'

/-- Worker 1 iterates over its first answer in the other order. -/
def exOrd62 : Nat → Order := fun n => if n = 0 then Order.rev else Order.id

/-- Worker 1 commits between the two looks of worker 0 at the state of its cluster. -/
def exSched62' : List Nat := steps 6 1 ++ steps 5 0 ++ steps 3 1 ++ steps 5 0 ++ steps 10 1 ++ steps 20 0

def exEnd62' : PState Nat := (PState.start PShared.init [[2, 0], [3, 1]]).run 2 (docsQuery docs4') exOrd62 latest exSched62'

/-- C62 is false already for two threads that cluster the documents of a MinHash index. -/
theorem C62_two_threads_false :
    ¬ ∀ (docs : List (Nat × List Nat)) (query : Nat → HSet Nat) (s0 : PState Nat) (min : Nat) (ord : Nat → Order)
      (sched : List Nat), IndexedRun 2 docs query s0 → (s0.run min query ord latest sched).finished →
      ∀ c ∈ (s0.run min query ord latest sched).result, min ≤ c.points.length := by
  intro hall
  have h := hall docs4' _ _ 2 exOrd62 exSched62' docs4'_run (finished_of_allDone (by decide +kernel))
  have hmap : exEnd62'.result.map (fun c => c.points.length) = [1, 2] := by decide +kernel
  have h' : ∀ n ∈ exEnd62'.result.map (fun c => c.points.length), 2 ≤ n := by
    intro n hn
    obtain ⟨c, hc, rfl⟩ := List.mem_map.mp hn
    exact h c hc
  rw [hmap] at h'
  exact absurd (h' 1 (by simp)) (by decide)

/-- Worker 1 iterates over its answer in the other order. -/
def exOrd63 : Nat → Order := fun n => if n = 4 then Order.rev else Order.id

def exEnd63' : PState Nat := (PState.start PShared.init [[0], [1]]).run 2 (docsQuery docs2) exOrd63 latest exSched63

/-- C63 is false already for two equal documents and two threads. -/
theorem C63_two_threads_false :
    ¬ ∀ (docs : List (Nat × List Nat)) (query : Nat → HSet Nat) (s0 : PState Nat) (min : Nat) (ord : Nat → Order)
      (sched : List Nat), IndexedRun 2 docs query s0 →
      ∀ i c, .useAfterFree i c ∉ (s0.run min query ord latest sched).shared.trace := by
  intro hall
  refine hall docs2 _ _ 2 exOrd63 exSched63 docs2_run 0 1 ?_
  have h : PEvent.useAfterFree 0 1 ∈ exEnd63'.shared.trace := by decide +kernel
  unfold exEnd63' at h
  exact h

/-- C75 is false already for two equal documents and two threads: neither is clustered. -/
theorem C75_two_threads_false :
    ¬ ∀ (docs : List (Nat × List Nat)) (query : Nat → HSet Nat) (s0 : PState Nat) (min : Nat) (ord : Nat → Order)
      (sched : List Nat), 1 ≤ min → IndexedRun 2 docs query s0 → (s0.run min query ord latest sched).finished →
      ∀ p ∈ docs.map Prod.fst, (s0.run min query ord latest sched).shared.ptr.get? p = none →
        ((query p).elems.filter fun q => ((s0.run min query ord latest sched).shared.ptr.get? q).isNone).length < min := by
  intro hall
  have hn : exEnd63'.shared.ptr.get? 0 = none := by decide +kernel
  have h' : ((docsQuery docs2 0).elems.filter fun q => (exEnd63'.shared.ptr.get? q).isNone).length = 2 := by decide +kernel
  unfold exEnd63' at hn h'
  have h := hall docs2 _ _ 2 exOrd63 exSched63 (by decide) docs2_run (finished_of_allDone (by decide +kernel)) 0 (by decide) hn
  exact absurd (h'.symm.le.trans_lt h) (by decide)

end Verif.Props
