import Verif.Lemmas.ClusterSerial

/-!
# Serial clustering: properties C57 – C59

`query` is an arbitrary index (a function from a point to the set of its similar points), `ord` the iteration order of
its results, `labels` the labels that the points carry before the call.
-/
namespace Verif.Props
open Verif
variable {P : Type} [DecidableEq P]

/-! ### C57 -/

/-- C57: the clusters of one call have duplicate-free and pairwise disjoint points that carried no label before, their
ids are consecutive, and a point carries label `k` after the call iff it carried it before or is listed in the
returned cluster with id `k`. -/
theorem C57_disjoint_and_labelled (self : SerialClusterer) (query : P → HSet P) (ord : Nat → Order)
    (labels : HMap P Nat) (points : List P) :
    let r := self.cluster query ord labels points
    (∀ c ∈ r.2.2, c.points.Nodup ∧ ∀ p ∈ c.points, labels.get? p = none) ∧
    r.2.2.Pairwise (fun a b => ∀ p ∈ a.points, p ∉ b.points) ∧
    r.2.2.map (fun c => c.clusterId) = List.range' (self.clusterIdSequence + 1) r.2.2.length ∧
    ∀ p k, r.2.1.get? p = some k ↔
      labels.get? p = some k ∨ ∃ c ∈ r.2.2, c.clusterId = k ∧ p ∈ c.points := by
  have I := serialInv_run (min := self.minClusterSize) (seq := self.clusterIdSequence) (query := query) (ord := ord)
    (L0 := labels) points
  exact ⟨fun c hc => ⟨I.nodup c hc, I.fresh c hc⟩, I.disjoint, I.ids, I.labels⟩

/-- Two outcomes that differ only in the order of the points inside the clusters. -/
structure SameOutcome (a b : SerialState P) : Prop where
  labels : ∀ p, a.labels.get? p = b.labels.get? p
  clusters : List.Forall₂ (fun c c' => c.clusterId = c'.clusterId ∧ c.points.Perm c'.points) a.clusters b.clusters
  seq : a.clusterIdSeq = b.clusterIdSeq

/-- C57: the iteration order of the index results does not influence which clusters are formed. -/
theorem C57_order_irrelevant (self : SerialClusterer) (query : P → HSet P) (ord ord' : Nat → Order)
    (labels : HMap P Nat) (points : List P) :
    (∀ p, (self.cluster query ord labels points).2.1.get? p = (self.cluster query ord' labels points).2.1.get? p) ∧
    List.Forall₂ (fun c c' => c.clusterId = c'.clusterId ∧ c.points.Perm c'.points)
      (self.cluster query ord labels points).2.2 (self.cluster query ord' labels points).2.2 := by
  have step : ∀ (a b : SerialState P) (p : P × Nat), SameOutcome a b →
      SameOutcome (serialStep self.minClusterSize query ord a p) (serialStep self.minClusterSize query ord' b p) := by
    intro a b p h
    have hs : (((ord p.2).perm (query p.1).elems).filter fun q => (a.labels.get? q).isNone).Perm
        (((ord' p.2).perm (query p.1).elems).filter fun q => (b.labels.get? q).isNone) := by
      simp only [h.labels]
      exact (((ord p.2).isPerm _).trans ((ord' p.2).isPerm _).symm).filter _
    unfold serialStep
    simp only
    rw [h.labels p.1, hs.length_eq]
    split_ifs
    · exact h
    · obtain ⟨a1, a2⟩ := createNewCluster_eq a.labels
        (((ord p.2).perm (query p.1).elems).filter fun q => (a.labels.get? q).isNone) (a.clusterIdSeq + 1)
      obtain ⟨b1, b2⟩ := createNewCluster_eq b.labels
        (((ord' p.2).perm (query p.1).elems).filter fun q => (b.labels.get? q).isNone) (b.clusterIdSeq + 1)
      refine ⟨fun x => ?_, ?_, ?_⟩
      · simp only
        rw [a2, b2, h.labels, h.seq]
        simp only [hs.mem_iff]
      · simp only
        rw [a1, b1]
        exact List.rel_append h.clusters (.cons ⟨by simp only [h.seq], hs⟩ .nil)
      · simp only [h.seq]
    · exact h
  have run : ∀ (ps : List (P × Nat)) (a b : SerialState P), SameOutcome a b →
      SameOutcome (ps.foldl (serialStep self.minClusterSize query ord) a)
        (ps.foldl (serialStep self.minClusterSize query ord') b) := by
    intro ps
    induction ps with
    | nil => intro a b h; exact h
    | cons p ps ih => intro a b h; exact ih _ _ (step a b p h)
  have := run points.zipIdx { labels, clusters := [], clusterIdSeq := self.clusterIdSequence }
    { labels, clusters := [], clusterIdSeq := self.clusterIdSequence } ⟨fun _ => rfl, .nil, rfl⟩
  exact ⟨this.labels, this.clusters⟩

/-- Two iteration orders: the same cluster in a different order. -/
example : ((SerialClusterer.new 1).cluster (fun p => if p < 2 then HSet.empty.extend [0, 1] else HSet.empty)
      (fun _ => Order.id) HMap.empty [1, 7]).2.2.map (fun c => (c.clusterId, c.points)) = [(1, [1, 0])] ∧
    ((SerialClusterer.new 1).cluster (fun p => if p < 2 then HSet.empty.extend [0, 1] else HSet.empty)
      (fun _ => Order.rev) HMap.empty [1, 7]).2.2.map (fun c => (c.clusterId, c.points)) = [(1, [0, 1])] := by
  decide +kernel

/-! ### C58 -/

/-- C58: every cluster has more than `min_cluster_size` points, all of them similar to one input point that was
unlabelled before the call; and an input point that is left unlabelled has at most `min_cluster_size` unlabelled
similar points. -/
theorem C58_large_and_maximal (self : SerialClusterer) (query : P → HSet P) (ord : Nat → Order)
    (labels : HMap P Nat) (points : List P) :
    let r := self.cluster query ord labels points
    (∀ c ∈ r.2.2, self.minClusterSize < c.points.length ∧
      ∃ p ∈ points, labels.get? p = none ∧ ∀ q ∈ c.points, q ∈ (query p).elems) ∧
    ∀ p ∈ points, r.2.1.get? p = none →
      ((query p).elems.filter fun q => (r.2.1.get? q).isNone).length ≤ self.minClusterSize := by
  have I := serialInv_run (min := self.minClusterSize) (seq := self.clusterIdSequence) (query := query) (ord := ord)
    (L0 := labels) points
  exact ⟨fun c hc => ⟨I.large c hc, I.center c hc⟩, I.maximal⟩

/-- Two similar points make a cluster of minimum size 1, but none of minimum size 2. -/
example : ((SerialClusterer.new 1).cluster (fun _ => HSet.empty.extend [0, 1]) (fun _ => Order.id) HMap.empty
      [0, 1]).2.2.length = 1 ∧
    ((SerialClusterer.new 2).cluster (fun _ => HSet.empty.extend [0, 1]) (fun _ => Order.id) HMap.empty
      [0, 1]).2.2.length = 0 := by decide +kernel

/-- C58: a second call on the same points (with any clusterer of the same minimum size) finds nothing more. -/
theorem C58_second_call (self : SerialClusterer) (query : P → HSet P) (ord ord' : Nat → Order) (labels : HMap P Nat)
    (points : List P) :
    (self.cluster query ord' (self.cluster query ord labels points).2.1 points).2.2 = [] := by
  have hmax := (C58_large_and_maximal self query ord labels points).2
  set L := (self.cluster query ord labels points).2.1 with hL
  have key : ∀ (ps : List (P × Nat)) (s : SerialState P), (∀ p ∈ ps, p.1 ∈ points) → s.labels = L →
      ps.foldl (serialStep self.minClusterSize query ord') s = s := by
    intro ps
    induction ps with
    | nil => intro s _ _; rfl
    | cons p ps ih =>
      intro s hps hs
      have e : serialStep self.minClusterSize query ord' s p = s := by
        unfold serialStep
        split_ifs with h1
        · rfl
        · simp only
          rw [if_neg]
          have hn : L.get? p.1 = none := by
            rw [hs] at h1
            cases h : L.get? p.1 with
            | none => rfl
            | some _ => rw [h] at h1; exact absurd rfl h1
          have := hmax p.1 (hps p (by simp)) hn
          rw [(((ord' p.2).isPerm _).filter _).length_eq, hs]
          exact Nat.not_lt.mpr this
      rw [List.foldl_cons, e]
      exact ih s (fun q hq => hps q (by simp [hq])) hs
  unfold SerialClusterer.cluster
  simp only
  rw [key _ { labels := L, clusters := [], clusterIdSeq := self.clusterIdSequence } (fun p hp => ?_) rfl]
  have := List.mem_map_of_mem (f := Prod.fst) hp
  rwa [List.zipIdx_map_fst] at this

/-! ### C59 -/

/-- C59 fails for every clusterer: whenever two successive calls both find clusters, their first clusters have the
same id. -/
theorem C59_ids_repeat (self : SerialClusterer) (query query' : P → HSet P) (ord ord' : Nat → Order)
    (labels labels' : HMap P Nat) (points points' : List P)
    (h : (self.cluster query ord labels points).2.2 ≠ [])
    (h' : ((self.cluster query ord labels points).1.cluster query' ord' labels' points').2.2 ≠ []) :
    ∃ c ∈ (self.cluster query ord labels points).2.2,
      ∃ c' ∈ ((self.cluster query ord labels points).1.cluster query' ord' labels' points').2.2,
        c.clusterId = c'.clusterId := by
  have e1 := (C57_disjoint_and_labelled self query ord labels points).2.2.1
  have e2 := (C57_disjoint_and_labelled self query' ord' labels' points').2.2.1
  change (self.cluster query' ord' labels' points').2.2 ≠ [] at h'
  change ∃ c ∈ _, ∃ c' ∈ (self.cluster query' ord' labels' points').2.2, _
  obtain ⟨c, cs, hc⟩ := List.exists_cons_of_ne_nil h
  obtain ⟨c', cs', hc'⟩ := List.exists_cons_of_ne_nil h'
  rw [hc] at e1 ⊢
  rw [hc'] at e2 ⊢
  refine ⟨c, by simp, c', by simp, ?_⟩
  simp only [List.map_cons, List.length_cons, List.range'_succ, List.cons.injEq] at e1 e2
  rw [e1.1, e2.1]

/-- The hypotheses are met by two calls on unrelated points. -/
example : ((SerialClusterer.new 1).cluster (fun _ => HSet.empty.extend [0, 1]) (fun _ => Order.id) HMap.empty
      [0, 1]).2.2 ≠ [] ∧
    (((SerialClusterer.new 1).cluster (fun _ => HSet.empty.extend [0, 1]) (fun _ => Order.id) HMap.empty
      [0, 1]).1.cluster (fun _ => HSet.empty.extend [5, 6]) (fun _ => Order.id) HMap.empty [5]).2.2 ≠ [] := by
  constructor <;> intro h <;> have := congrArg List.length h <;> revert this <;> decide +kernel

/-- Points 0-3 and 10-13: two groups of four similar points. -/
def exGroups (p : Nat) : HSet Nat :=
  if p < 4 then HSet.empty.extend [0, 1, 2, 3] else if 10 ≤ p ∧ p < 14 then HSet.empty.extend [10, 11, 12, 13]
  else HSet.empty

/-- C59 is false of the code: two calls on disjoint point sets, the second with the labels left by the first, hand out
the same id. -/
theorem C59_ids_unique_false :
    ¬ ∀ (self : SerialClusterer) (query : Nat → HSet Nat) (ord ord' : Nat → Order) (labels : HMap Nat Nat)
      (points points' : List Nat), points.Disjoint points' →
      ∀ c ∈ (self.cluster query ord labels points).2.2,
      ∀ c' ∈ ((self.cluster query ord labels points).1.cluster query ord'
        (self.cluster query ord labels points).2.1 points').2.2, c.clusterId ≠ c'.clusterId := by
  intro hall
  obtain ⟨c, hc, c', hc', e⟩ := C59_ids_repeat (SerialClusterer.new 2) exGroups exGroups (fun _ => Order.id)
    (fun _ => Order.id) HMap.empty ((SerialClusterer.new 2).cluster exGroups (fun _ => Order.id) HMap.empty [0, 1]).2.1
    [0, 1] [10, 12] (List.ne_nil_of_length_pos (by decide +kernel)) (List.ne_nil_of_length_pos (by decide +kernel))
  exact hall (SerialClusterer.new 2) exGroups (fun _ => Order.id) (fun _ => Order.id) HMap.empty [0, 1] [10, 12]
    (by simp) c hc c' hc' e

/-- C59, what holds: the ids are unique within one call. -/
theorem C59_ids_unique_partial (self : SerialClusterer) (query : P → HSet P) (ord : Nat → Order)
    (labels : HMap P Nat) (points : List P) :
    ((self.cluster query ord labels points).2.2.map fun c => c.clusterId).Nodup := by
  rw [(C57_disjoint_and_labelled self query ord labels points).2.2.1]
  exact List.nodup_range'

/-- A non-trivial run: point 10 is labelled before, group 0-3 becomes cluster 1, group 10-13 cluster 2. -/
example : ((SerialClusterer.new 2).cluster exGroups (fun _ => Order.rev) (HMap.empty.insert 10 9) [7, 1, 0, 11]).2.2.map
    (fun c => (c.clusterId, c.points)) = [(1, [0, 1, 2, 3]), (2, [11, 12, 13])] := by decide +kernel

end Verif.Props
