import Verif.Model.Prelude

/-!
# Serial clustering (`gaoya/src/clustering/clustering_serial.rs`)

`P` is the type of point objects (`Rc<ClusterPointInner<Id>>`, compared by address); the mutable `cluster` cells are
the map `labels` (absent = `None`). The index is any function from a point to the set of its similar points; its
result is a `HashSet`, so its iteration order is arbitrary and may differ between calls: `ord k` is the order of the
set for the `k`-th input point.
-/
namespace Verif
variable {P : Type} [DecidableEq P]

/-- `Cluster`, clustering_serial.rs lines 54-66. -/
structure SerialCluster (P : Type) where
  points : List P
  clusterId : Nat

/-- `Clusterer`, clustering_serial.rs lines 68-82. -/
structure SerialClusterer where
  clusterIdSequence : Nat
  minClusterSize : Nat

/-- `Clusterer::new`, clustering_serial.rs lines 76-82. -/
def SerialClusterer.new (minClusterSize : Nat) : SerialClusterer := { clusterIdSequence := 0, minClusterSize }

/-- `create_new_cluster`, clustering_serial.rs lines 111-118. -/
def createNewCluster (labels : HMap P Nat) (points : List P) (clusterId : Nat) : HMap P Nat × SerialCluster P :=
  points.foldl (fun s point => (s.1.insert point clusterId, { s.2 with points := s.2.points ++ [point] }))
    (labels, { points := [], clusterId })

/-- The local variables of `cluster` and the cells of the points. clustering_serial.rs 89-93. -/
structure SerialState (P : Type) where
  labels : HMap P Nat
  clusters : List (SerialCluster P)
  clusterIdSeq : Nat

/-- The loop body, clustering_serial.rs lines 94-107. -/
def serialStep (minClusterSize : Nat) (query : P → HSet P) (ord : Nat → Order) (s : SerialState P) (p : P × Nat) :
    SerialState P :=
  if (s.labels.get? p.1).isSome then s
  else
    let similar := ((ord p.2).perm (query p.1).elems).filter fun q => (s.labels.get? q).isNone
    if similar.length > minClusterSize then
      let r := createNewCluster s.labels similar (s.clusterIdSeq + 1)
      { labels := r.1, clusters := s.clusters ++ [r.2], clusterIdSeq := s.clusterIdSeq + 1 }
    else s

/-- `Clusterer::cluster`, clustering_serial.rs lines 89-109: the clusterer itself is returned unchanged (the local copy
`cluster_id_seq` is never written back). -/
def SerialClusterer.cluster (self : SerialClusterer) (query : P → HSet P) (ord : Nat → Order) (labels : HMap P Nat)
    (points : List P) : SerialClusterer × HMap P Nat × List (SerialCluster P) :=
  let s := points.zipIdx.foldl (serialStep self.minClusterSize query ord)
    { labels, clusters := [], clusterIdSeq := self.clusterIdSequence }
  (self, s.labels, s.clusters)

end Verif
