import Verif.Props.ClusterIndep
import Verif.Props.ClusterSerial
import Mathlib.Data.List.Permutation

/-!
# Property C137: the two clusterers agree

`clustering_serial` and `clusterer_parallel` (on one thread) are the same greedy algorithm, but the former asks for more
than `min_cluster_size` points, the latter for at least that many, and the latter sorts the points first.
-/
namespace Verif.Props
open Verif Verif.Spec
variable {P : Type} [DecidableEq P] {Id : Type} [DecidableEq Id]

theorem serial_fold (min : Nat) (query : P → HSet P) (ord : Nat → Order) (points : List P) (k : Nat) (s : SerialState P) :
    ∃ new : List (SerialCluster P),
      ((points.zipIdx k).foldl (serialStep min query ord) s).clusters = s.clusters ++ new ∧
      List.Forall₂ List.Perm (new.map fun c => c.points)
        (greedy (min + 1) query (fun p => (s.labels.get? p).isSome) points) := by
  induction points generalizing k s with
  | nil => exact ⟨[], by simp [greedy]⟩
  | cons p ps ih =>
    rw [List.zipIdx_cons, List.foldl_cons]
    have hfree : (((ord k).perm (query p).elems).filter fun q => (s.labels.get? q).isNone).Perm
        ((query p).elems.filter fun q => !(s.labels.get? q).isSome) := by
      refine (((ord k).isPerm _).filter _).trans (List.Perm.of_eq (List.filter_congr fun q _ => ?_))
      cases s.labels.get? q <;> rfl
    unfold greedy
    simp only
    by_cases h1 : (s.labels.get? p).isSome = true
    · have e : serialStep min query ord s (p, k) = s := by unfold serialStep; simp only [h1, if_true]
      rw [e, if_pos (.inl h1)]
      exact ih (k + 1) s
    · by_cases h2 : ((query p).elems.filter fun q => !(s.labels.get? q).isSome).length < min + 1
      · have e : serialStep min query ord s (p, k) = s := by
          unfold serialStep
          simp only
          rw [if_neg h1, if_neg (by rw [hfree.length_eq]; omega)]
        rw [e, if_pos (.inr h2)]
        exact ih (k + 1) s
      · obtain ⟨c1, c2⟩ := createNewCluster_eq s.labels
          (((ord k).perm (query p).elems).filter fun q => (s.labels.get? q).isNone) (s.clusterIdSeq + 1)
        have e : serialStep min query ord s (p, k) =
            { labels := (createNewCluster s.labels
                (((ord k).perm (query p).elems).filter fun q => (s.labels.get? q).isNone) (s.clusterIdSeq + 1)).1,
              clusters := s.clusters ++ [⟨((ord k).perm (query p).elems).filter fun q => (s.labels.get? q).isNone,
                s.clusterIdSeq + 1⟩],
              clusterIdSeq := s.clusterIdSeq + 1 } := by
          unfold serialStep
          simp only
          rw [if_neg h1, if_pos (by rw [hfree.length_eq]; omega), c1]
        rw [e, if_neg (by rw [not_or]; exact ⟨h1, h2⟩)]
        obtain ⟨new, n1, n2⟩ := ih (k + 1)
          { labels := (createNewCluster s.labels
              (((ord k).perm (query p).elems).filter fun q => (s.labels.get? q).isNone) (s.clusterIdSeq + 1)).1,
            clusters := s.clusters ++ [⟨((ord k).perm (query p).elems).filter fun q => (s.labels.get? q).isNone,
              s.clusterIdSeq + 1⟩],
            clusterIdSeq := s.clusterIdSeq + 1 }
        refine ⟨_ :: new, by rw [n1, List.append_assoc]; rfl, ?_⟩
        rw [List.map_cons]
        refine List.Forall₂.cons hfree ?_
        refine Eq.mp (congrArg _ (greedy_congr (min + 1) query ps _ _ fun r _ => ?_)) n2
        have key : ∀ x, ((createNewCluster s.labels (((ord k).perm (query p).elems).filter fun q =>
            (s.labels.get? q).isNone) (s.clusterIdSeq + 1)).1.get? x).isSome =
            ((s.labels.get? x).isSome ||
              decide (x ∈ (query p).elems.filter fun q => !(s.labels.get? q).isSome)) := by
          intro x
          rw [c2]
          by_cases hx : x ∈ ((ord k).perm (query p).elems).filter fun q => (s.labels.get? q).isNone
          · rw [if_pos hx]
            have := hfree.mem_iff.mp hx
            rw [decide_eq_true this]
            simp
          · rw [if_neg hx]
            have : x ∉ (query p).elems.filter fun q => !(s.labels.get? q).isSome := fun h => hx (hfree.mem_iff.mpr h)
            simp only [this, decide_false, Bool.or_false]
        exact ⟨key r, fun q _ => key q⟩

/-- C137: the serial clusterer makes exactly the clusters of the greedy algorithm with one point more. -/
theorem C137_serial_greedy (self : SerialClusterer) (query : P → HSet P) (ord : Nat → Order) (labels : HMap P Nat)
    (points : List P) :
    List.Forall₂ List.Perm ((self.cluster query ord labels points).2.2.map fun c => c.points)
      (greedy (self.minClusterSize + 1) query (fun p => (labels.get? p).isSome) points) := by
  obtain ⟨new, h1, h2⟩ := serial_fold self.minClusterSize query ord points 0
    { labels, clusters := [], clusterIdSeq := self.clusterIdSequence }
  unfold SerialClusterer.cluster
  simp only
  rw [h1]
  exact h2

omit [DecidableEq P] in
theorem forall₂_perm_trans {l l' l'' : List (List P)} (h : List.Forall₂ List.Perm l l') (h' : List.Forall₂ List.Perm l'' l') :
    List.Forall₂ List.Perm l l'' := by
  induction h generalizing l'' with
  | nil => cases h'; exact .nil
  | cons h1 _ ih =>
    cases h' with
    | cons h2 h3 => exact .cons (h1.trans h2.symm) (ih h3)

/-- C137, what holds: the serial clusterer with `min_cluster_size` and the parallel one on one thread with
`min_cluster_size + 1` return the same clusters (the points of a cluster in some order), if the serial one gets the points
in descending order of the number of similar points as the parallel one does, and the same points are clustered before.
Missing: the same size and the same order of points, for which it is false. -/
theorem C137_same_clusters_partial (self : SerialClusterer) (idOf : P → Id) (query : P → HSet P) (ord ord' : Nat → Order)
    (sh0 : PShared P) (h0 : sh0.Fresh) (labels : HMap P Nat)
    (hfree : ∀ p, (labels.get? p).isSome = (sh0.ptr.get? p).isSome) (points : List P)
    (hinj : ∀ p ∈ points, ∀ q ∈ points, idOf p = idOf q → p = q) :
    ∃ slice n, slice.Perm points ∧ (slice.Pairwise fun p q => (query q).elems.length ≤ (query p).elems.length) ∧
      parClusterStart idOf query sh0 points = .ok (PState.start sh0 [slice]) ∧ ∀ m, n ≤ m →
      let s := (PState.start sh0 [slice]).run (self.minClusterSize + 1) query ord' latest (List.replicate m 0)
      s.finished ∧ List.Forall₂ List.Perm (s.result.map fun c => c.points)
        ((self.cluster query ord labels slice).2.2.map fun c => c.points) := by
  obtain ⟨slice, n, h1, h2, h3, h4⟩ := C60_greedy (self.minClusterSize + 1) idOf query ord' sh0 h0 points hinj
  refine ⟨slice, n, h1, h2, h3, fun m hm => ?_⟩
  obtain ⟨h5, h6⟩ := h4 m hm
  refine ⟨h5, forall₂_perm_trans h6 ?_⟩
  have := C137_serial_greedy self query ord labels slice
  simpa only [hfree] using this

/-! ### Similarity that groups the points -/

/-- The sets of similar points of any two input points are equal or disjoint, and a point is similar to itself. -/
def Grouped (query : P → HSet P) (points : List P) : Prop :=
  (∀ p ∈ points, p ∈ (query p).elems) ∧ ∀ p ∈ points, ∀ q ∈ points, ∀ r ∈ (query p).elems, r ∈ (query q).elems →
    ∀ x, x ∈ (query p).elems ↔ x ∈ (query q).elems

/-- The clusters of the greedy algorithm on grouped points: the groups that are large enough. -/
theorem greedy_groups (min : Nat) (query : P → HSet P) (t : P → Bool) (points all : List P)
    (hsub : ∀ p ∈ points, p ∈ all) (hg : Grouped query all) :
    (∀ c ∈ greedy min query t points, ∃ p ∈ points, t p = false ∧ min ≤ c.length ∧
      c.Perm ((query p).elems.filter fun q => !t q)) ∧
    ∀ p ∈ points, t p = false → min ≤ ((query p).elems.filter fun q => !t q).length →
      ∃ c ∈ greedy min query t points, c.Perm ((query p).elems.filter fun q => !t q) := by
  induction points generalizing t with
  | nil => exact ⟨fun c hc => by simp [greedy] at hc, fun p hp => by simp at hp⟩
  | cons a ps ih =>
    have hsub' : ∀ p ∈ ps, p ∈ all := fun p hp => hsub p (by simp [hp])
    have ha := hsub a (by simp)
    unfold greedy
    simp only
    by_cases hc : t a = true ∨ ((query a).elems.filter fun q => !t q).length < min
    · rw [if_pos hc]
      obtain ⟨i1, i2⟩ := ih t hsub'
      refine ⟨fun c h => ?_, fun p hp ht hm => ?_⟩
      · obtain ⟨p, hp, h⟩ := i1 c h
        exact ⟨p, by simp [hp], h⟩
      · rcases List.mem_cons.mp hp with rfl | hp
        · rcases hc with hc | hc
          · rw [ht] at hc; cases hc
          · omega
        · exact i2 p hp ht hm
    · rw [if_neg hc]
      rw [not_or, Bool.not_eq_true, not_lt] at hc
      have hnod : ∀ p, ((query p).elems.filter fun q => !t q).Nodup := fun p => (query p).nodup.filter _
      -- a point whose similar points meet the new cluster has the same similar points
      have same : ∀ p ∈ ps, ∀ r ∈ (query p).elems, r ∈ (query a).elems →
          ((query a).elems.filter fun q => !t q).Perm ((query p).elems.filter fun q => !t q) := by
        intro p hp r h1 h2
        rw [List.perm_ext_iff_of_nodup (hnod _) (hnod _)]
        intro x
        simp only [List.mem_filter, hg.2 a ha p (hsub' p hp) r h2 h1 x]
      have other : ∀ p ∈ ps, (∀ r ∈ (query p).elems, r ∉ (query a).elems) →
          ((query p).elems.filter fun q => !(t q || decide (q ∈ (query a).elems.filter fun q => !t q))) =
            (query p).elems.filter fun q => !t q := by
        intro p hp h
        refine List.filter_congr fun q hq => ?_
        have : q ∉ (query a).elems.filter fun q => !t q := fun hc => h q hq (List.mem_filter.mp hc).1
        simp only [this, decide_false, Bool.or_false]
      obtain ⟨i1, i2⟩ := ih (fun q => t q || decide (q ∈ (query a).elems.filter fun q => !t q)) hsub'
      refine ⟨fun c h => ?_, fun p hp ht hm => ?_⟩
      · rcases List.mem_cons.mp h with rfl | h
        · exact ⟨a, by simp, hc.1, hc.2, .refl _⟩
        · obtain ⟨p, hp, ht, hl, hperm⟩ := i1 c h
          simp only [Bool.or_eq_false_iff, decide_eq_false_iff_not] at ht
          by_cases hd : ∀ r ∈ (query p).elems, r ∉ (query a).elems
          · rw [other p hp hd] at hperm
            exact ⟨p, by simp [hp], ht.1, hl, hperm⟩
          · exfalso
            push Not at hd
            obtain ⟨r, h1, h2⟩ := hd
            refine ht.2 (List.mem_filter.mpr ⟨?_, by simp [ht.1]⟩)
            exact (hg.2 a ha p (hsub' p hp) r h2 h1 p).mpr (hg.1 p (hsub' p hp))
      · rcases List.mem_cons.mp hp with rfl | hp
        · exact ⟨_, List.mem_cons_self, .refl _⟩
        · by_cases hd : ∀ r ∈ (query p).elems, r ∉ (query a).elems
          · have hp' : p ∉ (query a).elems.filter fun q => !t q := fun hc =>
              hd p (hg.1 p (hsub' p hp)) (List.mem_filter.mp hc).1
            obtain ⟨c, hc1, hc2⟩ := i2 p hp (by simp only [ht, hp', decide_false, Bool.or_self])
              (by rw [other p hp hd]; exact hm)
            rw [other p hp hd] at hc2
            exact ⟨c, List.mem_cons_of_mem _ hc1, hc2⟩
          · push Not at hd
            obtain ⟨r, h1, h2⟩ := hd
            exact ⟨_, List.mem_cons_self, same p hp r h1 h2⟩

/-- C137, what holds whatever the order of the points: if similarity groups the points, then the clusters of the serial
clusterer with `min_cluster_size` are those of the parallel one on one thread with `min_cluster_size + 1`, and both are the
groups of points not clustered before, as far as they have more than `min_cluster_size` points. Missing: as above. -/
theorem C137_groups_partial (self : SerialClusterer) (idOf : P → Id) (query : P → HSet P) (ord ord' : Nat → Order)
    (sh0 : PShared P) (h0 : sh0.Fresh) (labels : HMap P Nat)
    (hfree : ∀ p, (labels.get? p).isSome = (sh0.ptr.get? p).isSome) (points : List P)
    (hinj : ∀ p ∈ points, ∀ q ∈ points, idOf p = idOf q → p = q) (hg : Grouped query points) :
    ∃ start n, parClusterStart idOf query sh0 points = .ok start ∧ ∀ m, n ≤ m →
      let s := start.run (self.minClusterSize + 1) query ord' latest (List.replicate m 0)
      s.finished ∧ ∀ c : List P,
        ((∃ d ∈ s.result, d.points.Perm c) ↔ ∃ d ∈ (self.cluster query ord labels points).2.2, d.points.Perm c) ∧
        ((∃ d ∈ s.result, d.points.Perm c) ↔ ∃ p ∈ points, labels.get? p = none ∧ self.minClusterSize < c.length ∧
          c.Perm ((query p).elems.filter fun q => (labels.get? q).isNone)) := by
  obtain ⟨slice, n, h1, h2, h3, h4⟩ := C60_greedy (self.minClusterSize + 1) idOf query ord' sh0 h0 points hinj
  refine ⟨_, n, h3, fun m hm => ?_⟩
  obtain ⟨h5, h6⟩ := h4 m hm
  refine ⟨h5, fun c => ?_⟩
  have h7 := C137_serial_greedy self query ord labels points
  have hfun : (fun p => (sh0.ptr.get? p).isSome) = fun p => (labels.get? p).isSome := funext fun p => (hfree p).symm
  rw [hfun] at h6
  -- members of lists equal up to the order inside
  have mem : ∀ {l l' : List (List P)}, List.Forall₂ List.Perm l l' →
      ((∃ d ∈ l, d.Perm c) ↔ ∃ d ∈ l', d.Perm c) := by
    intro l l' h
    induction h with
    | nil => rfl
    | cons h1 _ ih =>
      simp only [List.mem_cons, exists_eq_or_imp, ih]
      exact or_congr ⟨fun h => h1.symm.trans h, fun h => h1.trans h⟩ Iff.rfl
  have none_iff : ∀ p, (labels.get? p).isSome = false ↔ labels.get? p = none := fun p => by
    cases labels.get? p <;> simp
  have filt : ∀ p, ((query p).elems.filter fun q => !(labels.get? q).isSome) =
      (query p).elems.filter fun q => (labels.get? q).isNone := fun p =>
    List.filter_congr fun q _ => by cases labels.get? q <;> rfl
  have grp : ∀ l : List P, l.Perm points →
      ((∃ d ∈ greedy (self.minClusterSize + 1) query (fun p => (labels.get? p).isSome) l, d.Perm c) ↔
        ∃ p ∈ points, labels.get? p = none ∧ self.minClusterSize < c.length ∧
          c.Perm ((query p).elems.filter fun q => (labels.get? q).isNone)) := by
    intro l hl
    obtain ⟨g1, g2⟩ := greedy_groups (self.minClusterSize + 1) query (fun p => (labels.get? p).isSome) l points
      (fun p hp => hl.mem_iff.mp hp) hg
    constructor
    · rintro ⟨d, hd, hp⟩
      obtain ⟨p, hp1, hp2, hp3, hp4⟩ := g1 d hd
      refine ⟨p, hl.mem_iff.mp hp1, (none_iff p).mp hp2, by rw [← hp.length_eq]; omega, ?_⟩
      rw [← filt]
      exact hp.symm.trans hp4
    · rintro ⟨p, hp1, hp2, hp3, hp4⟩
      rw [← filt] at hp4
      obtain ⟨d, hd, hd'⟩ := g2 p (hl.mem_iff.mpr hp1) ((none_iff p).mpr hp2) (by rw [← hp4.length_eq]; omega)
      exact ⟨d, hd, hd'.trans hp4.symm⟩
  have e1 := mem h6
  have e2 := mem h7
  simp only [List.mem_map, exists_exists_and_eq_and] at e1 e2
  exact ⟨(e1.trans (grp slice h1)).trans (e2.trans (grp points (.refl _))).symm, e1.trans (grp slice h1)⟩

/-- C137, what holds for `cluster_par` on several threads: if similarity groups the points and no group is split over two
chunks, then under every schedule and all coherent relaxed values the result has the clusters of the serial clusterer (with
one point less) on the same points in any order. -/
theorem C137_threads_partial (self : SerialClusterer) (query : P → HSet P) (ord ord' : Nat → Order) (age : Nat → Nat)
    (sh0 : PShared P) (h0 : sh0.Fresh) (labels : HMap P Nat)
    (hfree : ∀ p, (labels.get? p).isSome = (sh0.ptr.get? p).isSome) (slices : List (List P)) (points : List P)
    (hpts : points.Perm slices.flatten) (hg : Grouped query points) (hind : Independent query slices) (sched : List Nat)
    (hc : coherent (self.minClusterSize + 1) query ord' age (PState.start sh0 slices) (fun _ _ => 0) sched) :
    let s := (PState.start sh0 slices).run (self.minClusterSize + 1) query ord' age sched
    s.finished → ∀ c : List P,
      (∃ d ∈ s.result, d.points.Perm c) ↔ ∃ d ∈ (self.cluster query ord labels points).2.2, d.points.Perm c := by
  intro s hfin c
  have h6 := C100_result (self.minClusterSize + 1) query ord' age sh0 h0 slices hind sched hc hfin
  have h7 := C137_serial_greedy self query ord labels points
  have hfun : (fun p => (sh0.ptr.get? p).isSome) = fun p => (labels.get? p).isSome := funext fun p => (hfree p).symm
  rw [hfun] at h6
  have mem : ∀ {l l' : List (List P)}, List.Forall₂ List.Perm l l' →
      ((∃ d ∈ l, d.Perm c) ↔ ∃ d ∈ l', d.Perm c) := by
    intro l l' h
    induction h with
    | nil => rfl
    | cons h1 _ ih =>
      simp only [List.mem_cons, exists_eq_or_imp, ih]
      exact or_congr ⟨fun h => h1.symm.trans h, fun h => h1.trans h⟩ Iff.rfl
  have e1 := mem h6
  have e2 := mem h7
  simp only [List.mem_map, exists_exists_and_eq_and] at e1 e2
  refine e1.trans (Iff.trans ?_ e2.symm)
  obtain ⟨p1, p2⟩ := greedy_groups (self.minClusterSize + 1) query (fun p => (labels.get? p).isSome) points points
    (fun _ h => h) hg
  have parts : ∀ slice ∈ slices, ∀ p ∈ slice, p ∈ points := fun slice h1 p h2 =>
    hpts.mem_iff.mpr (List.mem_flatten.mpr ⟨slice, h1, h2⟩)
  constructor
  · rintro ⟨d, hd, hdc⟩
    obtain ⟨slice, hs, hd⟩ := List.mem_flatMap.mp hd
    obtain ⟨p, g1, g2, g3, g4⟩ := (greedy_groups (self.minClusterSize + 1) query (fun p => (labels.get? p).isSome) slice
      points (parts slice hs) hg).1 d hd
    obtain ⟨e, he, hep⟩ := p2 p (parts slice hs p g1) g2 (by rw [← g4.length_eq]; exact g3)
    exact ⟨e, he, hep.trans (g4.symm.trans hdc)⟩
  · rintro ⟨d, hd, hdc⟩
    obtain ⟨p, g1, g2, g3, g4⟩ := p1 d hd
    obtain ⟨slice, hs, hp⟩ := List.mem_flatten.mp (hpts.mem_iff.mp g1)
    obtain ⟨e, he, hep⟩ := (greedy_groups (self.minClusterSize + 1) query (fun p => (labels.get? p).isSome) slice
      points (parts slice hs) hg).2 p hp g2 (by rw [← g4.length_eq]; exact g3)
    exact ⟨e, List.mem_flatMap.mpr ⟨slice, hs, he⟩, hep.trans (g4.symm.trans hdc)⟩

/-! ### Where they differ -/

/-- Points similar to each other in pairs: 0 with 1, and 2 alone. -/
def pairQuery (p : Nat) : HSet Nat := if p < 2 then ⟨[0, 1], by decide⟩ else ⟨[2], by decide⟩

/-- Points in a row: 1 is similar to 0 and to 2. -/
def rowQuery (p : Nat) : HSet Nat :=
  if p = 0 then ⟨[0, 1], by decide⟩ else if p = 1 then ⟨[0, 1, 2], by decide⟩ else ⟨[1, 2], by decide⟩

omit [DecidableEq P] in
theorem forall₂_perm_single {α : Type} (f : α → List P) {l : List α} {c : List P}
    (h : List.Forall₂ List.Perm (l.map f) [c]) : ∃ d, l = [d] ∧ (f d).Perm c := by
  match l, h with
  | [d], .cons h _ => exact ⟨d, rfl, h⟩

theorem init_free : (fun p => ((PShared.init : PShared Nat).ptr.get? p).isSome) = fun _ => false := by
  funext p
  rfl

/-- C137, where it fails: with the same `min_cluster_size` of 2 on the same points, of which two are similar, the parallel
clusterer returns the pair and the serial one nothing. -/
theorem C137_size_false (ord ord' : Nat → Order) :
    (((SerialClusterer.new 2).cluster pairQuery ord HMap.empty [0, 1, 2]).2.2 = []) ∧
    ∃ start n, parClusterStart id pairQuery PShared.init [0, 1, 2] = .ok start ∧ ∀ m, n ≤ m →
      let s := start.run 2 pairQuery ord' latest (List.replicate m 0)
      s.finished ∧ ∃ c, s.result = [c] ∧ c.points.Perm [0, 1] := by
  constructor
  · have h := C137_serial_greedy (SerialClusterer.new 2) pairQuery ord HMap.empty [0, 1, 2]
    have e : greedy ((SerialClusterer.new 2).minClusterSize + 1) pairQuery
        (fun p => ((HMap.empty : HMap Nat Nat).get? p).isSome) [0, 1, 2] = [] := by decide +kernel
    rw [e] at h
    exact List.map_eq_nil_iff.mp (List.forall₂_nil_right_iff.mp h)
  · obtain ⟨slice, n, h1, h2, h3, h4⟩ := C60_greedy 2 id pairQuery ord' PShared.init init_fresh [0, 1, 2]
      fun _ _ _ _ h => h
    refine ⟨_, n, h3, fun m hm => ⟨(h4 m hm).1, ?_⟩⟩
    have h6 := (h4 m hm).2
    rw [init_free] at h6
    have key : ∀ l ∈ [0, 1, 2].permutations', greedy 2 pairQuery (fun _ => false) l = [[0, 1]] := by decide +kernel
    rw [key slice (List.mem_permutations'.mpr h1)] at h6
    exact forall₂_perm_single _ h6

/-- C137, where it fails: with the sizes adjusted, on three points in a row the parallel clusterer returns all three and the
serial one the first two, as the parallel one begins with the point in the middle. -/
theorem C137_order_false (ord ord' : Nat → Order) :
    (∃ c, ((SerialClusterer.new 1).cluster rowQuery ord HMap.empty [0, 1, 2]).2.2 = [c] ∧ c.points.Perm [0, 1]) ∧
    ∃ start n, parClusterStart id rowQuery PShared.init [0, 1, 2] = .ok start ∧ ∀ m, n ≤ m →
      let s := start.run 2 rowQuery ord' latest (List.replicate m 0)
      s.finished ∧ ∃ c, s.result = [c] ∧ c.points.Perm [0, 1, 2] := by
  constructor
  · have h := C137_serial_greedy (SerialClusterer.new 1) rowQuery ord HMap.empty [0, 1, 2]
    have e : greedy ((SerialClusterer.new 1).minClusterSize + 1) rowQuery
        (fun p => ((HMap.empty : HMap Nat Nat).get? p).isSome) [0, 1, 2] = [[0, 1]] := by decide +kernel
    rw [e] at h
    exact forall₂_perm_single _ h
  · obtain ⟨slice, n, h1, h2, h3, h4⟩ := C60_greedy 2 id rowQuery ord' PShared.init init_fresh [0, 1, 2]
      fun _ _ _ _ h => h
    refine ⟨_, n, h3, fun m hm => ⟨(h4 m hm).1, ?_⟩⟩
    have h6 := (h4 m hm).2
    rw [init_free] at h6
    have key : ∀ l ∈ [0, 1, 2].permutations',
        (l.Pairwise fun p q => (rowQuery q).elems.length ≤ (rowQuery p).elems.length) →
        greedy 2 rowQuery (fun _ => false) l = [[0, 1, 2]] := by decide +kernel
    rw [key slice (List.mem_permutations'.mpr h1) h2] at h6
    exact forall₂_perm_single _ h6

/-- The hypotheses of `C137_groups_partial` on three points, two of them similar. -/
example : Grouped pairQuery [0, 1, 2] ∧ (PShared.init : PShared Nat).Fresh ∧
    (∀ p, ((HMap.empty : HMap Nat Nat).get? p).isSome = ((PShared.init : PShared Nat).ptr.get? p).isSome) ∧
    greedy 2 pairQuery (fun _ => false) [0, 1, 2] = [[0, 1]] := by
  refine ⟨⟨by decide +kernel, ?_⟩, init_fresh, fun _ => rfl, by decide +kernel⟩
  have key : ∀ p ∈ [0, 1, 2], ∀ q ∈ [0, 1, 2], ∀ r ∈ (pairQuery p).elems, r ∈ (pairQuery q).elems →
      (pairQuery p).elems = (pairQuery q).elems := by decide +kernel
  intro p hp q hq r h1 h2 x
  rw [key p hp q hq r h1 h2]

/-- The grouping of `C137_threads_partial` for the two chunks whose independence and coherent run are shown beside
`C100_result`. -/
example : Grouped exApart [0, 1, 2, 3] ∧ [0, 1, 2, 3].Perm ([[0, 1], [2, 3]] : List (List Nat)).flatten := by
  refine ⟨⟨by decide +kernel, ?_⟩, .refl _⟩
  have key : ∀ p ∈ [0, 1, 2, 3], ∀ q ∈ [0, 1, 2, 3], ∀ r ∈ (exApart p).elems, r ∈ (exApart q).elems →
      (exApart p).elems = (exApart q).elems := by decide +kernel
  intro p hp q hq r h1 h2 x
  rw [key p hp q hq r h1 h2]

end Verif.Props
