import Verif.Props.Index
import Verif.Props.ClusterSerial
import Verif.Props.ClusterPar

/-!
# Property C79: clustering over a MinHash index

The clusterers are proved correct for an arbitrary `QueryIndex`; here the index is a `MinHashIndex` after an arbitrary
history of calls with signatures of the right length, and the conclusions are about the stored signatures.
-/
set_option linter.unusedSectionVars false
namespace Verif.Props
open Verif.Spec

variable {T P : Type} [DecidableEq T] [DecidableEq P]
variable {C : Type} [IdContainer C P] [LawfulIdContainer C P]

/-- Signature `s` is at least threshold-similar to `s'`. -/
def SimilarSig (t : Fl) (s s' : List T) : Prop := ∃ v, minhashSimilarity s s' = .ok v ∧ Fl.ge v t = true

/-- `QueryIndex::query` on a MinHash index: it returns, only present similar documents, and all of them that share a
band. -/
theorem queryIndex_spec (b r : Nat) (t : Fl) (h : List T → UInt64) (ops : List (Op T P))
    (hl : RightLengths (b * r) ops) (p : P) :
    ∃ res, (After C b r t h ops).queryIndexQuery p = .ok res ∧
      (∀ q ∈ res.elems, ∃ sp sq, live (b * r) ops p = some sp ∧ live (b * r) ops q = some sq ∧ SimilarSig t sq sp) ∧
      ∀ sp, live (b * r) ops p = some sp → ∀ q sq, live (b * r) ops q = some sq → SimilarSig t sq sp →
        (∃ i < b, sameBand r sq sp i) → q ∈ res.elems := by
  have hget := C15_get_signature (C := C) b r t h ops p
  have hlen : ∀ sp, live (b * r) ops p = some sp → sp.length = b * r := by
    intro sp hsp
    exact rightLengths_live hl p sp hsp
  cases hlive : live (b * r) ops p with
  | none =>
    refine ⟨HSet.empty, ?_, ?_, ?_⟩
    · rw [hlive] at hget
      unfold MinHashIndex.getSignature at hget
      unfold MinHashIndex.queryIndexQuery
      rw [hget]
    · intro q hq; cases hq
    · intro sp hsp; cases hsp
  | some sp =>
    obtain ⟨res, h1, _⟩ := C17_query_returns (C := C) b r t h ops sp hl (hlen sp hlive)
    refine ⟨res, ?_, ?_, ?_⟩
    · rw [hlive] at hget
      unfold MinHashIndex.getSignature at hget
      unfold MinHashIndex.queryIndexQuery
      rw [hget]
      exact h1
    · intro q hq
      obtain ⟨s, v, h2, h3, h4⟩ := C16_query b r t h ops sp res h1 q hq
      exact ⟨sp, s, rfl, h2, v, h3, h4⟩
    · intro sp' hsp' q sq hq hsim hband
      cases hsp'
      obtain ⟨v, hv, ht⟩ := hsim
      exact C17_complete b r t h ops sp res (.inl h1) q sq v hq hband hv ht

/-- C79, serial clusterer: over a MinHash index with signatures of the right length no query panics; every point of a
cluster is in the index and at least threshold-similar to one input point, which is in the index too; and for every
input point left unlabelled, at most `min_cluster_size` unlabelled documents are similar to it and share a band. -/
theorem C79_serial (b r : Nat) (t : Fl) (h : List T → UInt64) (ops : List (Op T P)) (hl : RightLengths (b * r) ops)
    (self : SerialClusterer) (ord : Nat → Order) (labels : HMap P Nat) (points : List P) :
    ∃ query : P → HSet P, (∀ p, (After C b r t h ops).queryIndexQuery p = .ok (query p)) ∧
      let res := self.cluster query ord labels points
      (∀ c ∈ res.2.2, ∃ p ∈ points, ∀ q ∈ c.points, ∃ sp sq, live (b * r) ops p = some sp ∧
        live (b * r) ops q = some sq ∧ SimilarSig t sq sp) ∧
      ∀ p ∈ points, res.2.1.get? p = none → ∀ sp, live (b * r) ops p = some sp → ∀ S : List P, S.Nodup →
        (∀ q ∈ S, res.2.1.get? q = none ∧ ∃ sq, live (b * r) ops q = some sq ∧ SimilarSig t sq sp ∧
          ∃ i < b, sameBand r sq sp i) → S.length ≤ self.minClusterSize := by
  choose query hq hsound hcomplete using queryIndex_spec (C := C) b r t h ops hl
  refine ⟨query, hq, ?_⟩
  obtain ⟨h1, h2⟩ := C58_large_and_maximal self query ord labels points
  refine ⟨?_, ?_⟩
  · intro c hc
    obtain ⟨_, p, hp, _, hall⟩ := h1 c hc
    exact ⟨p, hp, fun q hq => hsound p q (hall q hq)⟩
  · intro p hp hnone sp hsp S hnd hS
    refine le_trans ?_ (h2 p hp hnone)
    refine (List.subperm_of_subset hnd fun q hq => ?_).length_le
    obtain ⟨h3, sq, h4, h5, h6⟩ := hS q hq
    exact List.mem_filter.mpr ⟨hcomplete p sp hsp q sq h4 h5 h6, by rw [h3]; rfl⟩

/-- C79, parallel clusterer: under every schedule of any number of workers, every point of a returned cluster is in the
index and at least threshold-similar to one input point. -/
theorem C79_parallel (b r : Nat) (t : Fl) (h : List T → UInt64) (ops : List (Op T P)) (hl : RightLengths (b * r) ops)
    (min : Nat) (ord : Nat → Order) (age : Nat → Nat) (sh0 : PShared P) (h0 : sh0.Fresh) (slices : List (List P)) (sched : List Nat) :
    ∃ query : P → HSet P, (∀ p, (After C b r t h ops).queryIndexQuery p = .ok (query p)) ∧
      ∀ c ∈ ((PState.start sh0 slices).run min query ord age sched).result,
        ∃ p ∈ slices.flatten, ∀ q ∈ c.points, ∃ sp sq, live (b * r) ops p = some sp ∧
          live (b * r) ops q = some sq ∧ SimilarSig t sq sp := by
  choose query hq hsound hcomplete using queryIndex_spec (C := C) b r t h ops hl
  refine ⟨query, hq, ?_⟩
  intro c hc
  obtain ⟨k, hk, rfl⟩ := List.mem_map.mp hc
  obtain ⟨w, hw, hk⟩ := List.mem_flatMap.mp hk
  obtain ⟨i, hi⟩ := List.mem_iff_getElem?.mp hw
  obtain ⟨_, ⟨slice, hs, p, hp, hall⟩, _⟩ := C73_cohesive min query ord age sh0 h0 slices sched i w hi k hk
  exact ⟨p, List.mem_flatten.mpr ⟨slice, List.mem_of_getElem? hs, hp⟩, fun q hq => hsound p q (hall q hq)⟩

/-- C79, parallel clusterer with one worker: for every input point left unassigned, fewer than `min_cluster_size`
unassigned documents are similar to it and share a band. -/
theorem C79_one_worker {Id : Type} [DecidableEq Id] (b r : Nat) (t : Fl) (h : List T → UInt64) (ops : List (Op T P))
    (hl : RightLengths (b * r) ops) (min : Nat) (hmin : 1 ≤ min) (idOf : P → Id) (ord : Nat → Order) (sh0 : PShared P)
    (h0 : sh0.Fresh) (points : List P) :
    ∃ query : P → HSet P, (∀ p, (After C b r t h ops).queryIndexQuery p = .ok (query p)) ∧
    ∃ s0 n, parClusterStart idOf query sh0 points = .ok s0 ∧ ∀ m, n ≤ m →
      let s := s0.run min query ord latest (List.replicate m 0)
      s.finished ∧ ∀ p ∈ points, s.shared.ptr.get? p = none → ∀ sp, live (b * r) ops p = some sp →
        ∀ S : List P, S.Nodup → (∀ q ∈ S, s.shared.ptr.get? q = none ∧ ∃ sq, live (b * r) ops q = some sq ∧
          SimilarSig t sq sp ∧ ∃ i < b, sameBand r sq sp i) → S.length < min := by
  choose query hq hsound hcomplete using queryIndex_spec (C := C) b r t h ops hl
  refine ⟨query, hq, ?_⟩
  obtain ⟨s0, n, hs0, hn⟩ := C60_single_worker min idOf query ord sh0 h0 points
  refine ⟨s0, n, hs0, fun m hm => ⟨(hn m hm).1, fun p hp hnone sp hsp S hnd hS => ?_⟩⟩
  refine lt_of_le_of_lt ?_ ((hn m hm).2.2.2 hmin p hp hnone)
  refine (List.subperm_of_subset hnd fun q hq => ?_).length_le
  obtain ⟨h3, sq, h4, h5, h6⟩ := hS q hq
  exact List.mem_filter.mpr ⟨hcomplete p sp hsp q sq h4 h5 h6, by rw [h3]; rfl⟩

/-- Three documents, two of them similar. -/
def exDocs : List (Op Nat Nat) := [.insert 1 [1, 2], .insert 2 [1, 9], .insert 3 [7, 8]]

/-- The hypothesis on the lengths is met, the query of a stored document is not trivial, and the serial clusterer makes
a cluster of the two similar documents. -/
example : RightLengths (2 * 1) exDocs ∧
    ((After (HashSetContainer Nat) 2 1 (.fin (1 / 2)) exHash exDocs).queryIndexQuery 2).map HSet.elems = .ok [1, 2] ∧
    ((SerialClusterer.new 1).cluster (fun p => (((After (HashSetContainer Nat) 2 1 (.fin (1 / 2)) exHash
      exDocs).queryIndexQuery p).toOption.getD HSet.empty)) (fun _ => Order.id) HMap.empty [3, 1, 2]).2.2.map
        (fun c => (c.clusterId, c.points)) = [(1, [1, 2])] := by
  refine ⟨?_, by decide +kernel, by decide +kernel⟩
  intro op hop s hs
  simp [exDocs] at hop
  rcases hop with rfl | rfl | rfl <;> simp [sigsOf] at hs <;> subst hs <;> rfl

end Verif.Props
