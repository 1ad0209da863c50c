import Verif.Props.SimSeparation

/-!
# Property C147: the SimHash queries that rank return the documents of the smallest mean distance
-/
set_option linter.unusedSectionVars false
namespace Verif.Props
open Verif.Spec

variable {w : Nat} {Tok : Type} [Fintype Tok] [DecidableEq Tok] {Id : Type} [DecidableEq Id]

/-- What C147 uses of a hash function that decides all stored documents rightly at the limit `e`. -/
theorem simDecides_content {e : Nat} {h : Tok → BitVec w} {content : Id → Option (List Tok)} {docs : List (List Tok)}
    {ops : List (SimOp w Id)} {B : List Tok} (hcd : ∀ id A, content id = some A → A ∈ docs)
    (hlast : ∀ id, lastSig (assigned ops) id = (content id).map fun A => simSignature w (A.map h))
    (hall : ∀ p ∈ docs.map fun A => (A, B), SimDecides w e h p.1 p.2) {id : Id} {sig : BitVec w}
    (hs : lastSig (assigned ops) id = some sig) :
    ((diffBits sig (simSignature w (B.map h))).card < e ↔ ∃ A, content id = some A ∧ meanDistance w A B < e) := by
  rw [hlast] at hs
  obtain ⟨A, hA, rfl⟩ := Option.map_eq_some_iff.mp hs
  have := hall (A, B) (List.mem_map_of_mem (hcd id A hA))
  unfold SimDecides at this
  rw [← hamming_card, this, hA]
  constructor
  · exact fun h => ⟨A, rfl, h⟩
  · rintro ⟨A', h1, h2⟩
    cases h1
    exact h2

/-- C147: the nearest documents come first. If `top` are the stored documents whose mean distance to the query is below
a limit `e`, which is at most the maximum distance `d`, then `query_return_distance` returns exactly them in its first
places, but for a probability of at most the sum of the errors. -/
theorem C147_first {fuel nb d : Nat} {idx : SimIndex w Id} (hw : 2 ≤ w)
    (hidx : SimIndex.new fuel w Id nb d = .ok idx) (content : Id → Option (List Tok)) (docs : List (List Tok))
    (B : List Tok) (ops : (Tok → BitVec w) → List (SimOp w Id)) (hcd : ∀ id A, content id = some A → A ∈ docs)
    (hlast : ∀ h id, lastSig (assigned (ops h)) id = (content id).map fun A => simSignature w (A.map h))
    (e : Nat) (he : e ≤ d) (top : List Id) (hnd : top.Nodup)
    (htop : ∀ id, id ∈ top ↔ ∃ A, content id = some A ∧ meanDistance w A B < e) (o1 o2 : Order) :
    1 - (docs.map fun A => simError w e (meanDistance w A B)).sum ≤
      proportion (fun h : Tok → BitVec w => ∃ r,
        (idx.run (ops h)).queryReturnDistance o1 o2 (simSignature w (B.map h)) = .ok r ∧
          ((r.take top.length).map Prod.fst).Perm top) := by
  have key := simDecides_all hw e (docs.map fun A => (A, B))
  rw [List.map_map] at key
  refine key _ fun h hall => ?_
  obtain ⟨s, r, q1, q2, q3, q4, q5, q6⟩ := C53_query_return_distance hidx (ops h) (simSignature w (B.map h)) o1 o2
  obtain ⟨s', q1', _, q7⟩ := C51_query_exact hidx (ops h) (simSignature w (B.map h))
  cases q1.symm.trans q1'
  refine ⟨r, q2, ?_⟩
  have hsub : top ⊆ r.map Prod.fst := by
    intro id hid
    obtain ⟨A, hA, hm⟩ := (htop id).mp hid
    have hl : lastSig (assigned (ops h)) id = some (simSignature w (A.map h)) := by rw [hlast, hA]; rfl
    rw [q4, q7]
    refine ⟨_, hl, lt_of_lt_of_le ?_ he⟩
    rw [diffBits_comm]
    exact (simDecides_content hcd (hlast h) hall hl).mpr ⟨A, hA, hm⟩
  have hiff : ∀ p ∈ r, p.2 < e ↔ p.1 ∈ top := by
    intro p hp
    obtain ⟨sig, g1, g2⟩ := q5 p.1 p.2 hp
    rw [g2, diffBits_comm, simDecides_content hcd (hlast h) hall g1, htop]
  have hle : top.length ≤ r.length := by
    have := (List.subperm_of_subset hnd hsub).length_le
    rwa [List.length_map] at this
  have hlen : ((r.take top.length).map Prod.fst).length = top.length := by
    rw [List.length_map, List.length_take, Nat.min_eq_left hle]
  have htake : ((r.take top.length).map Prod.fst).Nodup := by
    rw [List.map_take]
    exact q3.sublist (List.take_sublist _ _)
  -- an id of `top` that is not in the first places is behind an entry that is not in `top`
  have hin : (r.take top.length).map Prod.fst ⊆ top := by
    intro id hid
    obtain ⟨p, hp, rfl⟩ := List.mem_map.mp hid
    by_contra hout
    obtain ⟨id', hid', hnot⟩ : ∃ id' ∈ top, id' ∉ (r.take top.length).map Prod.fst := by
      by_contra hno
      have hno : ∀ id' ∈ top, id' ∈ (r.take top.length).map Prod.fst := fun id' h' => by_contra fun h'' => hno ⟨id', h', h''⟩
      have hperm := (List.subperm_of_subset hnd hno).perm_of_length_le hlen.le
      exact hout (hperm.symm.subset (List.mem_map_of_mem hp))
    obtain ⟨p', hp', rfl⟩ := List.mem_map.mp (hsub hid')
    have hd' : p' ∈ r.drop top.length := by
      have := hp'
      rw [← List.take_append_drop top.length r, List.mem_append] at this
      exact this.resolve_left fun hx => hnot (List.mem_map_of_mem hx)
    have hord : p.2 ≤ p'.2 := by
      have := q6
      rw [← List.take_append_drop top.length r, List.pairwise_append] at this
      exact this.2.2 p hp p' hd'
    have := (hiff p' hp').mpr hid'
    exact hout ((hiff p ((List.take_sublist _ _).subset hp)).mp (by omega))
  exact (List.subperm_of_subset htake hin).perm_of_length_le hlen.ge

/-- C147: the nearest document. If some stored document has a mean distance below the limit `e`, which is at most the
maximum distance, `query_one` returns such a document, but for a probability of at most the sum of the errors. If there is
only one such document, it returns this one. -/
theorem C147_query_one {fuel nb d : Nat} {idx : SimIndex w Id} (hw : 2 ≤ w)
    (hidx : SimIndex.new fuel w Id nb d = .ok idx) (content : Id → Option (List Tok)) (docs : List (List Tok))
    (B : List Tok) (ops : (Tok → BitVec w) → List (SimOp w Id)) (hcd : ∀ id A, content id = some A → A ∈ docs)
    (hlast : ∀ h id, lastSig (assigned (ops h)) id = (content id).map fun A => simSignature w (A.map h))
    (e : Nat) (he : e ≤ d) (hsome : ∃ id A, content id = some A ∧ meanDistance w A B < e) (o : Order) :
    1 - (docs.map fun A => simError w e (meanDistance w A B)).sum ≤
      proportion (fun h : Tok → BitVec w => ∃ id dist A,
        (idx.run (ops h)).queryOne o (simSignature w (B.map h)) = .ok (some (id, dist)) ∧ content id = some A ∧
          meanDistance w A B < e ∧ dist < e) := by
  have key := simDecides_all hw e (docs.map fun A => (A, B))
  rw [List.map_map] at key
  refine key _ fun h hall => ?_
  obtain ⟨s, r, q1, q2, q3, q4⟩ := C53_query_one hidx (ops h) (simSignature w (B.map h)) o
  obtain ⟨s', q1', _, q7⟩ := C51_query_exact hidx (ops h) (simSignature w (B.map h))
  cases q1.symm.trans q1'
  obtain ⟨id0, A0, hA0, hm0⟩ := hsome
  have hl0 : lastSig (assigned (ops h)) id0 = some (simSignature w (A0.map h)) := by rw [hlast, hA0]; rfl
  have hd0 := (simDecides_content hcd (hlast h) hall hl0).mpr ⟨A0, hA0, hm0⟩
  have hmem : id0 ∈ s.elems := by
    rw [q7]
    refine ⟨_, hl0, lt_of_lt_of_le ?_ he⟩
    rw [diffBits_comm]
    exact hd0
  cases r with
  | none =>
    rw [(q3.mp rfl)] at hmem
    simp at hmem
  | some p =>
    obtain ⟨id, dist⟩ := p
    obtain ⟨_, ⟨sig, g1, g2⟩, g3⟩ := q4 id dist rfl
    have hlt : dist < e := lt_of_le_of_lt (g3 id0 hmem _ hl0) hd0
    obtain ⟨A, hA, hm⟩ := (simDecides_content hcd (hlast h) hall g1).mp (g2 ▸ hlt)
    exact ⟨id, dist, A, q2, hA, hm, hlt⟩

/-- Two documents without common words, 64 bits, maximum distance 20: for a query with the words of the first one
`query_return_distance` has it in the first place and `query_one` returns it with a probability of at least 0.9. -/
example (o1 o2 : Order) : ∃ idx : SimIndex 64 Nat, SimIndex.new 64 64 Nat 22 20 = .ok idx ∧
    9 / 10 ≤ proportion (fun h : Fin 5 → BitVec 64 => ∃ r,
      (idx.run [.insert 0 (simSignature 64 (([3] : List (Fin 5)).map h)),
        .insert 1 (simSignature 64 (([0, 1, 1] : List (Fin 5)).map h))]).queryReturnDistance o1 o2
        (simSignature 64 (([3] : List (Fin 5)).map h)) = .ok r ∧ (r.take 1).map Prod.fst = [0]) ∧
    9 / 10 ≤ proportion (fun h : Fin 5 → BitVec 64 => ∃ dist,
      (idx.run [.insert 0 (simSignature 64 (([3] : List (Fin 5)).map h)),
        .insert 1 (simSignature 64 (([0, 1, 1] : List (Fin 5)).map h))]).queryOne o1
        (simSignature 64 (([3] : List (Fin 5)).map h)) = .ok (some (0, dist))) := by
  obtain ⟨idx, hidx⟩ := C51_new_returns (w := 64) (Id := Nat) 22 20 64 (by omega) (by omega) (by omega)
  refine ⟨idx, hidx, ?_⟩
  have m0 : meanDistance 64 ([3] : List (Fin 5)) [3] = 0 := meanDistance_self _
  have m1 : meanDistance 64 ([0, 1, 1] : List (Fin 5)) [3] = 32 := by
    rw [C117_unrelated_mean (by omega) _ _ (by decide) (by decide)]
    norm_num
  have hlast : ∀ (h : Fin 5 → BitVec 64) (id : Nat), lastSig (assigned
      [.insert 0 (simSignature 64 (([3] : List (Fin 5)).map h)),
        .insert 1 (simSignature 64 (([0, 1, 1] : List (Fin 5)).map h))]) id =
      (([[3], [0, 1, 1]] : List (List (Fin 5)))[id]?).map fun A => simSignature 64 (A.map h) := fun h id => by
    match id with
    | 0 => simp [assigned, lastSig]
    | 1 => simp [assigned, lastSig]
    | id + 2 => simp [assigned, lastSig]
  have hone : ∀ id : Nat, (∃ A : List (Fin 5), ([[3], [0, 1, 1]] : List (List (Fin 5)))[id]? = some A ∧
      meanDistance 64 A [3] < ((10 : Nat) : ℝ)) ↔ id = 0 := fun id => by
    match id with
    | 0 => exact ⟨fun _ => rfl, fun _ => ⟨_, rfl, by rw [m0]; norm_num⟩⟩
    | 1 =>
      refine ⟨?_, fun h => absurd h (by norm_num)⟩
      rintro ⟨A, hA, hj⟩
      cases hA
      rw [m1] at hj
      norm_num at hj
    | id + 2 =>
      refine ⟨?_, fun h => by omega⟩
      rintro ⟨A, hA, _⟩
      simp at hA
  have e : (([[3], [0, 1, 1]] : List (List (Fin 5))).map fun A => simError 64 10 (meanDistance 64 A [3])).sum ≤ 1 / 10 := by
    obtain ⟨s0, s1⟩ := simError_small
    simp only [List.map_cons, List.map_nil, List.sum_cons, List.sum_nil, m0, m1]
    linarith
  constructor
  · have key := C147_first (by omega) hidx (fun id => ([[3], [0, 1, 1]] : List (List (Fin 5)))[id]?) _ [3] _
      (fun id A hA => List.mem_of_getElem? hA) hlast 10 (by omega) [0] (by decide)
      (fun id => by rw [hone id, List.mem_singleton]) o1 o2
    refine le_trans (by linarith) (key.trans (proportion_mono fun h hp => ?_))
    obtain ⟨r, h1, h2⟩ := hp
    exact ⟨r, h1, List.perm_singleton.mp h2⟩
  · have key := C147_query_one (by omega) hidx (fun id => ([[3], [0, 1, 1]] : List (List (Fin 5)))[id]?) _ [3] _
      (fun id A hA => List.mem_of_getElem? hA) hlast 10 (by omega) ⟨0, (hone 0).mpr rfl⟩ o1
    refine le_trans (by linarith) (key.trans (proportion_mono fun h hp => ?_))
    obtain ⟨id, dist, A, h1, h2, h3, _⟩ := hp
    cases (hone id).mp ⟨A, h2, h3⟩
    exact ⟨dist, h1⟩

end Verif.Props
