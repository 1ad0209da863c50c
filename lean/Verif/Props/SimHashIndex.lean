import Verif.Lemmas.SimHashIndex
import Mathlib.Order.Interval.Finset.Nat

/-!
# SimHash index: properties C50 – C55

`SimIndex.new fuel w Id nb d = .ok idx` says that the constructor returned `idx` (for some number of loop
iterations); `C51_new_returns` says when it does.
-/
namespace Verif.Props
open Verif Verif.Spec
variable {w : Nat} {Id : Type} [DecidableEq Id]

/-! ### C50 -/

/-- A history for the examples: id 2 is overwritten, a bulk insert runs under an interleaved schedule. -/
def exSimOps : List (SimOp 64 Nat) :=
  [.insert 1 0b0001#64, .insert 2 0b0011#64, .parBulkInsert [3, 4] [0b1111#64, 0b0000#64] Order.id [1, 0, 1, 5, 3],
    .parBulkInsertPairs [(2, 0b1000#64)] Order.rev [2]]

/-- C50: after any history, an entry whose signature is at distance at most `hamming_distance` from the query lies in
the bucket that the query looks up in at least one table. -/
theorem C50_same_bucket {fuel nb d : Nat} {idx : SimIndex w Id} (h : SimIndex.new fuel w Id nb d = .ok idx)
    (ops : List (SimOp w Id)) (id : Id) (x q : BitVec w) (hx : (id, x) ∈ assigned ops)
    (hd : hammingDistance q x ≤ d) :
    ∃ t ∈ (idx.run ops).hashTables, ∃ bucket,
      t.table.get? (q &&& t.permutation.simpleMask) = some bucket ∧ id ∈ bucket := by
  have R := reach_run h ops
  obtain ⟨t, ht, hm⟩ := R.pigeonhole hx q hd
  refine ⟨t, ht, _, ?_, hm⟩
  rw [R.bucket ht, if_neg (List.ne_nil_of_mem hm)]

/-- C50 is optimal: with fewer than all blocks allowed to differ, some pair at distance `hamming_distance + 1` has
different keys in every table. -/
theorem C50_tight (nb d fuel : Nat) (hn : nb ≤ w) (hd : d < nb) (tables : List (Permutation w))
    (hc : Permutation.create fuel w nb d = .ok tables) :
    ∃ x y : BitVec w, hammingDistance x y = d + 1 ∧
      ∀ t ∈ tables, x &&& t.simpleMask ≠ y &&& t.simpleMask := by
  obtain ⟨_, _, rfl⟩ := create_ok hc
  have hw : 1 ≤ w := by omega
  have h1 : 1 ≤ nb := by omega
  have hst : ∀ k < nb, st w nb k < w := by
    intro k hk
    have := st_lt (w := w) k h1 hn
    have := st_le (w := w) (nb := nb) (k := k + 1) (by omega) h1
    omega
  have hblk : ∀ k, blockOf w nb (st w nb k) = k := fun k =>
    (in_block_iff h1 hw).mp ⟨Nat.le_refl _, st_lt k h1 hn⟩
  obtain ⟨y, hy⟩ := exists_bits (w := w) fun j => decide (∃ k < d + 1, j = st w nb k)
  refine ⟨0#w, y, ?_, ?_⟩
  · rw [hamming_card]
    have : (diffBits (0#w) y).map Fin.valEmbedding = (Finset.range (d + 1)).image (st w nb) := by
      ext j
      rw [Finset.mem_map, Finset.mem_image]
      constructor
      · rintro ⟨i, hi, rfl⟩
        have hi := (Finset.mem_filter.mp hi).2
        rw [BitVec.getLsbD_zero, hy i.val i.isLt] at hi
        have : ∃ k < d + 1, i.val = st w nb k := by
          by_contra hc
          exact hi (by rw [decide_eq_false hc])
        obtain ⟨k, hk, e⟩ := this
        exact ⟨k, Finset.mem_range.mpr hk, e.symm⟩
      · rintro ⟨k, hk, rfl⟩
        have hk := Finset.mem_range.mp hk
        refine ⟨⟨st w nb k, hst k (by omega)⟩, Finset.mem_filter.mpr ⟨Finset.mem_univ _, ?_⟩, rfl⟩
        rw [BitVec.getLsbD_zero, hy _ (hst k (by omega)), decide_eq_true ⟨k, hk, rfl⟩]
        simp
    rw [← Finset.card_map Fin.valEmbedding, this, Finset.card_image_of_injective, Finset.card_range]
    intro a b e
    have := congrArg (blockOf w nb) e
    rwa [hblk, hblk] at this
  · intro t ht e
    obtain ⟨ks, hks, rfl⟩ := List.mem_map.mp ht
    obtain ⟨sk, hl⟩ := (mem_combinations _ _ _).mp hks
    have hlt : ∀ k ∈ ks, k < nb := fun k hk => List.mem_range.mp (sk.subset hk)
    rw [key_eq_iff hlt hw] at e
    -- some chosen block is among the first `d + 1`
    have hex : ∃ k ∈ ks, k < d + 1 := by
      by_contra hcon
      push Not at hcon
      have : ks.toFinset ⊆ Finset.Ico (d + 1) nb := by
        intro k hk
        have hk := List.mem_toFinset.mp hk
        exact Finset.mem_Ico.mpr ⟨hcon k hk, hlt k hk⟩
      have := Finset.card_le_card this
      rw [List.toFinset_card_of_nodup (sk.nodup List.nodup_range), Nat.card_Ico] at this
      omega
    obtain ⟨k, hk, hkd⟩ := hex
    have := e (st w nb k) (hst k (hlt k hk)) (by rw [hblk]; exact hk)
    rw [BitVec.getLsbD_zero, hy _ (hst k (hlt k hk)), decide_eq_true ⟨k, hkd, rfl⟩] at this
    cases this

/-- The hypotheses of C50 hold for the history above: id 2 was assigned a signature at distance 1 from the query. -/
example : (∃ idx, SimIndex.new 64 64 Nat 4 2 = .ok idx) ∧ (2, 0b1000#64) ∈ assigned exSimOps ∧
    hammingDistance 0#64 0b1000#64 ≤ 2 :=
  ⟨new_returns (by decide) (by decide) (by decide), by decide +kernel, by decide +kernel⟩

/-! ### C51 -/

omit [DecidableEq Id] in
/-- The constructor returns for all `hamming_distance ≤ num_blocks ≤ w`. -/
theorem C51_new_returns (nb d fuel : Nat) (hn : nb ≤ w) (hd : d ≤ nb) (hf : w ≤ fuel) :
    ∃ idx, SimIndex.new fuel w Id nb d = .ok idx := new_returns hn hd hf

/-- C51: after any history `query` and `query_owned` return (never panic) exactly the ids whose last signature is at
distance strictly below `hamming_distance`. -/
theorem C51_query_exact {fuel nb d : Nat} {idx : SimIndex w Id} (h : SimIndex.new fuel w Id nb d = .ok idx)
    (ops : List (SimOp w Id)) (q : BitVec w) :
    ∃ s, (idx.run ops).query q = .ok s ∧ (idx.run ops).queryOwned q = .ok s ∧
      ∀ id, id ∈ s.elems ↔ ∃ sig, lastSig (assigned ops) id = some sig ∧ (diffBits q sig).card < d := by
  obtain ⟨s, e, m⟩ := (reach_run h ops).query q
  refine ⟨s, e, e, fun id => ?_⟩
  rw [m]
  simp only [hamming_card]

/-- Ids 2, 1 and 4 are within the distance, id 3 is not, and the first signature of id 2 does not count. -/
example : (SimIndex.new 64 64 Nat 4 2).toOption.map (fun idx =>
    ((idx.run exSimOps).query 0#64).toOption.map fun s => s.elems) = some (some [2, 1, 4]) := by decide +kernel

/-! ### C52 -/

/-- C52 fails: an entry at distance exactly `hamming_distance` is never returned, in no state of no index. -/
theorem C52_boundary_never_returned {fuel nb d : Nat} {idx : SimIndex w Id}
    (h : SimIndex.new fuel w Id nb d = .ok idx) (ops : List (SimOp w Id)) (q : BitVec w) (id : Id) (sig : BitVec w)
    (hs : lastSig (assigned ops) id = some sig) (hd : (diffBits q sig).card = d) :
    ∃ s, (idx.run ops).query q = .ok s ∧ id ∉ s.elems := by
  obtain ⟨s, e, _, m⟩ := C51_query_exact h ops q
  refine ⟨s, e, fun hm => ?_⟩
  obtain ⟨sig', h1, h2⟩ := (m id).mp hm
  rw [hs] at h1
  injection h1 with h1
  subst h1
  omega

/-- An entry at the boundary: signature `0b11` at distance 2 = `hamming_distance`. -/
example : lastSig (assigned [SimOp.insert (w := 64) 7 0b11#64]) 7 = some 0b11#64 ∧
    hammingDistance 0#64 0b11#64 = 2 := by decide +kernel

/-- C52 as documented ("less than or equal") is false: a signature inserted at distance 2 is missed by an index with
`hamming_distance = 2`. -/
theorem C52_within_distance_false :
    ¬ ∀ (idx : SimIndex 64 Nat) (nb d : Nat), SimIndex.new 64 64 Nat nb d = .ok idx →
      ∀ (ops : List (SimOp 64 Nat)) (q : BitVec 64) (s : HSet Nat), (idx.run ops).query q = .ok s →
        ∀ id sig, lastSig (assigned ops) id = some sig → (diffBits q sig).card ≤ d → id ∈ s.elems := by
  intro hall
  obtain ⟨idx, h⟩ := C51_new_returns (w := 64) (Id := Nat) 4 2 64 (by omega) (by omega) (by omega)
  obtain ⟨s, e, hm⟩ := C52_boundary_never_returned h [.insert 7 0b11#64] 0#64 7 0b11#64 rfl
    (by rw [← hamming_card]; decide +kernel)
  exact hm (hall idx 4 2 h _ _ _ e 7 0b11#64 rfl (by rw [← hamming_card]; decide +kernel))

/-- C52, what holds: an index built for `hamming_distance + 1` returns exactly the entries at distance less than or
equal to `hamming_distance`. -/
theorem C52_within_distance_partial {fuel nb d : Nat} {idx : SimIndex w Id}
    (h : SimIndex.new fuel w Id nb (d + 1) = .ok idx) (ops : List (SimOp w Id)) (q : BitVec w) :
    ∃ s, (idx.run ops).query q = .ok s ∧
      ∀ id, id ∈ s.elems ↔ ∃ sig, lastSig (assigned ops) id = some sig ∧ (diffBits q sig).card ≤ d := by
  obtain ⟨s, e, _, m⟩ := C51_query_exact h ops q
  refine ⟨s, e, fun id => ?_⟩
  rw [m]
  simp only [Nat.lt_succ_iff]

example : (SimIndex.new 64 64 Nat 4 3).toOption.map (fun idx =>
    ((idx.run [.insert 7 0b11#64, .insert 8 0b111#64]).query 0#64).toOption.map fun s => s.elems) = some (some [7]) := by
  decide +kernel

/-! ### C53 -/

/-- C53: `query_one` returns an entry of minimal distance among the query result, with its distance, and `None`
exactly when the query result is empty; for every iteration order. -/
theorem C53_query_one {fuel nb d : Nat} {idx : SimIndex w Id} (h : SimIndex.new fuel w Id nb d = .ok idx)
    (ops : List (SimOp w Id)) (q : BitVec w) (o : Order) :
    ∃ s r, (idx.run ops).query q = .ok s ∧ (idx.run ops).queryOne o q = .ok r ∧
      (r = none ↔ s.elems = []) ∧
      ∀ id dist, r = some (id, dist) → id ∈ s.elems ∧
        (∃ sig, lastSig (assigned ops) id = some sig ∧ dist = (diffBits sig q).card) ∧
        ∀ id' ∈ s.elems, ∀ sig', lastSig (assigned ops) id' = some sig' → dist ≤ (diffBits sig' q).card := by
  have R := reach_run h ops
  obtain ⟨s, e, m⟩ := R.query q
  have mem : ∀ id dist, (id, dist) ∈ (o.perm s.elems).filterMap (fun id =>
      ((idx.run ops).idSignatures.get? id).map fun sig => (id, hammingDistance sig q)) ↔
      id ∈ s.elems ∧ ∃ sig, lastSig (assigned ops) id = some sig ∧ dist = (diffBits sig q).card := by
    intro id dist
    rw [List.mem_filterMap]
    constructor
    · rintro ⟨a, ha, hb⟩
      rw [R.signatures] at hb
      obtain ⟨sig, h1, h2⟩ := Option.map_eq_some_iff.mp hb
      injection h2 with h2 h3
      subst h2
      exact ⟨(Order.mem_perm o _ _).mp ha, sig, h1, by rw [← h3, hamming_card]⟩
    · rintro ⟨h1, sig, h2, rfl⟩
      exact ⟨id, (Order.mem_perm o _ _).mpr h1, by rw [R.signatures, h2, ← hamming_card]; rfl⟩
  obtain ⟨hnone, hsome⟩ := minBy_spec (fun x : Id × Nat => x.2) ((o.perm s.elems).filterMap (fun id =>
      ((idx.run ops).idSignatures.get? id).map fun sig => (id, hammingDistance sig q)))
  refine ⟨s, _, e, by unfold SimIndex.queryOne; rw [e]; rfl, ?_, ?_⟩
  · rw [hnone]
    constructor
    · intro h0
      by_contra hne
      obtain ⟨id, hid⟩ := List.exists_mem_of_ne_nil _ hne
      obtain ⟨sig, h1, _⟩ := (m id).mp hid
      have := (mem id _).mpr ⟨hid, sig, h1, rfl⟩
      rw [h0] at this
      cases this
    · intro h0
      rw [List.eq_nil_iff_forall_not_mem]
      rintro ⟨id, dist⟩ hm
      have := ((mem id dist).mp hm).1
      rw [h0] at this
      cases this
  · intro id dist hr
    obtain ⟨h1, h2⟩ := hsome _ hr
    obtain ⟨h3, h4⟩ := (mem id dist).mp h1
    refine ⟨h3, h4, fun id' hid' sig' hs' => ?_⟩
    exact h2 (id', (diffBits sig' q).card) ((mem _ _).mpr ⟨hid', sig', hs', rfl⟩)

/-- C53: `query_return_distance` returns each id of the query result exactly once, with its exact distance, in
non-decreasing order of distance; for every iteration order and every unstable sort. -/
theorem C53_query_return_distance {fuel nb d : Nat} {idx : SimIndex w Id} (h : SimIndex.new fuel w Id nb d = .ok idx)
    (ops : List (SimOp w Id)) (q : BitVec w) (o1 o2 : Order) :
    ∃ s r, (idx.run ops).query q = .ok s ∧ (idx.run ops).queryReturnDistance o1 o2 q = .ok r ∧
      (r.map Prod.fst).Nodup ∧ (∀ id, id ∈ r.map Prod.fst ↔ id ∈ s.elems) ∧
      (∀ id dist, (id, dist) ∈ r → ∃ sig, lastSig (assigned ops) id = some sig ∧ dist = (diffBits q sig).card) ∧
      r.Pairwise fun a b => a.2 ≤ b.2 := by
  have R := reach_run h ops
  obtain ⟨s, e, m⟩ := R.query q
  have hm : (o1.perm s.elems).mapM ((idx.run ops).withDistance q) = .ok ((o1.perm s.elems).map fun id =>
        (id, match lastSig (assigned ops) id with | some sig => hammingDistance q sig | none => 0)) := by
    apply mapM_ok
    intro id hid
    obtain ⟨sig, h1, _⟩ := (m id).mp ((Order.mem_perm o1 _ _).mp hid)
    unfold SimIndex.withDistance
    simp only [R.signatures, h1]
  refine ⟨s, _, e, by unfold SimIndex.queryReturnDistance; rw [e]; simp only [bind, Except.bind]; rw [hm]; rfl,
    ?_, ?_, ?_, ?_⟩
  · have hp := (sortUnstable_perm o2 (fun x y : Id × Nat => decide (x.2 ≤ y.2)) ((o1.perm s.elems).map fun id =>
        (id, match lastSig (assigned ops) id with | some sig => hammingDistance q sig | none => 0))).map Prod.fst
    rw [hp.nodup_iff, List.map_map]
    have : (Prod.fst ∘ fun id : Id =>
        (id, match lastSig (assigned ops) id with | some sig => hammingDistance q sig | none => 0)) = _root_.id := rfl
    rw [this, List.map_id, (o1.isPerm _).nodup_iff]
    exact s.nodup
  · intro id
    have hp := (sortUnstable_perm o2 (fun x y : Id × Nat => decide (x.2 ≤ y.2)) ((o1.perm s.elems).map fun id =>
        (id, match lastSig (assigned ops) id with | some sig => hammingDistance q sig | none => 0))).map Prod.fst
    rw [hp.mem_iff, List.map_map]
    have : (Prod.fst ∘ fun id : Id =>
        (id, match lastSig (assigned ops) id with | some sig => hammingDistance q sig | none => 0)) = _root_.id := rfl
    rw [this, List.map_id]
    exact Order.mem_perm o1 _ _
  · intro id dist hr
    rw [(sortUnstable_perm o2 _ _).mem_iff] at hr
    obtain ⟨a, ha, hb⟩ := List.mem_map.mp hr
    obtain ⟨sig, h1, _⟩ := (m a).mp ((Order.mem_perm o1 _ _).mp ha)
    simp only [h1] at hb
    injection hb with h2 h3
    subst h2
    exact ⟨sig, h1, by rw [← h3, hamming_card]⟩
  · have := sortUnstable_sorted o2 (fun x y : Id × Nat => decide (x.2 ≤ y.2)) ((o1.perm s.elems).map fun id =>
      (id, match lastSig (assigned ops) id with | some sig => hammingDistance q sig | none => 0))
      (by intro a b c; simp; omega) (by intro a b; simp; omega)
    exact this.imp fun h => by simpa using h

example : (SimIndex.new 64 64 Nat 4 2).toOption.map (fun idx =>
    ((idx.run exSimOps).queryOne Order.rev 0#64).toOption) = some (some (some (4, 0))) := by decide +kernel

/-! ### C54 -/

/-- The number of distinct ids that a history has inserted. -/
def distinctIds (ops : List (SimOp w Id)) : Nat := ((assigned ops).map Prod.fst).toFinset.card

/-- `size()` is 0 after every history. -/
theorem C54_size_always_zero {fuel nb d : Nat} {idx : SimIndex w Id} (h : SimIndex.new fuel w Id nb d = .ok idx)
    (ops : List (SimOp w Id)) : (idx.run ops).getSize = 0 := (reach_run h ops).size

/-- C54 is false of the code: after one insert the size is 0. -/
theorem C54_size_false :
    ¬ ∀ (idx : SimIndex 64 Nat) (nb d : Nat), SimIndex.new 64 64 Nat nb d = .ok idx →
      ∀ ops : List (SimOp 64 Nat), (idx.run ops).getSize = distinctIds ops := by
  intro hall
  obtain ⟨idx, h⟩ := C51_new_returns (w := 64) (Id := Nat) 4 2 64 (by omega) (by omega) (by omega)
  have h1 := hall idx 4 2 h [.insert 7 0b11#64]
  rw [C54_size_always_zero h] at h1
  exact absurd h1 (by simp [distinctIds, assigned])

/-- C54, what holds: the size is right exactly when nothing was ever inserted. -/
theorem C54_size_partial {fuel nb d : Nat} {idx : SimIndex w Id} (h : SimIndex.new fuel w Id nb d = .ok idx)
    (ops : List (SimOp w Id)) : (idx.run ops).getSize = distinctIds ops ↔ assigned ops = [] := by
  rw [C54_size_always_zero h]
  unfold distinctIds
  constructor
  · intro e
    have := Finset.card_eq_zero.mp e.symm
    rw [List.toFinset_eq_empty_iff, List.map_eq_nil_iff] at this
    exact this
  · intro e
    rw [e]; rfl

example : (SimIndex.new 64 64 Nat 4 2).toOption.map (fun idx => (idx.run exSimOps).getSize) = some 0 ∧
    distinctIds exSimOps = 4 := by decide +kernel

/-! ### C55 -/

/-- C55: under every schedule a bulk insert returns and gives the tables and signatures of the one by one inserts. -/
theorem C55_bulk_insert (idx : SimIndex w Id) (ids : List Id) (sigs : List (BitVec w)) (o : Order) (sched : List Nat) :
    (idx.parBulkInsert o ids sigs sched).2 = .ok () ∧
      SimSame (idx.parBulkInsert o ids sigs sched).1 (idx.run ((ids.zip sigs).map fun p => .insert p.1 p.2)) := by
  rw [parBulkInsert_eq]
  obtain ⟨h1, h2⟩ := parBulkInsertPairs_eq o idx (ids.zip sigs) sched
  refine ⟨h1, ?_⟩
  have : idx.run ((ids.zip sigs).map fun p => .insert p.1 p.2) = idx.insertSeq (ids.zip sigs) := by
    unfold SimIndex.run SimIndex.insertSeq
    rw [List.foldl_map]
    rfl
  rw [this]
  exact h2

/-- C55: the same for pairs. -/
theorem C55_bulk_insert_pairs (idx : SimIndex w Id) (pairs : List (Id × BitVec w)) (o : Order) (sched : List Nat) :
    (idx.parBulkInsertPairs o pairs sched).2 = .ok () ∧
      SimSame (idx.parBulkInsertPairs o pairs sched).1 (idx.run (pairs.map fun p => .insert p.1 p.2)) := by
  obtain ⟨h1, h2⟩ := parBulkInsertPairs_eq o idx pairs sched
  refine ⟨h1, ?_⟩
  have : idx.run (pairs.map fun p => .insert p.1 p.2) = idx.insertSeq pairs := by
    unfold SimIndex.run SimIndex.insertSeq
    rw [List.foldl_map]
    rfl
  rw [this]
  exact h2

/-- C55: two states that differ only in the iteration order of the signature map answer every query alike, now and
after any further calls. -/
theorem C55_same_answers {a b : SimIndex w Id} (h : SimSame a b) (q : BitVec w) (o1 o2 : Order)
    (ops : List (SimOp w Id)) :
    (a.run ops).query q = (b.run ops).query q ∧ (a.run ops).queryOwned q = (b.run ops).queryOwned q ∧
      (a.run ops).queryOne o1 q = (b.run ops).queryOne o1 q ∧
      (a.run ops).queryReturnDistance o1 o2 q = (b.run ops).queryReturnDistance o1 o2 q := by
  have hs : SimSame (a.run ops) (b.run ops) := by
    have h1 := (run_same a ops).trans (h.insertSeq (assigned ops))
    have h2 := run_same b ops
    exact ⟨h1.1.trans h2.1.symm, h1.2.trans h2.2.symm, h1.3.trans h2.3.symm,
      fun id => (h1.4 id).trans (h2.4 id).symm, h1.5.trans h2.5.symm⟩
  have hclose : ∀ (q : BitVec w) (n : Nat), SimTable.close q (a.run ops).idSignatures n =
      SimTable.close q (b.run ops).idSignatures n := by
    intro q n
    funext id
    unfold SimTable.close
    rw [hs.signatures]
  have hq : (a.run ops).query q = (b.run ops).query q := by
    unfold SimIndex.query SimTable.query
    rw [hs.tables, hs.distance, hclose]
  refine ⟨hq, hq, ?_, ?_⟩
  · unfold SimIndex.queryOne
    rw [hq]
    simp only [hs.signatures]
  · unfold SimIndex.queryReturnDistance
    rw [hq]
    have : (a.run ops).withDistance q = (b.run ops).withDistance q := by
      funext id
      unfold SimIndex.withDistance
      rw [hs.signatures]
    rw [this]

/-- C55: a parallel query is the list of the individual queries, under every schedule. -/
theorem C55_bulk_query (idx : SimIndex w Id) (sigs : List (BitVec w)) (o1 o2 : Order) (sched : List Nat) :
    idx.parBulkQuery sigs sched = sigs.mapM idx.query ∧
      idx.parBulkQueryReturnDistance o1 o2 sigs sched = sigs.mapM (idx.queryReturnDistance o1 o2) := by
  unfold SimIndex.parBulkQuery SimIndex.parBulkQueryReturnDistance
  rw [parMap_eq_map, parMap_eq_map, List.mapM_map, List.mapM_map]
  exact ⟨rfl, rfl⟩

/-- Two queries, the second one first. -/
example : (SimIndex.new 64 64 Nat 4 2).toOption.map (fun idx =>
    ((idx.run exSimOps).parBulkQuery [0#64, 0b1111#64] [1, 0]).toOption.map fun l => l.map fun s => s.elems) =
    some (some [[2, 1, 4], [3]]) := by decide +kernel

end Verif.Props
