import Verif.Model.Work
import Verif.Spec.Blocks
import Verif.Props.SimHashIndex

/-!
# Property C152: the work of a SimHash query

A query computes, for every signature ever inserted, one distance for every choice of blocks on which the signature agrees
with the query. Overwritten signatures and repeated inserts are never forgotten.
-/
set_option linter.unusedSectionVars false
namespace Verif.Props
open Verif.Spec

section lists

theorem combinations_filter {α : Type} (P : α → Bool) (k : Nat) (l : List α) :
    (combinations k l).filter (fun c => c.all P) = combinations k (l.filter P) := by
  induction l generalizing k with
  | nil => cases k <;> simp [combinations]
  | cons x l ih =>
    cases k with
    | zero => simp [combinations]
    | succ k =>
      rw [combinations, List.filter_append, List.filter_map, ih]
      cases hx : P x with
      | true =>
        rw [List.filter_cons_of_pos hx, combinations, ← ih k]
        congr 2
        refine List.filter_congr fun c _ => ?_
        simp [hx]
      | false =>
        rw [List.filter_cons_of_neg (by simp [hx])]
        have : (combinations k l).filter ((fun c => c.all P) ∘ fun c => x :: c) = [] := by
          rw [List.filter_eq_nil_iff]
          intro c _
          simp [hx]
        rw [this]
        rfl

theorem sum_swap {α β : Type} (L : List α) (ps : List β) (P : α → β → Bool) :
    (L.map fun a => (ps.filter (P a)).length).sum = (ps.map fun p => (L.filter fun a => P a p).length).sum := by
  induction L with
  | nil => simp
  | cons a L ih =>
    rw [List.map_cons, List.sum_cons, ih]
    clear ih
    induction ps with
    | nil => rfl
    | cons p ps ih =>
      simp only [List.map_cons, List.sum_cons, List.filter_cons]
      cases P a p <;> simp only [if_true, Bool.false_eq_true, if_false, List.length_cons] <;>
        simp only [List.filter_cons] at ih <;> omega

end lists

section count
variable {w : Nat} {Id : Type} [DecidableEq Id]

theorem counted_tables {nb d : Nat} {ps : List (Id × BitVec w)} {idx : SimIndex w Id} (R : SimReach nb d ps idx)
    (q : BitVec w) (ts : List (SimTable w Id)) (hts : ∀ t ∈ ts, t ∈ idx.hashTables) (acc : HSet Id) (n : Nat) (s : HSet Id)
    (hs : ts.foldlM (fun matchIds table => SimTable.query table q idx.idSignatures matchIds d) acc = .ok s) :
    ts.foldlM (fun acc table => SimTable.queryCounted table q idx.idSignatures acc d) (acc, n) =
      .ok (s, n + (ts.map fun t => (ps.filter fun p =>
        decide (p.2 &&& t.permutation.simpleMask = q &&& t.permutation.simpleMask)).length).sum) := by
  induction ts generalizing acc n with
  | nil =>
    cases hs
    rfl
  | cons t ts ih =>
    obtain ⟨s1, e1, _⟩ := R.query_table (hts t (by simp)) q acc
    rw [List.foldlM_cons, e1] at hs
    have ih' := ih (fun t ht => hts t (by simp [ht])) s1
    have e2 : SimTable.queryCounted t q idx.idSignatures (acc, n) d = .ok (s1, n + (ps.filter fun p =>
        decide (p.2 &&& t.permutation.simpleMask = q &&& t.permutation.simpleMask)).length) := by
      have hlen : (bucketIds t.permutation.simpleMask ps (q &&& t.permutation.simpleMask)).length = (ps.filter fun p =>
        decide (p.2 &&& t.permutation.simpleMask = q &&& t.permutation.simpleMask)).length := by
        unfold bucketIds
        rw [List.length_map]
      rw [← hlen]
      unfold SimTable.query at e1
      unfold SimTable.queryCounted
      rw [R.bucket (hts t (by simp))] at e1 ⊢
      split_ifs at e1 ⊢ with hb
      · cases e1
        rw [hb]
        rfl
      · simp only at e1 ⊢
        cases hf : (bucketIds t.permutation.simpleMask ps (q &&& t.permutation.simpleMask)).filterM
            (SimTable.close q idx.idSignatures d) with
        | error e => rw [hf] at e1; cases e1
        | ok m =>
          rw [hf] at e1
          cases e1
          rfl
    rw [List.foldlM_cons, e2]
    refine (ih' _ hs).trans ?_
    rw [List.map_cons, List.sum_cons, Nat.add_assoc]

/-- The number of tables in which the key of a signature is that of the query. -/
theorem tables_with_key {nb d : Nat} (hn : nb ≤ w) (hd : d ≤ nb) (q x : BitVec w) :
    ((combinations (nb - d) (List.range nb)).filter fun ks =>
      decide (x &&& (permOf w nb ks).simpleMask = q &&& (permOf w nb ks).simpleMask)).length =
    (agreeingBlocks nb q x).choose (nb - d) := by
  unfold agreeingBlocks
  rw [← combinations_length, ← combinations_filter]
  congr 1
  refine List.filter_congr fun ks hks => ?_
  have hlt : ∀ k ∈ ks, k < nb := fun k hk =>
    List.mem_range.mp (((mem_combinations _ _ _).mp hks).1.subset hk)
  rw [Bool.eq_iff_iff, decide_eq_true_eq, List.all_eq_true]
  simp only [decide_eq_true_eq]
  by_cases hw : 1 ≤ w
  · rw [key_eq_iff hlt hw]
    constructor
    · intro h k hk j h1 h2
      have h1n : 1 ≤ nb := by have := hlt k hk; omega
      have hb : blockOf w nb j = k := (in_block_iff h1n hw).mp ⟨h2, h1⟩
      have hjw : j < w := lt_of_lt_of_le h1 (st_le (w := w) (nb := nb) (k := k + 1) (hlt k hk) h1n)
      exact (h j hjw (hb ▸ hk)).symm
    · intro h j hj hb
      have h1n : 1 ≤ nb := by have := hlt _ hb; omega
      obtain ⟨h1, h2⟩ := (in_block_iff (w := w) (nb := nb) (k := blockOf w nb j) (j := j) h1n hw).mpr rfl
      exact (h _ hb j h2 h1).symm
  · have : w = 0 := by omega
    subst this
    exact ⟨fun _ k hk => by have := hlt k hk; omega, fun _ => Subsingleton.elim _ _⟩

/-- C152: a query computes, for every signature ever inserted under any id, as many distances as there are choices of
`num_blocks - hamming_distance` blocks among those on which it agrees with the query. It returns what the query returns. -/
theorem C152_count {fuel nb d : Nat} {idx : SimIndex w Id} (h : SimIndex.new fuel w Id nb d = .ok idx)
    (ops : List (SimOp w Id)) (q : BitVec w) :
    ∃ s, (idx.run ops).query q = .ok s ∧ (idx.run ops).queryCounted q =
      .ok (s, ((assigned ops).map fun p => (agreeingBlocks nb q p.2).choose (nb - d)).sum) := by
  have R := reach_run h ops
  obtain ⟨s, e, _⟩ := R.query q
  refine ⟨s, e, ?_⟩
  unfold SimIndex.query at e
  unfold SimIndex.queryCounted
  rw [R.distance] at e ⊢
  refine (counted_tables R q _ (fun t ht => ht) _ _ s e).trans ?_
  rw [Nat.zero_add]
  congr 2
  rw [R.tables, List.map_map]
  have e1 : ∀ ks : List Nat, ((assigned ops).foldl (fun t p => t.insert p.1 p.2)
      (SimTable.new (Id := Id) (permOf w nb ks))).permutation = permOf w nb ks := fun ks =>
    (insertAll_table (SimTable.new (permOf w nb ks)) (assigned ops)).1
  simp only [Function.comp_def, e1]
  rw [sum_swap (combinations (nb - d) (List.range nb)) (assigned ops) fun ks p =>
    decide (p.2 &&& (permOf w nb ks).simpleMask = q &&& (permOf w nb ks).simpleMask)]
  congr 1
  exact List.map_congr_left fun p _ => tables_with_key R.nb_le R.d_le q p.2

theorem agreeingBlocks_self (nb : Nat) (q : BitVec w) : agreeingBlocks nb q q = nb := by
  unfold agreeingBlocks
  rw [List.filter_eq_self.mpr fun k _ => by simp, List.length_range]

/-- C152: a query is the slower the more often its own document was inserted: `m` inserts of one id with one signature
leave one document in the index, and a query with that signature computes `m` times as many distances as there are
tables. -/
theorem C152_repeated {fuel nb d : Nat} {idx : SimIndex w Id} (h : SimIndex.new fuel w Id nb d = .ok idx) (id : Id)
    (q : BitVec w) (m : Nat) (hd : 0 < d) (hm : 0 < m) :
    ∃ s, (idx.run (List.replicate m (.insert id q))).query q = .ok s ∧ s.elems = [id] ∧
      (idx.run (List.replicate m (.insert id q))).queryCounted q = .ok (s, m * nb.choose d) := by
  have R := reach_run h []
  obtain ⟨s, e, hc⟩ := C152_count h (List.replicate m (.insert id q)) q
  have ha : ∀ m, assigned (List.replicate m (.insert id q) : List (SimOp w Id)) = List.replicate m (id, q) := by
    intro m
    induction m with
    | zero => rfl
    | succ m ih => rw [List.replicate_succ, assigned, ih, List.replicate_succ]
  refine ⟨s, e, ?_, ?_⟩
  · obtain ⟨s', e', _, hmem⟩ := C51_query_exact h (List.replicate m (.insert id q)) q
    rw [e] at e'
    cases e'
    rw [ha] at hmem
    have hid : id ∈ s.elems := by
      rw [hmem]
      obtain ⟨x, hx⟩ := lastSig_isSome (ps := List.replicate m (id, q)) (id := id) (s := q)
        (List.mem_replicate.mpr ⟨by omega, rfl⟩)
      have := lastSig_mem hx
      rw [List.mem_replicate] at this
      have hq : x = q := congrArg Prod.snd this.2
      subst hq
      refine ⟨x, hx, ?_⟩
      simpa [diffBits] using hd
    have hall : ∀ x ∈ s.elems, x = id := by
      intro x hx
      obtain ⟨sig, h1, _⟩ := (hmem x).mp hx
      have := lastSig_mem h1
      rw [List.mem_replicate] at this
      exact congrArg Prod.fst this.2
    have hn := s.nodup
    cases hs : s.elems with
    | nil => rw [hs] at hid; cases hid
    | cons a l =>
      rw [hs] at hall hn
      have h1 := hall a (by simp)
      cases l with
      | nil => rw [h1]
      | cons c l =>
        have h2 := hall c (by simp)
        rw [h1, h2] at hn
        simp at hn
  · rw [hc, ha, List.map_replicate, List.sum_replicate_nat, agreeingBlocks_self, Nat.choose_symm R.d_le]

end count

/-- Four blocks of two bits, distance 2: the query differs from the first signature in one block, from the second in three,
and the first was inserted twice. -/
example : ∃ idx : SimIndex 8 Nat, SimIndex.new 8 8 Nat 4 2 = .ok idx ∧
    ∃ s, (idx.run [.insert 1 0b00000001#8, .insert 2 0b01010100#8, .insert 1 0b00000001#8]).queryCounted 0b00000000#8 =
      .ok (s, 6) := by
  obtain ⟨idx, hidx⟩ := C51_new_returns (w := 8) (Id := Nat) 4 2 8 (by omega) (by omega) (by omega)
  refine ⟨idx, hidx, ?_⟩
  obtain ⟨s, _, hc⟩ := C152_count hidx [.insert 1 0b00000001#8, .insert 2 0b01010100#8, .insert 1 0b00000001#8] 0b00000000#8
  refine ⟨s, hc.trans ?_⟩
  congr 2

/-- A document inserted a hundred times makes a query compute 600 distances. -/
example : ∃ idx : SimIndex 64 Nat, SimIndex.new 64 64 Nat 4 2 = .ok idx ∧ ∃ s,
    (idx.run (List.replicate 100 (.insert 7 0b1011#64))).queryCounted 0b1011#64 = .ok (s, 600) ∧ s.elems = [7] := by
  obtain ⟨idx, hidx⟩ := C51_new_returns (w := 64) (Id := Nat) 4 2 64 (by omega) (by omega) (by omega)
  obtain ⟨s, _, h2, h3⟩ := C152_repeated hidx 7 0b1011#64 100 (by omega) (by omega)
  exact ⟨idx, hidx, s, h3, h2⟩

end Verif.Props
