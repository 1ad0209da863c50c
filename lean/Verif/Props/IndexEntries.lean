import Verif.Lemmas.Entries
import Verif.Props.IndexRank

/-! # Properties C87, C88 and the exact condition for the panics of C24 -/
set_option linter.unusedSectionVars false
namespace Verif.Props
open Verif.Spec

variable {T Id : Type} [DecidableEq T] [DecidableEq Id]
variable {C : Type} [IdContainer C Id] [LawfulIdContainer C Id]

/-! ## C87 -/

/-- C87: the exact answer of a query after every history with signatures of the right length, overwriting and
removals included, for every container. -/
theorem C87_query {dedup : Bool} [CountedContainer C Id dedup] (b r : Nat) (t : Fl) (h : List T → UInt64)
    (ops : List (Op T Id)) (hl : RightLengths (b * r) ops) (q : List T) (hq : q.length = b * r) :
    ∃ res, (After C b r t h ops).query q = .ok res ∧ (After C b r t h ops).queryOwned q = .ok res ∧
      ∀ id, id ∈ res.elems ↔
        (∃ i < b, 0 < entries dedup (bandKey h r) (b * r) ops i (h (bandOf r q i)) id) ∧
        ∃ s v, live (b * r) ops id = some s ∧ minhashSimilarity s q = .ok v ∧ Fl.ge v t = true := by
  obtain ⟨res, e1, e2⟩ := C17_query_returns (C := C) b r t h ops q hl hq
  refine ⟨res, e1, e2, fun id => ?_⟩
  rw [(query_mem (inv_run h b r t ops) e1).2 id]
  exact and_congr_left fun _ => candidate_entries (dedup := dedup) h b r t ops hl q id

/-- C87 for the default container: an id is returned iff its current signature is similar enough and for some band
it was inserted with the query's key and not taken out since. -/
theorem C87_query_set (b r : Nat) (t : Fl) (h : List T → UInt64)
    (ops : List (Op T Id)) (hl : RightLengths (b * r) ops) (q : List T) (hq : q.length = b * r) :
    ∃ res, (After (HashSetContainer Id) b r t h ops).query q = .ok res ∧
      (After (HashSetContainer Id) b r t h ops).queryOwned q = .ok res ∧
      ∀ id, id ∈ res.elems ↔
        (∃ i < b, Listed (fun i s => h (bandOf r s i)) (b * r) ops i (h (bandOf r q i)) id) ∧
        ∃ s v, live (b * r) ops id = some s ∧ minhashSimilarity s q = .ok v ∧ Fl.ge v t = true := by
  obtain ⟨res, e1, e2, hm⟩ := C87_query (C := HashSetContainer Id) b r t h ops hl q hq
  refine ⟨res, e1, e2, fun id => ?_⟩
  rw [hm]
  refine and_congr_left fun _ => exists_congr fun i => and_congr_right fun _ => ?_
  exact entries_listed (bandKey h r) (b * r) ops i _ id

/-- An id is found through a signature it had before: overwriting leaves the old entries. -/
example : RightLengths 2 ([.insert 1 [1, 2], .insert 1 [3, 4]] : List (Op Nat Nat)) ∧
    ((After (HashSetContainer Nat) 2 1 (.fin 0) exHash [.insert 1 [1, 2], .insert 1 [3, 4]]).query [1, 9]).map
      HSet.elems = .ok [1] ∧
    entries true (bandKey exHash 1) 2 ([.insert 1 [1, 2], .insert 1 [3, 4]] : List (Op Nat Nat)) 0
      (exHash (bandOf 1 [1, 9] 0)) 1 = 1 := by
  refine ⟨?_, by decide +kernel, by decide +kernel⟩
  intro op hop s hs
  simp at hop
  rcases hop with rfl | rfl <;> simp [sigsOf] at hs <;> subst hs <;> rfl

/-- C24, the exact condition: after a history with signatures of the right length the similarity queries panic iff
some bucket of the query lists an id that is not present. -/
theorem C24_panics_iff {dedup : Bool} [CountedContainer C Id dedup] (b r : Nat) (t : Fl) (h : List T → UInt64)
    (ops : List (Op T Id)) (hl : RightLengths (b * r) ops) (q : List T) (hq : q.length = b * r) (h0 : 0 < b * r)
    (hn : b * r < 2 ^ 52) (o1 o2 : Order) (k : Nat) :
    ((∃ e, (After C b r t h ops).queryOwnedReturnSimilarity o1 o2 q = .error e) ↔
      ∃ id, live (b * r) ops id = none ∧
        ∃ i < b, 0 < entries dedup (bandKey h r) (b * r) ops i (h (bandOf r q i)) id) ∧
    ((∃ e, (After C b r t h ops).queryTopK o1 o2 q k = .error e) ↔
      ∃ id, live (b * r) ops id = none ∧
        ∃ i < b, 0 < entries dedup (bandKey h r) (b * r) ops i (h (bandOf r q i)) id) := by
  have I := inv_run (C := C) h b r t ops
  have hce := fun id => candidate_entries (C := C) (dedup := dedup) h b r t ops hl q id
  by_cases hex : ∃ id, live (b * r) ops id = none ∧
      ∃ i < b, 0 < entries dedup (bandKey h r) (b * r) ops i (h (bandOf r q i)) id
  · obtain ⟨id, hid, hcand⟩ := hex
    obtain ⟨S, _, hS, hSm⟩ := candidates_ok I q hq
    have hm : id ∈ S.elems := (hSm id).mpr ((hce id).mpr hcand)
    have hex : ∃ id, live (b * r) ops id = none ∧
      ∃ i < b, 0 < entries dedup (bandKey h r) (b * r) ops i (h (bandOf r q i)) id := ⟨id, hid, hcand⟩
    constructor
    · refine iff_of_true ?_ hex
      cases hr : (After C b r t h ops).queryOwnedReturnSimilarity o1 o2 q with
      | error e => exact ⟨e, rfl⟩
      | ok l =>
        obtain ⟨S', hS', hall, _⟩ := retSim_ok hr
        cases hS.symm.trans hS'
        obtain ⟨s1, _, h1, _⟩ := hall id hm
        cases (hid.symm.trans ((I.sigs id).symm.trans h1))
    · refine iff_of_true ?_ hex
      cases hr : (After C b r t h ops).queryTopK o1 o2 q k with
      | error e => exact ⟨e, rfl⟩
      | ok l =>
        obtain ⟨S', all, hS', hp, hall, _⟩ := topK_ok hr
        cases hS.symm.trans hS'
        obtain ⟨p, hp1, rfl⟩ := List.mem_map.mp (hp.mem_iff.mpr hm)
        obtain ⟨s1, h1, _⟩ := hall p hp1
        cases (hid.symm.trans ((I.sigs p.1).symm.trans h1))
  · have hret := rank_returns (C := C) (t := t) (h := h) hl hq h0 hn (fun id hc hnone =>
      hex ⟨id, hnone, (hce id).mp hc⟩) o1 o2
    constructor
    · refine iff_of_false ?_ hex
      rintro ⟨e, he⟩
      obtain ⟨l, hl⟩ := hret.1
      rw [he] at hl; cases hl
    · refine iff_of_false ?_ hex
      rintro ⟨e, he⟩
      obtain ⟨l, hl⟩ := hret.2 k
      rw [he] at hl; cases hl

/-- Both sides of the condition occur. With vectors it is enough to insert the same pair twice and remove it. -/
example : entries true (bandKey exHash 1) 2 ([.insert 1 [1, 2], .insert 1 [3, 4], .remove 1] : List (Op Nat Nat)) 0
      (exHash (bandOf 1 [1, 9] 0)) 1 = 1 ∧
    live 2 ([.insert 1 [1, 2], .insert 1 [3, 4], .remove 1] : List (Op Nat Nat)) 1 = none ∧
    entries true (bandKey exHash 1) 2 ([.insert 1 [1, 2], .insert 1 [1, 2], .remove 1] : List (Op Nat Nat)) 0
      (exHash (bandOf 1 [1, 9] 0)) 1 = 0 ∧
    entries false (bandKey exHash 1) 2 ([.insert 1 [1, 2], .insert 1 [1, 2], .remove 1] : List (Op Nat Nat)) 0
      (exHash (bandOf 1 [1, 9] 0)) 1 = 1 := by decide +kernel

/-! ## C88 -/

theorem entryStep_mono (key : Nat → List T → UInt64) (content : Id → Option (List T)) (op : Op T Id) (i : Nat)
    (k : UInt64) (id : Id) {e e' : Nat} (he : e ≤ e') :
    entryStep true key content op i k id e ≤ entryStep false key content op i k id e' := by
  by_cases hc : op = .clear
  · subst hc; simp [entryStep]
  · have h1 : ∀ d e, entryStep d key content op i k id e =
        if pairsAt key i k id (insertions op) = 0 then e - pairsAt key i k id (removals content op)
        else if d then 1 else e + pairsAt key i k id (insertions op) := by
      intro d e
      cases op <;> first | exact absurd rfl hc | rfl
    rw [h1, h1]
    simp only [Bool.false_eq_true, if_true, if_false]
    split_ifs <;> omega

theorem entries_mono (key : Nat → List T → UInt64) (n : Nat) (ops : List (Op T Id)) (i : Nat) (k : UInt64) (id : Id) :
    entries true key n ops i k id ≤ entries false key n ops i k id := by
  induction ops using List.reverseRecOn with
  | nil => simp [entries, entriesRev]
  | append_singleton ops op ih =>
    rw [entries_snoc, entries_snoc]
    exact entryStep_mono key _ op i k id ih

/-- C88: after every history, whatever the index with hash sets finds, the index with vectors finds. -/
theorem C88_set_subset {Cv : Type} [IdContainer Cv Id] [LawfulIdContainer Cv Id] [CountedContainer Cv Id false]
    (b r : Nat) (t : Fl) (h : List T → UInt64) (ops : List (Op T Id)) (hl : RightLengths (b * r) ops) (q : List T)
    (hq : q.length = b * r) :
    ∃ res res', (After (HashSetContainer Id) b r t h ops).query q = .ok res ∧ (After Cv b r t h ops).query q = .ok res' ∧
      ∀ id ∈ res.elems, id ∈ res'.elems := by
  obtain ⟨res, e1, _, h1⟩ := C87_query (C := HashSetContainer Id) b r t h ops hl q hq
  obtain ⟨res', e2, _, h2⟩ := C87_query (C := Cv) b r t h ops hl q hq
  refine ⟨res, res', e1, e2, fun id hid => ?_⟩
  obtain ⟨⟨i, hi, hp⟩, hs⟩ := (h1 id).mp hid
  exact (h2 id).mpr ⟨⟨i, hi, lt_of_lt_of_le hp (entries_mono _ _ _ _ _ _)⟩, hs⟩

/-- C88: the two vector containers agree after every history. -/
theorem C88_vectors_agree (N : Nat) (b r : Nat) (t : Fl) (h : List T → UInt64) (ops : List (Op T Id))
    (hl : RightLengths (b * r) ops) (q : List T) (hq : q.length = b * r) :
    ∃ res res', (After (VecContainer Id) b r t h ops).query q = .ok res ∧
      (After (SmallVecContainer Id N) b r t h ops).query q = .ok res' ∧ ∀ id, id ∈ res.elems ↔ id ∈ res'.elems := by
  obtain ⟨res, e1, _, h1⟩ := C87_query (C := VecContainer Id) b r t h ops hl q hq
  obtain ⟨res', e2, _, h2⟩ := C87_query (C := SmallVecContainer Id N) b r t h ops hl q hq
  exact ⟨res, res', e1, e2, fun id => (h1 id).trans (h2 id).symm⟩

/-- C88 is false of the code: insert a pair twice, remove it, insert the id with another signature. With vectors the
id is still found through the first signature, with sets it is not. -/
theorem C88_interchangeable_false :
    ∃ (b r : Nat) (t : Fl) (h : List Nat → UInt64) (ops : List (Op Nat Nat)) (q : List Nat),
      RightLengths (b * r) ops ∧ q.length = b * r ∧
      ((After (HashSetContainer Nat) b r t h ops).query q).map HSet.elems = .ok [] ∧
      ((After (VecContainer Nat) b r t h ops).query q).map HSet.elems = .ok [1] := by
  refine ⟨2, 1, .fin 0, exHash, [.insert 1 [1, 2], .insert 1 [1, 2], .remove 1, .insert 1 [3, 4]], [1, 9], ?_, rfl,
    by decide +kernel, by decide +kernel⟩
  intro op hop s hs
  simp at hop
  rcases hop with rfl | rfl | rfl | rfl <;> simp [sigsOf] at hs <;> subst hs <;> rfl

theorem entries_noRemove (key : Nat → List T → UInt64) (n : Nat) (ops : List (Op T Id))
    (hnr : ∀ op ∈ ops, NoRemove op) (i : Nat) (k : UInt64) (id : Id) :
    0 < entries true key n ops i k id ↔ 0 < entries false key n ops i k id := by
  induction ops using List.reverseRecOn with
  | nil => simp [entries, entriesRev]
  | append_singleton ops op ih =>
    have ih := ih fun o ho => hnr o (by simp [ho])
    have hop := hnr op (by simp)
    rw [entries_snoc, entries_snoc]
    by_cases hc : op = .clear
    · subst hc; simp [entryStep]
    · have h1 : ∀ d e, entryStep d key (live n ops) op i k id e =
          if pairsAt key i k id (insertions op) = 0 then e
          else if d then 1 else e + pairsAt key i k id (insertions op) := by
        intro d e
        cases op <;> first | exact absurd rfl hc | exact hop.elim | simp [entryStep, removals, pairsAt]
      rw [h1, h1]
      simp only [Bool.false_eq_true, if_true, if_false]
      split_ifs <;> omega

/-- C88, the part that holds: after histories without removals (overwriting and `clear` allowed) all containers give
the same answers; C33 is the case of histories without overwriting. Missing: histories that overwrite and remove. -/
theorem C88_no_removal_partial {C' : Type} [IdContainer C' Id] [LawfulIdContainer C' Id] {d d' : Bool}
    [CountedContainer C Id d] [CountedContainer C' Id d'] (b r : Nat) (t : Fl) (h : List T → UInt64)
    (ops : List (Op T Id)) (hl : RightLengths (b * r) ops) (hnr : ∀ op ∈ ops, NoRemove op) (q : List T)
    (hq : q.length = b * r) :
    ∃ res res', (After C b r t h ops).query q = .ok res ∧ (After C' b r t h ops).query q = .ok res' ∧
      ∀ id, id ∈ res.elems ↔ id ∈ res'.elems := by
  obtain ⟨res, e1, _, h1⟩ := C87_query (C := C) b r t h ops hl q hq
  obtain ⟨res', e2, _, h2⟩ := C87_query (C := C') b r t h ops hl q hq
  refine ⟨res, res', e1, e2, fun id => ?_⟩
  rw [h1, h2]
  refine and_congr_left fun _ => exists_congr fun i => and_congr_right fun _ => ?_
  have := entries_noRemove (bandKey h r) (b * r) ops hnr i (h (bandOf r q i)) id
  cases d <;> cases d' <;> simp only [this]

/-- C88, the exact condition, for every history and every query: the answers are equal iff every similar enough id that
has an entry among vectors under a key of the query has one among sets. -/
theorem C88_agree_iff {Cv : Type} [IdContainer Cv Id] [LawfulIdContainer Cv Id] [CountedContainer Cv Id false]
    (b r : Nat) (t : Fl) (h : List T → UInt64) (ops : List (Op T Id)) (hl : RightLengths (b * r) ops) (q : List T)
    (hq : q.length = b * r) :
    ∃ res res', (After (HashSetContainer Id) b r t h ops).query q = .ok res ∧ (After Cv b r t h ops).query q = .ok res' ∧
      ((∀ id, id ∈ res.elems ↔ id ∈ res'.elems) ↔
        ∀ id s v, live (b * r) ops id = some s → minhashSimilarity s q = .ok v → Fl.ge v t = true →
          (∃ i < b, 0 < entries false (bandKey h r) (b * r) ops i (h (bandOf r q i)) id) →
          ∃ i < b, Listed (bandKey h r) (b * r) ops i (h (bandOf r q i)) id) := by
  obtain ⟨res, e1, _, h1⟩ := C87_query_set b r t h ops hl q hq
  obtain ⟨res', e2, _, h2⟩ := C87_query (C := Cv) b r t h ops hl q hq
  refine ⟨res, res', e1, e2, ?_, ?_⟩
  · intro hag id s v hs hv ht he
    exact ((h1 id).mp ((hag id).mpr ((h2 id).mpr ⟨he, s, v, hs, hv, ht⟩))).1
  · intro hc id
    rw [h1, h2]
    constructor
    · rintro ⟨⟨i, hi, hL⟩, hs⟩
      refine ⟨⟨i, hi, lt_of_lt_of_le ?_ (entries_mono _ _ _ _ _ _)⟩, hs⟩
      exact (entries_listed (bandKey h r) (b * r) ops i _ id).mpr hL
    · rintro ⟨he, s, v, hs, hv, ht⟩
      exact ⟨hc id s v hs hv ht he, s, v, hs, hv, ht⟩

/-- No call puts an id into a bucket where it still is, or twice into one bucket. Overwriting is allowed as long as the new
signature differs in every band from the old ones that are still listed. -/
def NoRepeat (h : List T → UInt64) (b r : Nat) (ops : List (Op T Id)) : Prop :=
  ∀ pre op post, ops = pre ++ op :: post → ∀ i < b, ∀ k id, pairsAt (bandKey h r) i k id (insertions op) ≠ 0 →
    pairsAt (bandKey h r) i k id (insertions op) = 1 ∧ ¬ Listed (bandKey h r) (b * r) pre i k id

theorem entries_noRepeat (h : List T → UInt64) (b r : Nat) (ops : List (Op T Id)) (hnr : NoRepeat h b r ops) (i : Nat)
    (hi : i < b) (k : UInt64) (id : Id) :
    entries true (bandKey h r) (b * r) ops i k id = entries false (bandKey h r) (b * r) ops i k id := by
  induction ops using List.reverseRecOn with
  | nil => simp [entries, entriesRev]
  | append_singleton ops op ih =>
    have ih := ih fun pre o post e => hnr pre o (post ++ [op]) (by rw [e]; simp)
    have hop := hnr ops op [] rfl i hi k id
    rw [entries_snoc, entries_snoc, ← ih]
    by_cases hc : op = .clear
    · subst hc; simp [entryStep]
    · have h1 : ∀ d e, entryStep d (bandKey h r) (live (b * r) ops) op i k id e =
          if pairsAt (bandKey h r) i k id (insertions op) = 0 then
            e - pairsAt (bandKey h r) i k id (removals (live (b * r) ops) op)
          else if d then 1 else e + pairsAt (bandKey h r) i k id (insertions op) := by
        intro d e
        cases op <;> first | exact absurd rfl hc | rfl
      rw [h1, h1]
      simp only [Bool.false_eq_true, if_true, if_false]
      split_ifs with h0
      · rfl
      · obtain ⟨p1, p2⟩ := hop h0
        have : ¬ 0 < entries true (bandKey h r) (b * r) ops i k id :=
          fun hp => p2 ((entries_listed (bandKey h r) (b * r) ops i k id).mp hp)
        omega

/-- C88, another part that holds, with removals: if no id is put into a bucket where it still is, all containers give the
same answers. -/
theorem C88_no_repeat_partial {C' : Type} [IdContainer C' Id] [LawfulIdContainer C' Id] {d d' : Bool}
    [CountedContainer C Id d] [CountedContainer C' Id d'] (b r : Nat) (t : Fl) (h : List T → UInt64)
    (ops : List (Op T Id)) (hl : RightLengths (b * r) ops) (hnr : NoRepeat h b r ops) (q : List T)
    (hq : q.length = b * r) :
    ∃ res res', (After C b r t h ops).query q = .ok res ∧ (After C' b r t h ops).query q = .ok res' ∧
      ∀ id, id ∈ res.elems ↔ id ∈ res'.elems := by
  obtain ⟨res, e1, _, h1⟩ := C87_query (C := C) b r t h ops hl q hq
  obtain ⟨res', e2, _, h2⟩ := C87_query (C := C') b r t h ops hl q hq
  refine ⟨res, res', e1, e2, fun id => ?_⟩
  rw [h1, h2]
  refine and_congr_left fun _ => exists_congr fun i => and_congr_right fun hi => ?_
  have := entries_noRepeat h b r ops hnr i hi (h (bandOf r q i)) id
  cases d <;> cases d' <;> simp only [this]

/-- The hypotheses of C88 (partial) are met by a history with overwriting and `clear`. -/
example : (∀ op ∈ ([.insert 2 [1, 2], .clear, .insert 1 [1, 2], .insert 1 [3, 4]] : List (Op Nat Nat)), NoRemove op) ∧
    RightLengths 2 ([.insert 2 [1, 2], .clear, .insert 1 [1, 2], .insert 1 [3, 4]] : List (Op Nat Nat)) := by
  constructor
  · intro op hop; simp at hop; rcases hop with rfl | rfl | rfl | rfl <;> trivial
  · intro op hop s hs
    simp at hop
    rcases hop with rfl | rfl | rfl | rfl <;> simp [sigsOf] at hs <;> subst hs <;> rfl

/-- The hypotheses of C88 (partial, with removals) are met by a history that overwrites an id with a signature that
differs in every band, removes it and inserts it again. The id stays listed under the first signature all along. -/
example : RightLengths 2 ([.insert 1 [1, 2], .insert 1 [3, 4], .remove 1, .insert 1 [3, 4]] : List (Op Nat Nat)) ∧
    NoRepeat exHash 2 1 ([.insert 1 [1, 2], .insert 1 [3, 4], .remove 1, .insert 1 [3, 4]] : List (Op Nat Nat)) ∧
    Listed (bandKey exHash 1) 2 ([.insert 1 [1, 2], .insert 1 [3, 4], .remove 1, .insert 1 [3, 4]] : List (Op Nat Nat))
      0 (exHash [1]) 1 := by
  refine ⟨?_, ?_, ?_⟩
  · intro op hop s hs
    simp at hop
    rcases hop with rfl | rfl | rfl | rfl <;> simp [sigsOf] at hs <;> subst hs <;> rfl
  · intro pre op post e i hi k id h0
    rw [← entries_listed]
    rcases pre with _ | ⟨a, _ | ⟨a2, _ | ⟨a3, _ | ⟨a4, pre⟩⟩⟩⟩ <;> simp at e
    all_goals obtain ⟨rfl, e⟩ := e
    · have hk : 1 = id ∧ bandKey exHash 1 i [1, 2] = k := by
        by_contra hn; exact h0 (by simpa [pairsAt, insertions] using hn)
      obtain ⟨rfl, rfl⟩ := hk
      have : i = 0 ∨ i = 1 := by omega
      rcases this with rfl | rfl <;> decide +kernel
    · obtain ⟨rfl, e⟩ := e
      have hk : 1 = id ∧ bandKey exHash 1 i [3, 4] = k := by
        by_contra hn; exact h0 (by simpa [pairsAt, insertions] using hn)
      obtain ⟨rfl, rfl⟩ := hk
      have : i = 0 ∨ i = 1 := by omega
      rcases this with rfl | rfl <;> decide +kernel
    · obtain ⟨rfl, rfl, e⟩ := e
      exact absurd (by simp [pairsAt, insertions]) h0
    · obtain ⟨rfl, rfl, rfl, e⟩ := e
      have hk : 1 = id ∧ bandKey exHash 1 i [3, 4] = k := by
        by_contra hn; exact h0 (by simpa [pairsAt, insertions] using hn)
      obtain ⟨rfl, rfl⟩ := hk
      have : i = 0 ∨ i = 1 := by omega
      rcases this with rfl | rfl <;> decide +kernel
  · rw [← entries_listed]; decide +kernel

end Verif.Props
