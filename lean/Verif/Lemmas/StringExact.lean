import Verif.Lemmas.StringIndex
import Verif.Lemmas.IndexExact
import Verif.Lemmas.Permutation

/-! # Exact answers of the string index -/
set_option linter.unusedSectionVars false
namespace Verif
open Verif.Spec

section
variable {g : Rng} {hash : Text → UInt64} {ah : List UInt64 → UInt64} {b r : Nat} {t : Fl}

/-- Every bucket holds exactly the current documents that belong to it. -/
def ExactS (g : Rng) (hash : Text → UInt64) (b r : Nat) (st : StringIndex) : Prop :=
  Exact (fun id => (st.docMap.get? id).map (sg g hash b r)) st.lshIndex

/-- The content of an index determines the map of its invariant. -/
theorem Inv.content_unique {L L' : UInt64 → Option (List UInt64)}
    {idx : MinHashIndex UInt64 UInt64 (HashSetContainer UInt64)} (I : Inv ah b r t L idx) (I' : Inv ah b r t L' idx) :
    L = L' := funext fun id => (I.sigs id).symm.trans (I'.sigs id)

theorem exactS_of_step {D D' : UInt64 → Option Text} {st st' : StringIndex} (K : InStep g hash ah b r t D st)
    (K' : InStep g hash ah b r t D' st') (E : ExactS g hash b r st) (op : Op UInt64 UInt64)
    (hidx : st'.lshIndex = (st.lshIndex.step op).1)
    (hc : cleanCall (b * r) (fun id => (D id).map (sg g hash b r)) op) : ExactS g hash b r st' := by
  have eD : (fun id => (st.docMap.get? id).map (sg g hash b r)) = fun id => (D id).map (sg g hash b r) := by
    funext id; rw [K.docs]
  have eD' : (fun id => (st'.docMap.get? id).map (sg g hash b r)) = fun id => (D' id).map (sg g hash b r) := by
    funext id; rw [K'.docs]
  unfold ExactS at E ⊢
  rw [eD] at E
  have E1 := exact_step K.inv E op hc
  have I1 := inv_step K.inv op
  have I2 := K'.inv
  rw [hidx] at I2 ⊢
  rw [eD', Inv.content_unique I2 I1]
  exact E1

theorem ExactS.insert {D : UInt64 → Option Text} {st : StringIndex} (K : InStep g hash ah b r t D st)
    (E : ExactS g hash b r st) (x : Text) (hf : D (st.docId + 1) = none) : ExactS g hash b r (st.insert x).1 := by
  refine exactS_of_step K (K.insert x).2.2 E (.insert (st.docId + 1) (sg g hash b r x)) ?_ ?_
  · unfold StringIndex.insert
    rw [K.sig x]
    rfl
  · intro _
    simp [hf]

theorem ExactS.par {D : UInt64 → Option Text} {st : StringIndex} (K : InStep g hash ah b r t D st)
    (E : ExactS g hash b r st) (ls : List (Option Text)) (hls : ls.all Option.isSome = true) (s1 s2 : List Nat)
    (hnd : ((numbered st.docId 0 (readable ls)).map Prod.fst).Nodup)
    (hf : ∀ p ∈ numbered st.docId 0 (readable ls), D p.1 = none) :
    ExactS g hash b r (st.loadFromFileParallel (some ls) s1 s2).1 := by
  set Q := numbered st.docId 0 (readable ls) with hQ
  set Q' := Q.map fun p => (p.1, sg g hash b r p.2) with hQ'
  have hl : ∀ p ∈ Q', p.2.length = b * r := by
    intro p hp
    obtain ⟨q, _, rfl⟩ := List.mem_map.mp hp
    exact (sg_spec g hash b r q.2).2
  have e1 : (parMap (fun line : UInt64 × Text => (st.signature line.2).map fun s => (line.1, s)) Q s1).mapM
      (fun r => r) = .ok Q' := by
    rw [parMap_eq_map, hQ', ← mapM_ok_map]
    congr 1
    apply List.map_congr_left
    intro p _
    rw [K.sig]
    rfl
  have hacc : accepts (b * r) (.parBulkInsertPairs Q' s2 : Op UInt64 UInt64) = true := by
    simp only [accepts, List.all_eq_true, decide_eq_true_eq]
    intro p hp
    exact (hl p hp).ge
  rcases pairs_eq K.inv Q' s2 with ⟨_, _, e2⟩ | ⟨hn, _⟩
  swap
  · rw [hacc] at hn; cases hn
  refine exactS_of_step K (K.par ls hls s1 s2).2.2 E (.parBulkInsertPairs Q' s2) ?_ ⟨hacc, ?_, ?_⟩
  · show _ = (st.lshIndex.parBulkInsertPairs Q' s2).1
    unfold StringIndex.loadFromFileParallel
    simp only [numberedLines_eq]
    rw [if_pos hls]
    simp only [← hQ]
    rw [e1]
    simp only
    rw [e2]
  · rw [hQ', List.map_map]; exact hnd
  · intro p hp
    obtain ⟨q, hq, rfl⟩ := List.mem_map.mp hp
    simp [hf q hq]

theorem Docs.fresh {st : StringIndex} {P : List (UInt64 × Text)} {last : Bool} (J : Docs st P last) (id : UInt64)
    (h : ∀ p ∈ P, p.1.toNat < id.toNat) : lastPair P id = none := by
  rw [lastPair_none]
  intro p hp e
  have := h p hp
  rw [e] at this
  omega

theorem ExactS.inserts {st : StringIndex} {P : List (UInt64 × Text)} {last : Bool}
    (H : Holds g hash ah b r t st P last) (E : ExactS g hash b r st) (xs : List Text)
    (hn : st.docId.toNat + xs.length < 2 ^ 64) :
    ExactS g hash b r (xs.foldl (fun s x => (s.insert x).1) st) := by
  induction xs generalizing st P last with
  | nil => exact E
  | cons x xs ih =>
    rw [List.length_cons] at hn
    have hnat : (st.docId + 1).toNat = st.docId.toNat + 1 := by
      rw [UInt64.toNat_add]
      exact Nat.mod_eq_of_lt (show st.docId.toNat + 1 < 2 ^ 64 by omega)
    refine ih (H.insert x (by omega)) (E.insert H.1 x (H.2.fresh _ fun p hp => ?_)) ?_
    · have := H.2.le p hp
      omega
    · rw [(H.1.insert x).2.1]
      omega

theorem ExactS.step {st : StringIndex} {P : List (UInt64 × Text)} {last : Bool}
    (H : Holds g hash ah b r t st P last) (E : ExactS g hash b r st) (op : SOp)
    (hn : st.docId.toNat + (added op).length < 2 ^ 64)
    (hmix : added op ≠ [] → SOp.sequential op = false → last = false) : ExactS g hash b r (st.step op) := by
  cases op with
  | insert x => exact E.inserts H [x] hn
  | loadFromLines ls =>
    show ExactS g hash b r (st.loadFromLines ls).1
    rw [H.1.lines]
    exact E.inserts H (readable ls) hn
  | loadFromFile f =>
    cases f with
    | none => exact E
    | some ls =>
      show ExactS g hash b r (st.loadFromFile (some ls)).1
      rw [(H.1.file ls).1]
      exact E.inserts H (readable ls) hn
  | loadFromFileParallel f s1 s2 =>
    cases f with
    | none => exact E
    | some ls =>
      by_cases hls : ls.all Option.isSome = true
      · have ha : added (.loadFromFileParallel (some ls) s1 s2) = readable ls := by
          show (if ls.all Option.isSome = true then readable ls else []) = _
          rw [if_pos hls]
        rw [ha] at hn hmix
        obtain ⟨q1, q2, _⟩ := numbered_facts st.docId 0 (readable ls) (by omega)
        refine E.par H.1 ls hls s1 s2 ?_ ?_
        · rw [List.Nodup, List.pairwise_map]
          exact q1.imp fun h e => by rw [e] at h; omega
        · intro p hp
          have hne : readable ls ≠ [] := by
            rintro h0
            rw [h0] at hp
            cases hp
          refine H.2.fresh _ fun p' hp' => ?_
          have h1 := H.2.lt (hmix hne rfl) p' hp'
          have h2 := (q2 p hp).1
          omega
      · rw [Bool.not_eq_true] at hls
        show ExactS g hash b r (st.loadFromFileParallel (some ls) s1 s2).1
        rw [par_unreadable st ls hls]
        exact E

/-- The answer with multiplicities: each found id contributes its text. -/
theorem InStep.query_counts {st : StringIndex} {P : List (UInt64 × Text)} {last : Bool}
    (H : Holds g hash ah b r t st P last) (o : Order) (q : Text) :
    ∃ ids res, st.lshIndex.query (sg g hash b r q) = .ok ids ∧ st.query o q = .ok res ∧
      (∀ x, res.count x ≤ (P.map Prod.snd).count x) ∧
      (∀ x, (∀ id, lastPair P id = some x → id ∈ ids.elems) → res.count x = (P.map Prod.snd).count x) ∧
      ∀ x, (∀ id, lastPair P id = some x → id ∉ ids.elems) → res.count x = 0 := by
  obtain ⟨K, J⟩ := H
  obtain ⟨ids, _, hq, _, _⟩ := K.query o q
  have hmem := (query_mem K.inv hq).2
  have hD : ∀ id ∈ ids.elems, ∃ x, lastPair P id = some x := by
    intro id hid
    obtain ⟨s, v, h, _⟩ := ((hmem id).mp hid).2
    obtain ⟨x, hx, _⟩ := Option.map_eq_some_iff.mp h
    exact ⟨x, hx⟩
  have hnd : (P.map Prod.fst).Nodup := by
    rw [List.Nodup, List.pairwise_map]
    exact J.sorted.imp fun h e => by rw [e] at h; omega
  have hlp : ∀ p ∈ P, lastPair P p.1 = some p.2 := by
    intro p hp
    cases hl : lastPair P p.1 with
    | none => exact absurd rfl (lastPair_none.mp hl _ hp)
    | some z =>
      have := List.inj_on_of_nodup_map hnd hp (lastPair_mem hl) rfl
      rw [this]
  set I := o.perm ids.elems with hI
  have hIm : ∀ id, id ∈ I ↔ id ∈ ids.elems := fun id => (o.isPerm _).mem_iff
  have hIn : I.Nodup := (o.isPerm _).nodup_iff.mpr ids.nodup
  have hres : st.query o q = .ok (I.map fun id => (lastPair P id).getD []) := by
    unfold StringIndex.query
    rw [K.sig]
    show (do let ids ← st.lshIndex.query (sg g hash b r q); _) = _
    rw [hq]
    show I.mapM (fun id => unwrap (st.docMap.get? id)) = _
    refine mapM_ok _ (fun id => (lastPair P id).getD []) I fun id hid => ?_
    obtain ⟨y, hy⟩ := hD id ((hIm id).mp hid)
    rw [K.docs, hy]
    rfl
  refine ⟨ids, _, hq, hres, ?_⟩
  have hcount : ∀ x, (I.map fun id => (lastPair P id).getD []).count x = (I.filter fun id => lastPair P id = some x).length := by
    intro x
    rw [List.count, List.countP_map, List.countP_eq_length_filter]
    congr 1
    apply List.filter_congr
    intro id hid
    obtain ⟨y, hy⟩ := hD id ((hIm id).mp hid)
    rw [Function.comp, hy, Option.getD_some]
    by_cases e : y = x
    · subst e; simp
    · simp [e]
  have hcountP : ∀ x, (P.map Prod.snd).count x = ((P.map Prod.fst).filter fun id => lastPair P id = some x).length := by
    intro x
    rw [List.count, List.countP_map, ← List.countP_eq_length_filter, List.countP_map]
    apply List.countP_congr
    intro p hp
    simp [hlp p hp, Function.comp]
  have hsub : ∀ id ∈ I, id ∈ P.map Prod.fst := by
    intro id hid
    obtain ⟨y, hy⟩ := hD id ((hIm id).mp hid)
    exact List.mem_map.mpr ⟨_, lastPair_mem hy, rfl⟩
  refine ⟨fun x => ?_, fun x hx => ?_, fun x hx => ?_⟩
  · rw [hcount, hcountP]
    exact (List.subperm_of_subset (hIn.filter _) fun id hid => by
      rw [List.mem_filter] at hid ⊢
      exact ⟨hsub id hid.1, hid.2⟩).length_le
  · rw [hcount, hcountP]
    refine ((List.perm_ext_iff_of_nodup (hIn.filter _) (hnd.filter _)).mpr fun id => ?_).length_eq
    rw [List.mem_filter, List.mem_filter]
    simp only [decide_eq_true_eq]
    exact ⟨fun h => ⟨hsub id h.1, h.2⟩, fun h => ⟨(hIm id).mpr (hx id h.2), h.2⟩⟩
  · rw [hcount, List.length_eq_zero_iff, List.filter_eq_nil_iff]
    intro id hid
    simp only [decide_eq_true_eq]
    exact fun e => hx id e ((hIm id).mp hid)

end
end Verif
