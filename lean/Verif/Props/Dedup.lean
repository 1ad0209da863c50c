import Verif.Model.Notebook
import Verif.Props.PythonMetamorphic
import Verif.Props.SimHashIndex
import Verif.Lemmas.Dedup

/-! # Properties C127 and C128: deduplication -/
set_option linter.unusedSectionVars false
namespace Verif.Props
open Verif.Spec

/-! ## C127: the notebook -/

theorem pyLive_bulk {ids : List Int64} {docs : List PyText} (hnd : ids.Nodup) (s1 s2 : List Nat) (id : Int64)
    (d : PyText) : pyLive [.parBulkInsertDocs ids docs s1 s2] id = some d ↔ (id, d) ∈ ids.zip docs := by
  have hz : ((ids.zip docs).map Prod.fst).Nodup := by
    have hs : ∀ (l1 : List Int64) (l2 : List PyText), ((l1.zip l2).map Prod.fst).Sublist l1 := by
      intro l1
      induction l1 with
      | nil => intro l2; simp
      | cons x l1 ih =>
        intro l2
        cases l2 with
        | nil => simp
        | cons y l2 => simpa using ih l2
    exact hnd.sublist (hs _ _)
  have e : pyLive [.parBulkInsertDocs ids docs s1 s2] id = lastDoc (ids.zip docs) id := by
    simp only [pyLive, pyTouch, List.reverse_cons, List.reverse_nil, List.nil_append, List.findSome?_cons,
      List.findSome?_nil]
    cases lastDoc (ids.zip docs) id <;> rfl
  rw [e]
  unfold lastDoc
  generalize ids.zip docs = ps at hz
  constructor
  · intro h
    obtain ⟨p, h1, h2⟩ := Option.map_eq_some_iff.mp h
    have hm := List.mem_of_find?_eq_some h1
    have hp := List.find?_some h1
    simp only [decide_eq_true_eq] at hp
    rw [List.mem_reverse] at hm
    rwa [← hp, ← h2]
  · intro h
    cases hf : ps.reverse.find? fun p => p.1 = id with
    | none =>
      have := List.find?_eq_none.mp hf (id, d) (List.mem_reverse.mpr h)
      simp at this
    | some p =>
      have hm := List.mem_reverse.mp (List.mem_of_find?_eq_some hf)
      have hp := List.find?_some hf
      simp only [decide_eq_true_eq] at hp
      have : p = (id, d) := List.inj_on_of_nodup_map hz hm h hp
      rw [this]; rfl

theorem mapM_ok_exc {ε α β : Type} (f : α → Except ε β) (g : α → β) (l : List α) (h : ∀ a ∈ l, f a = .ok (g a)) :
    l.mapM f = .ok (l.map g) := by
  induction l with
  | nil => rfl
  | cons a l ih =>
    rw [List.mapM_cons, h a (by simp), ih fun x hx => h x (by simp [hx])]
    rfl

/-- C127: for distinct ids the notebook runs without an exception and gives one list per row; a list names exactly the
other rows whose document shares a band hash and reaches the threshold, each once; the relation is symmetric, and rows
with the same features name each other. -/
theorem C127_notebook (env : PyMinEnv) (ahash : (h : HashSize) → List h.T → UInt64) (a : PyMinArgs)
    (obj : PyMinObject) (h : PyMinObject.init env ahash a = .ok obj) (hg : GoodSizes a)
    (ht : a.jaccardThreshold ≠ .nan) (b r : Nat) (hp : BandParams env a b r) (rows : List (Int64 × PyText))
    (hnd : (rows.map Prod.fst).Nodup) (ha : AnalyzerReturns env a (rows.map Prod.snd)) (o1 o2 : Order)
    (s1 s2 s3 s4 : List Nat) :
    ∃ L : List (List Int64),
      notebookDuplicates env o1 o2 obj.index (rows.map Prod.fst) (rows.map Prod.snd) s1 s2 s3 s4 = .ok L ∧
      L.length = rows.length ∧
      (∀ (i : Nat) (p : Int64 × PyText) (l : List Int64), rows[i]? = some p → L[i]? = some l →
        l.Nodup ∧ p.1 ∉ l ∧ ∀ x, x ∈ l ↔ ∃ p' ∈ rows, p'.1 = x ∧ x ≠ p.1 ∧
          ∃ (s s' : List obj.hashSize.T) (v : Fl), SigOf env a (b * r) p.2 s ∧ SigOf env a (b * r) p'.2 s' ∧
            (∃ k < b, ahash obj.hashSize (bandOf r s k) = ahash obj.hashSize (bandOf r s' k)) ∧
            minhashSimilarity s s' = .ok v ∧ Fl.ge v a.jaccardThreshold = true) ∧
      (∀ (i j : Nat) (p p' : Int64 × PyText) (l l' : List Int64), rows[i]? = some p → rows[j]? = some p' →
        L[i]? = some l → L[j]? = some l' → (p'.1 ∈ l ↔ p.1 ∈ l')) ∧
      ∀ (i j : Nat) (p p' : Int64 × PyText) (l : List Int64), rows[i]? = some p → rows[j]? = some p' →
        L[i]? = some l → i ≠ j → pyFeatures env a p.2 = pyFeatures env a p'.2 → p'.1 ∈ l := by
  obtain ⟨hb, hr, hn, hthr⟩ := init_good h hg ht hp
  set ids := rows.map Prod.fst with hids
  set docs := rows.map Prod.snd with hdocs
  have hzip : ids.zip docs = rows := by
    rw [hids, hdocs]; exact List.zip_map' .. |>.trans (by simp)
  let pops : List PyMinOp := [.parBulkInsertDocs ids docs s1 s2]
  have hdp : pops.flatMap pyDocs = docs := by simp [pops, pyDocs]
  have hlive : ∀ id d, pyLive pops id = some d ↔ (id, d) ∈ rows := fun id d => by
    rw [← hzip]; exact pyLive_bulk hnd s1 s2 id d
  have hc : PyClean pops := by
    intro pre op post e
    obtain ⟨rfl, rfl, rfl⟩ : pre = [] ∧ op = .parBulkInsertDocs ids docs s1 s2 ∧ post = [] := by
      rcases pre with _ | ⟨x, pre⟩
      · simp only [pops, List.nil_append, List.cons.injEq] at e
        exact ⟨rfl, e.1.symm, e.2.symm⟩
      · simp [pops] at e
    refine ⟨by rw [hzip]; exact hnd, fun p _ => rfl⟩
  have hins : (obj.index.parBulkInsertDocs env ids docs s1 s2).2 = .ok () :=
    C80_calls_return env ahash a obj h [] (.parBulkInsertDocs ids docs s1 s2) (by simpa [pyDocs] using ha)
  have hrun : obj.index.run env pops = (obj.index.parBulkInsertDocs env ids docs s1 s2).1 := rfl
  obtain ⟨ls, hls, hall⟩ := C82_bulk_query_returns env ahash a obj h pops docs ha o1 o2 s3 s4
  have hlen : ls.length = rows.length := by rw [← hall.length_eq, hdocs, List.length_map]
  -- the answer of a row
  have key : ∀ p ∈ rows, ∃ (l : List Int64) (q : List obj.hashSize.T), SigOf env a (b * r) p.2 q ∧
      (obj.index.run env pops).query env o1 o2 p.2 false = .ok (.ids l) ∧ l.Nodup ∧ p.1 ∈ l ∧
      ∀ id, id ∈ l ↔ ∃ d s v, (id, d) ∈ rows ∧ SigOf env a (b * r) d s ∧
        (∃ i < b, ahash obj.hashSize (bandOf r s i) = ahash obj.hashSize (bandOf r q i)) ∧
        minhashSimilarity s q = .ok v ∧ Fl.ge v a.jaccardThreshold = true := by
    intro p hp'
    obtain ⟨l, q, e1, e2, e3, _, _, e4⟩ := C80_query env ahash a obj h b r hp pops p.2 (ha.mono fun d hd => by
      rw [hdp] at hd
      rcases List.mem_cons.mp hd with rfl | hd
      · exact List.mem_map_of_mem hp'
      · exact hd) o1 o2
    obtain ⟨l', e5, e6⟩ := C80_finds_current env ahash a obj h hg ht pops (by rw [hdp]; exact ha) p.1 p.2
      ((hlive _ _).mpr hp') o1 o2
    rw [e2] at e5
    cases e5
    refine ⟨l, q, e1, e2, e3, e6, fun id => ?_⟩
    rw [e4 hc id]
    simp only [hlive]
  have uniq : ∀ d s s', SigOf env a (T := obj.hashSize.T) (b * r) d s → SigOf env a (b * r) d s' → s = s' := by
    intro d s s' h3 h4
    exact Except.ok.inj (((sigOf_iff h hp d s).mpr h3).symm.trans ((sigOf_iff h hp d s').mpr h4))
  have rowAns : ∀ (i : Nat) (p : Int64 × PyText), rows[i]? = some p → ∃ l : List Int64, ls[i]? = some (.ids l) ∧
      (obj.index.run env pops).query env o1 o2 p.2 false = .ok (.ids l) := by
    intro i p hi
    have hi' := (List.getElem?_eq_some_iff.mp hi).1
    obtain ⟨l, q, _, e2, _⟩ := key p (List.mem_of_getElem? hi)
    have hd : docs[i]? = some p.2 := by rw [hdocs, List.getElem?_map, hi]; rfl
    have := (List.forall₂_iff_get.mp hall).2 i (by rw [hdocs, List.length_map]; exact hi') (by rw [hlen]; exact hi')
    simp only [List.get_eq_getElem] at this
    rw [(List.getElem?_eq_some_iff.mp hd).2, e2] at this
    refine ⟨l, ?_, e2⟩
    rw [List.getElem?_eq_getElem (by rw [hlen]; exact hi'), ← Except.ok.inj this]
  have hL : (ids.zip ls).mapM (fun p => listRemove p.2.idList p.1) =
      .ok ((ids.zip ls).map fun p => p.2.idList.erase p.1) := by
    apply mapM_ok_exc
    rintro ⟨x, ans⟩ hx
    obtain ⟨i, hi⟩ := List.mem_iff_getElem?.mp hx
    rw [List.getElem?_zip_eq_some] at hi
    obtain ⟨h1, h2⟩ := hi
    rw [hids, List.getElem?_map] at h1
    obtain ⟨p, h3, rfl⟩ := Option.map_eq_some_iff.mp h1
    obtain ⟨l, h4, h5⟩ := rowAns i p h3
    rw [h2] at h4
    cases h4
    obtain ⟨l', q, _, e2, _, e4, _⟩ := key p (List.mem_of_getElem? h3)
    rw [h5] at e2
    cases e2
    exact if_pos e4
  refine ⟨(ids.zip ls).map fun p => p.2.idList.erase p.1, ?_, ?_, ?_⟩
  · unfold notebookDuplicates
    simp only
    rw [hins]
    show (do
      let answers ← (obj.index.parBulkInsertDocs env ids docs s1 s2).1.parBulkQuery env o1 o2 docs false s3 s4
      (ids.zip answers).mapM fun p : Int64 × PyMinAnswer => listRemove p.2.idList p.1) = _
    rw [← hrun, hls]
    exact hL
  · rw [List.length_map, List.length_zip, hlen, hids, List.length_map, Nat.min_self]
  have hrow : ∀ (i : Nat) (p : Int64 × PyText) (l : List Int64), rows[i]? = some p → ((ids.zip ls).map fun p => p.2.idList.erase p.1)[i]? = some l →
      ∃ l' : List Int64, l = l'.erase p.1 ∧ (obj.index.run env pops).query env o1 o2 p.2 false = .ok (.ids l') := by
    intro i p l hi hl
    obtain ⟨l', h4, h5⟩ := rowAns i p hi
    refine ⟨l', ?_, h5⟩
    rw [List.getElem?_map] at hl
    obtain ⟨z, h6, h7⟩ := Option.map_eq_some_iff.mp hl
    obtain ⟨h8, h9⟩ := List.getElem?_zip_eq_some.mp h6
    rw [h4] at h9
    rw [hids, List.getElem?_map, hi] at h8
    rw [← h7, ← Option.some.inj h9, ← Option.some.inj h8]
    rfl
  have main : ∀ (i : Nat) (p : Int64 × PyText) (l : List Int64), rows[i]? = some p →
      ((ids.zip ls).map fun p => p.2.idList.erase p.1)[i]? = some l →
        l.Nodup ∧ p.1 ∉ l ∧ ∀ x, x ∈ l ↔ ∃ p' ∈ rows, p'.1 = x ∧ x ≠ p.1 ∧
          ∃ (s s' : List obj.hashSize.T) (v : Fl), SigOf env a (b * r) p.2 s ∧ SigOf env a (b * r) p'.2 s' ∧
            (∃ k < b, ahash obj.hashSize (bandOf r s k) = ahash obj.hashSize (bandOf r s' k)) ∧
            minhashSimilarity s s' = .ok v ∧ Fl.ge v a.jaccardThreshold = true := by
    intro i p l hi hl
    obtain ⟨l', rfl, h5⟩ := hrow i p l hi hl
    obtain ⟨l'', q, e1, e2, e3, e4, e5⟩ := key p (List.mem_of_getElem? hi)
    rw [h5] at e2
    cases e2
    refine ⟨e3.erase _, e3.not_mem_erase, fun x => ?_⟩
    rw [e3.mem_erase_iff, e5]
    constructor
    · rintro ⟨hne, d, s, v, f1, f2, ⟨k, hk, f3⟩, f4, f5⟩
      refine ⟨(x, d), f1, rfl, hne, q, s, v, e1, f2, ⟨k, hk, f3.symm⟩, ?_, f5⟩
      rw [minhashSimilarity_comm]; exact f4
    · rintro ⟨p', f1, rfl, hne, s, s', v, f2, f3, ⟨k, hk, f4⟩, f5, f6⟩
      rw [uniq _ _ _ f2 e1] at f4 f5
      refine ⟨hne, p'.2, s', v, f1, f3, ⟨k, hk, f4.symm⟩, ?_, f6⟩
      rw [minhashSimilarity_comm]; exact f5
  refine ⟨main, ?_, ?_⟩
  · intro i j p p' l l' hi hj hl hl'
    obtain ⟨_, _, m1⟩ := main i p l hi hl
    obtain ⟨_, _, m2⟩ := main j p' l' hj hl'
    rw [m1, m2]
    have inj : ∀ x ∈ rows, ∀ y ∈ rows, x.1 = y.1 → x = y := fun x hx y hy e =>
      List.inj_on_of_nodup_map hnd hx hy e
    constructor
    · rintro ⟨x, hx, hxe, hne, s, s', v, f2, f3, ⟨k, hk, f4⟩, f5, f6⟩
      cases inj x hx p' (List.mem_of_getElem? hj) hxe
      exact ⟨p, List.mem_of_getElem? hi, rfl, hne.symm, s', s, v, f3, f2, ⟨k, hk, f4.symm⟩,
        by rw [minhashSimilarity_comm]; exact f5, f6⟩
    · rintro ⟨x, hx, hxe, hne, s, s', v, f2, f3, ⟨k, hk, f4⟩, f5, f6⟩
      cases inj x hx p (List.mem_of_getElem? hi) hxe
      exact ⟨p', List.mem_of_getElem? hj, rfl, hne.symm, s', s, v, f3, f2, ⟨k, hk, f4.symm⟩,
        by rw [minhashSimilarity_comm]; exact f5, f6⟩
  · intro i j p p' l hi hj hl hij hf
    obtain ⟨_, _, m1⟩ := main i p l hi hl
    rw [m1]
    obtain ⟨l0, q, e1, _⟩ := key p (List.mem_of_getElem? hi)
    have hql : q.length = b * r := by
      obtain ⟨hh, _⟩ := content_rep h hp [] (by simpa using ha.mono (by simp))
      exact PyMinIndex.sig_length hh.hasher ((sigOf_iff h hp p.2 q).mpr e1)
    have h0 : 0 < b * r := Nat.mul_pos hb hr
    refine ⟨p', List.mem_of_getElem? hj, rfl, ?_, q, q, .fin 1, e1, ?_, ⟨0, by omega, rfl⟩, ?_, ?_⟩
    · intro e
      have e' : ids[i]? = ids[j]? := by
        rw [hids, List.getElem?_map, List.getElem?_map, hi, hj]; simp [e]
      exact hij ((List.getElem?_inj (by rw [hids, List.length_map]; exact (List.getElem?_eq_some_iff.mp hi).1) hnd).mp e')
    · obtain ⟨toks, g1, g2⟩ := e1
      exact ⟨toks, hf ▸ g1, g2⟩
    · exact self_similarity q (by omega) (by omega)
    · exact hthr

theorem exNotebook : (PyMinObject.init exPyMinEnv exAhash exArgs).toOption.map (fun obj =>
    ((notebookDuplicates exPyMinEnv .id .id obj.index [1, 2, 3] ["a b".toList, "c".toList, "A b".toList] [] [] [] []).toOption,
      match notebookDuplicates exPyMinEnv .id .id obj.index [1, 1] ["a b".toList, "c".toList] [] [] [] [] with
      | .ok _ => none
      | .error e => some (decide (e = .valueError)))) = some (some [[3], [], [1]], some true) := by decide +kernel

/-- The hypotheses are met, and the notebook gives the lists one expects: rows 1 and 3 are duplicates. -/
example : ∃ obj, PyMinObject.init exPyMinEnv exAhash exArgs = .ok obj ∧ GoodSizes exArgs ∧
    exArgs.jaccardThreshold ≠ .nan ∧ BandParams exPyMinEnv exArgs 4 2 ∧
    AnalyzerReturns exPyMinEnv exArgs ["a b".toList, "c".toList, "A b".toList] ∧
    (notebookDuplicates exPyMinEnv .id .id obj.index [1, 2, 3] ["a b".toList, "c".toList, "A b".toList] [] [] [] []).toOption =
      some [[3], [], [1]] := by
  obtain ⟨obj, h⟩ := exArgs_ok exPyMinEnv exAhash
  refine ⟨obj, h, .inl ⟨4, 2, rfl, rfl, by decide, by decide, by decide⟩, by decide, .inl ⟨4, 2, rfl, rfl, rfl, rfl⟩, trivial, ?_⟩
  have e := exNotebook
  rw [h] at e
  exact congrArg Prod.fst (Option.some.inj e)

/-- C127 needs distinct ids: with a repeated id the first row may not be found any more, and `remove` raises. -/
theorem C127_repeated_ids : ∃ obj, PyMinObject.init exPyMinEnv exAhash exArgs = .ok obj ∧
    notebookDuplicates exPyMinEnv .id .id obj.index [1, 1] ["a b".toList, "c".toList] [] [] [] [] =
      .error .valueError := by
  obtain ⟨obj, h⟩ := exArgs_ok exPyMinEnv exAhash
  refine ⟨obj, h, ?_⟩
  have e := exNotebook
  rw [h] at e
  have e' := congrArg Prod.snd (Option.some.inj e)
  simp only at e'
  cases hx : notebookDuplicates exPyMinEnv .id .id obj.index [1, 1] ["a b".toList, "c".toList] [] [] [] [] with
  | ok l => rw [hx] at e'; cases e'
  | error x =>
    rw [hx] at e'
    rw [of_decide_eq_true (Option.some.inj e')]

/-! ## C128: one pass over the documents -/

section minhash
variable {T Id C : Type} [DecidableEq T] [DecidableEq Id] [IdContainer C Id] [LawfulIdContainer C Id]

/-- Two signatures share a band hash and reach the threshold. -/
def NearMin (b r : Nat) (t : Fl) (h : List T → UInt64) (s q : List T) : Prop :=
  (∃ i < b, h (bandOf r s i) = h (bandOf r q i)) ∧ ∃ v, minhashSimilarity s q = .ok v ∧ Fl.ge v t = true

theorem nearMin_symm {b r : Nat} {t : Fl} {h : List T → UInt64} (s q : List T) (hn : NearMin b r t h s q) :
    NearMin b r t h q s := by
  obtain ⟨⟨i, hi, e⟩, v, h1, h2⟩ := hn
  exact ⟨⟨i, hi, e.symm⟩, v, by rw [minhashSimilarity_comm]; exact h1, h2⟩

theorem clean_snoc_insert {n : Nat} {ops : List (Op T Id)} (h : Clean n ops) (id : Id) (s : List T)
    (h' : live n ops id = none) : Clean n (ops ++ [.insert id s]) := by
  intro pre o post e
  rcases List.eq_nil_or_concat post with rfl | ⟨post', x, rfl⟩
  · obtain ⟨rfl, e2⟩ := List.append_inj' e rfl
    cases e2
    exact fun _ => h'
  · rw [List.concat_eq_append, ← List.cons_append, ← List.append_assoc] at e
    obtain ⟨e1, _⟩ := List.append_inj' e rfl
    exact h pre o post' e1

/-- C128 for the MinHash index: for distinct ids and signatures of the right length, the loop runs without a panic and
keeps exactly the documents that are not near a document kept before; no two kept documents are near, every other
document is near a kept one; the final index holds exactly the kept documents, and if the threshold is at most 1, a kept
document finds exactly itself and every document finds something. -/
theorem C128_minhash (b r : Nat) (t : Fl) (h : List T → UInt64) (docs : List (Id × List T))
    (hnd : (docs.map Prod.fst).Nodup) (hl : ∀ p ∈ docs, p.2.length = b * r) :
    ∃ (idx : MinHashIndex T Id C) (kept : List (Id × List T)),
      keepNew (fun (i : MinHashIndex T Id C) q => (i.queryOwned q).map HSet.elems) MinHashIndex.insert
        (MinHashIndex.newIndex b r t h) docs = .ok (idx, kept) ∧
      FirstFit (NearMin b r t h) docs kept ∧
      (∀ k ∈ kept, ∀ k' ∈ kept, k ≠ k' → ¬ NearMin b r t h k.2 k'.2) ∧
      (∀ p ∈ docs, p ∉ kept → ∃ k ∈ kept, NearMin b r t h k.2 p.2) ∧
      (∀ q, q.length = b * r → ∃ res, idx.queryOwned q = .ok res ∧
        ∀ id, id ∈ res.elems ↔ ∃ s, (id, s) ∈ kept ∧ NearMin b r t h s q) ∧
      (0 < b * r → b * r < 2 ^ 64 → Fl.ge (.fin 1) t = true →
        (∀ k ∈ kept, ∃ res, idx.queryOwned k.2 = .ok res ∧ ∀ id, id ∈ res.elems ↔ id = k.1) ∧
        ∀ p ∈ docs, ∃ res, idx.queryOwned p.2 = .ok res ∧ res.elems ≠ []) := by
  obtain ⟨idx, kept, e1, e2, e3⟩ := keepNew_fresh (Id := Id) (ε := Panic)
    (query := fun (i : MinHashIndex T Id C) q => (i.queryOwned q).map HSet.elems) (insert := MinHashIndex.insert)
    (fun i L => ∃ ops, Clean (b * r) ops ∧ RightLengths (b * r) ops ∧ i = After C b r t h ops ∧ live (b * r) ops = L)
    (fun s => s.length = b * r) (NearMin b r t h)
    (by
      rintro st L q ⟨ops, hc, hr, rfl, rfl⟩ hq
      obtain ⟨res, _, g2⟩ := C17_query_returns (C := C) b r t h ops q hr hq
      refine ⟨res.elems, by rw [g2]; rfl, fun id => ?_⟩
      rw [C18_exact b r t h ops q hc res g2 id]
      constructor
      · rintro ⟨s, v, f1, f2, f3, f4⟩; exact ⟨s, f1, f2, v, f3, f4⟩
      · rintro ⟨s, f1, f2, v, f3, f4⟩; exact ⟨s, v, f1, f2, f3, f4⟩)
    (by
      rintro st L id s ⟨ops, hc, hr, rfl, rfl⟩ hs hn
      refine ⟨by rw [insert_eq (inv_run (C := C) h b r t ops) id s hs], ops ++ [.insert id s],
        clean_snoc_insert hc id s hn, ?_, ?_, ?_⟩
      · intro op hop x hx
        rcases List.mem_append.mp hop with hop | hop
        · exact hr op hop x hx
        · cases List.mem_singleton.mp hop
          rw [List.mem_singleton.mp hx]; exact hs
      · unfold After
        rw [run_snoc]; rfl
      · rw [live_snoc]
        funext id'
        by_cases e : id' = id
        · subst e; simp [applyL, touch, hs, Function.update_self]
        · simp [applyL, touch, hs, Function.update_of_ne e, Ne.symm e])
    docs (MinHashIndex.newIndex b r t h)
    ⟨[], by intro pre op post e; simp at e, (by intro op hop; cases hop), rfl, rfl⟩ hnd hl
  have e3' : ∀ q : List T, q.length = b * r → ∃ res, idx.queryOwned q = .ok res ∧
        ∀ id, id ∈ res.elems ↔ ∃ s, (id, s) ∈ kept ∧ NearMin b r t h s q := by
    intro q hq
    obtain ⟨l, f1, f2⟩ := e3 q hq
    cases hx : idx.queryOwned q with
    | error e => rw [hx] at f1; cases f1
    | ok res => rw [hx] at f1; cases f1; exact ⟨res, rfl, f2⟩
  obtain ⟨s1, s2⟩ := e2.separated hnd nearMin_symm
  refine ⟨idx, kept, e1, e2, s1, s2, e3', fun h0 hn ht => ?_⟩
  obtain ⟨a1, a2⟩ := e2.answers hnd nearMin_symm fun p hp =>
    ⟨⟨0, Nat.pos_of_mul_pos_right h0, rfl⟩, .fin 1, self_similarity p.2 (by rw [hl p hp]; exact h0) (by rw [hl p hp]; exact hn), ht⟩
  refine ⟨fun k hk => ?_, fun p hp => ?_⟩
  · obtain ⟨res, f1, f2⟩ := e3' k.2 (hl k (e2.sub.subset hk))
    exact ⟨res, f1, fun id => by rw [f2, a1 k hk]⟩
  · obtain ⟨res, f1, f2⟩ := e3' p.2 (hl p hp)
    obtain ⟨k, hk, hk'⟩ := a2 p hp
    exact ⟨res, f1, List.ne_nil_of_mem ((f2 k.1).mpr ⟨k.2, hk, hk'⟩)⟩

end minhash

/-- The hypotheses are met, and one document of three is dropped. -/
example : ([(1, [1, 2, 3, 4]), (2, [1, 2, 9, 9]), (3, [7, 7, 9, 9])].map (Prod.fst (α := Nat) (β := List Nat))).Nodup ∧
    (keepNew (fun (i : MinHashIndex Nat Nat (VecContainer Nat)) q => (i.queryOwned q).map HSet.elems) MinHashIndex.insert
      (MinHashIndex.newIndex 2 2 (.fin (1 / 2)) exHash)
      [(1, [1, 2, 3, 4]), (2, [1, 2, 9, 9]), (3, [7, 7, 9, 9])]).toOption.map Prod.snd =
      some [(1, [1, 2, 3, 4]), (3, [7, 7, 9, 9])] := by
  constructor <;> decide +kernel

/-- C128: what is kept depends on the order. The same three documents, with the middle one first, leave one. -/
theorem C128_order_dependent : ∃ (docs docs' : List (Nat × List Nat)), docs.Perm docs' ∧
    (keepNew (fun (i : MinHashIndex Nat Nat (VecContainer Nat)) q => (i.queryOwned q).map HSet.elems) MinHashIndex.insert
      (MinHashIndex.newIndex 2 2 (.fin (1 / 2)) exHash) docs).toOption.map (fun z => z.2.length) = some 2 ∧
    (keepNew (fun (i : MinHashIndex Nat Nat (VecContainer Nat)) q => (i.queryOwned q).map HSet.elems) MinHashIndex.insert
      (MinHashIndex.newIndex 2 2 (.fin (1 / 2)) exHash) docs').toOption.map (fun z => z.2.length) = some 1 :=
  ⟨[(1, [1, 2, 3, 4]), (2, [1, 2, 9, 9]), (3, [7, 7, 9, 9])], [(2, [1, 2, 9, 9]), (1, [1, 2, 3, 4]), (3, [7, 7, 9, 9])],
    List.Perm.swap .., by decide +kernel, by decide +kernel⟩

section simhash
variable {w : Nat} {Id : Type} [DecidableEq Id]

theorem diffBits_comm (x y : BitVec w) : diffBits x y = diffBits y x := by
  ext i; simp [diffBits, ne_comm]

theorem assigned_append (ops ops' : List (SimOp w Id)) : assigned (ops ++ ops') = assigned ops ++ assigned ops' := by
  induction ops with
  | nil => rfl
  | cons op ops ih => cases op <;> simp [assigned, ih]

/-- C128 for the SimHash index; here every non-zero distance makes a document find itself. -/
theorem C128_simhash {fuel nb d : Nat} {idx : SimIndex w Id} (h : SimIndex.new fuel w Id nb d = .ok idx)
    (docs : List (Id × BitVec w)) (hnd : (docs.map Prod.fst).Nodup) :
    ∃ (idx' : SimIndex w Id) (kept : List (Id × BitVec w)),
      keepNew (fun (i : SimIndex w Id) q => (i.queryOwned q).map HSet.elems) (fun i id s => (i.insert id s, .ok ()))
        idx docs = .ok (idx', kept) ∧
      FirstFit (fun s q => (diffBits s q).card < d) docs kept ∧
      (∀ k ∈ kept, ∀ k' ∈ kept, k ≠ k' → d ≤ (diffBits k.2 k'.2).card) ∧
      (∀ p ∈ docs, p ∉ kept → ∃ k ∈ kept, (diffBits k.2 p.2).card < d) ∧
      (∀ q, ∃ res, idx'.queryOwned q = .ok res ∧
        ∀ id, id ∈ res.elems ↔ ∃ s, (id, s) ∈ kept ∧ (diffBits s q).card < d) ∧
      (0 < d → (∀ k ∈ kept, ∃ res, idx'.queryOwned k.2 = .ok res ∧ ∀ id, id ∈ res.elems ↔ id = k.1) ∧
        ∀ p ∈ docs, ∃ res, idx'.queryOwned p.2 = .ok res ∧ res.elems ≠ []) := by
  have hsy : ∀ x y : BitVec w, (diffBits x y).card < d → (diffBits y x).card < d := fun x y hxy => by
    rwa [diffBits_comm]
  obtain ⟨idx', kept, e1, e2, e3⟩ := keepNew_fresh (Id := Id) (ε := Panic)
    (query := fun (i : SimIndex w Id) q => (i.queryOwned q).map HSet.elems)
    (insert := fun i id s => (i.insert id s, .ok ()))
    (fun i L => ∃ ops, i = idx.run ops ∧ lastSig (assigned ops) = L)
    (fun _ => True) (fun s q => (diffBits s q).card < d)
    (by
      rintro st L q ⟨ops, rfl, rfl⟩ -
      obtain ⟨res, _, g2, g3⟩ := C51_query_exact h ops q
      refine ⟨res.elems, by rw [g2]; rfl, fun id => ?_⟩
      rw [g3]
      simp only [diffBits_comm q])
    (by
      rintro st L id s ⟨ops, rfl, rfl⟩ - hn
      refine ⟨rfl, ops ++ [.insert id s], ?_, ?_⟩
      · simp [SimIndex.run, SimIndex.step]
      · rw [assigned_append]
        funext id'
        by_cases e : id' = id
        · subst e; simp [lastSig, assigned, Function.update_self]
        · rw [Function.update_of_ne e]
          simp [lastSig, assigned, Ne.symm e])
    docs idx ⟨[], rfl, rfl⟩ hnd (fun _ _ => trivial)
  have e3' : ∀ q : BitVec w, ∃ res, idx'.queryOwned q = .ok res ∧
        ∀ id, id ∈ res.elems ↔ ∃ s, (id, s) ∈ kept ∧ (diffBits s q).card < d := by
    intro q
    obtain ⟨l, f1, f2⟩ := e3 q trivial
    cases hx : idx'.queryOwned q with
    | error e => rw [hx] at f1; cases f1
    | ok res => rw [hx] at f1; cases f1; exact ⟨res, rfl, f2⟩
  obtain ⟨s1, s2⟩ := e2.separated hnd hsy
  refine ⟨idx', kept, e1, e2, fun k hk k' hk' hne => Nat.le_of_not_lt (s1 k hk k' hk' hne), s2, e3', fun hd => ?_⟩
  obtain ⟨a1, a2⟩ := e2.answers hnd hsy fun p _ => by simpa [diffBits] using hd
  refine ⟨fun k hk => ?_, fun p hp => ?_⟩
  · obtain ⟨res, f1, f2⟩ := e3' k.2
    exact ⟨res, f1, fun id => by rw [f2, a1 k hk]⟩
  · obtain ⟨res, f1, f2⟩ := e3' p.2
    obtain ⟨k, hk, hk'⟩ := a2 p hp
    exact ⟨res, f1, List.ne_nil_of_mem ((f2 k.1).mpr ⟨k.2, hk, hk'⟩)⟩

end simhash

/-- The hypotheses are met: an index is made, and one of four signatures is dropped. -/
example : (SimIndex.new 64 64 Nat 4 2).toOption.map (fun idx =>
    (keepNew (fun (i : SimIndex 64 Nat) q => (i.queryOwned q).map HSet.elems) (fun i id s => (i.insert id s, .ok ()))
      idx [(1, 0#64), (2, 1#64), (3, 3#64), (4, 15#64)]).toOption.map Prod.snd) =
    some (some [(1, 0#64), (3, 3#64), (4, 15#64)]) := by decide +kernel

/-- Two documents share a band hash and reach the threshold, under constructor arguments `a`. -/
def NearPy (env : PyMinEnv) (ahash : (h : HashSize) → List h.T → UInt64) (a : PyMinArgs) (hs : HashSize) (b r : Nat)
    (d q : PyText) : Prop :=
  ∃ (s s' : List hs.T) (v : Fl), SigOf env a (b * r) d s ∧ SigOf env a (b * r) q s' ∧
    (∃ k < b, ahash hs (bandOf r s k) = ahash hs (bandOf r s' k)) ∧
    minhashSimilarity s s' = .ok v ∧ Fl.ge v a.jaccardThreshold = true

theorem nearPy_symm {env : PyMinEnv} {ahash : (h : HashSize) → List h.T → UInt64} {a : PyMinArgs} {hs : HashSize}
    {b r : Nat} (d q : PyText) (h : NearPy env ahash a hs b r d q) : NearPy env ahash a hs b r q d := by
  obtain ⟨s, s', v, h1, h2, ⟨k, hk, h3⟩, h4, h5⟩ := h
  exact ⟨s', s, v, h2, h1, ⟨k, hk, h3.symm⟩, by rw [minhashSimilarity_comm]; exact h4, h5⟩

/-- C128 for the Python index, with documents. -/
theorem C128_python (env : PyMinEnv) (ahash : (h : HashSize) → List h.T → UInt64) (a : PyMinArgs)
    (obj : PyMinObject) (h : PyMinObject.init env ahash a = .ok obj) (hg : GoodSizes a)
    (ht : a.jaccardThreshold ≠ .nan) (b r : Nat) (hp : BandParams env a b r) (rows : List (Int64 × PyText))
    (hnd : (rows.map Prod.fst).Nodup) (ha : AnalyzerReturns env a (rows.map Prod.snd)) (o1 o2 : Order) :
    ∃ (st : PyMinIndex obj.hashSize.T obj.container.C) (kept : List (Int64 × PyText)),
      keepNew (fun (i : PyMinIndex obj.hashSize.T obj.container.C) d => (i.query env o1 o2 d false).map PyMinAnswer.idList)
        (fun i id d => i.insertDocument env id d) obj.index rows = .ok (st, kept) ∧
      FirstFit (NearPy env ahash a obj.hashSize b r) rows kept ∧
      (∀ k ∈ kept, ∀ k' ∈ kept, k ≠ k' → ¬ NearPy env ahash a obj.hashSize b r k.2 k'.2) ∧
      (∀ p ∈ rows, p ∉ kept → ∃ k ∈ kept, NearPy env ahash a obj.hashSize b r k.2 p.2) ∧
      (∀ k ∈ kept, ∃ l, st.query env o1 o2 k.2 false = .ok (.ids l) ∧ ∀ id, id ∈ l ↔ id = k.1) ∧
      ∀ p ∈ rows, ∃ l, st.query env o1 o2 p.2 false = .ok (.ids l) ∧ l ≠ [] := by
  obtain ⟨hb, hr, hn, hthr⟩ := init_good h hg ht hp
  have hap : ∀ l l', AnalyzerReturns env a l → AnalyzerReturns env a l' → AnalyzerReturns env a (l ++ l') := by
    intro l l' h1 h2
    unfold AnalyzerReturns at h1 h2 ⊢
    cases hx : a.analyzer with
    | named n => rw [hx] at h1; exact h1
    | callable f =>
      rw [hx] at h1 h2
      intro d hd
      rcases List.mem_append.mp hd with hd | hd
      · exact h1 d hd
      · exact h2 d hd
  have qry : ∀ pops : List PyMinOp, PyClean pops → AnalyzerReturns env a (pops.flatMap pyDocs) → ∀ d : PyText,
      AnalyzerReturns env a [d] → ∃ l : List Int64, (obj.index.run env pops).query env o1 o2 d false = .ok (.ids l) ∧
        ∀ id, id ∈ l ↔ ∃ d', pyLive pops id = some d' ∧ NearPy env ahash a obj.hashSize b r d' d := by
    intro pops hc hpa d hd
    obtain ⟨l, q, f1, f2, _, _, _, f3⟩ := C80_query env ahash a obj h b r hp pops d (hap [d] _ hd hpa) o1 o2
    refine ⟨l, f2, fun id => ?_⟩
    rw [f3 hc]
    constructor
    · rintro ⟨d', s, v, g1, g2, g3, g4, g5⟩
      exact ⟨d', g1, s, q, v, g2, f1, g3, g4, g5⟩
    · rintro ⟨d', g1, s, s', v, g2, g3, g4, g5, g6⟩
      have : s' = q := Except.ok.inj (((sigOf_iff h hp d s').mpr g3).symm.trans ((sigOf_iff h hp d q).mpr f1))
      rw [this] at g4 g5
      exact ⟨d', s, v, g1, g2, g4, g5, g6⟩
  let Holds : PyMinIndex obj.hashSize.T obj.container.C → (Int64 → Option PyText) → Prop := fun i L =>
    ∃ pops, PyClean pops ∧ AnalyzerReturns env a (pops.flatMap pyDocs) ∧ i = obj.index.run env pops ∧ pyLive pops = L
  have hq : ∀ (st : PyMinIndex obj.hashSize.T obj.container.C) L d, Holds st L → AnalyzerReturns env a [d] →
      ∃ res, (st.query env o1 o2 d false).map PyMinAnswer.idList = .ok res ∧
        ∀ id, id ∈ res ↔ ∃ d', L id = some d' ∧ NearPy env ahash a obj.hashSize b r d' d := by
    rintro st L d ⟨pops, hc, hpa, rfl, rfl⟩ hd
    obtain ⟨l, f1, f2⟩ := qry pops hc hpa d hd
    exact ⟨l, by rw [f1]; rfl, f2⟩
  obtain ⟨st, kept, L', e1, e2, ⟨pops, hc, hpa, rfl, hL⟩, e4, e5⟩ := keepNew_run (Id := Int64) (ε := PyExc)
    (query := fun (i : PyMinIndex obj.hashSize.T obj.container.C) d => (i.query env o1 o2 d false).map PyMinAnswer.idList)
    (insert := fun i id d => i.insertDocument env id d) Holds
    (fun d => AnalyzerReturns env a [d]) (NearPy env ahash a obj.hashSize b r) hq
    (by
      rintro st L id d ⟨pops, hc, hpa, rfl, rfl⟩ hd hnone
      refine ⟨C80_calls_return env ahash a obj h pops (.insertDocument id d) (by
        rw [List.flatMap_append]
        exact hap _ _ hpa (by simpa [pyDocs] using hd)),
        pops ++ [.insertDocument id d], ?_, ?_, ?_, ?_⟩
      · intro pre o post e
        rcases List.eq_nil_or_concat post with rfl | ⟨post', x, rfl⟩
        · obtain ⟨rfl, e2⟩ := List.append_inj' e rfl
          cases e2
          exact hnone
        · rw [List.concat_eq_append, ← List.cons_append, ← List.append_assoc] at e
          obtain ⟨e1, _⟩ := List.append_inj' e rfl
          exact hc pre o post' e1
      · rw [List.flatMap_append]
        exact hap _ _ hpa (by simpa [pyDocs] using hd)
      · rw [PyMinIndex.run_append']; rfl
      · funext id'
        unfold pyLive
        rw [List.reverse_append, List.reverse_singleton, List.singleton_append, List.findSome?_cons]
        by_cases e : id' = id
        · subst e; simp [pyTouch, Function.update_self]
        · rw [Function.update_of_ne e]; simp [pyTouch, Ne.symm e])
    rows obj.index (fun _ => none) ⟨[], by intro pre op post e; simp at e, ha.mono (by simp), rfl, rfl⟩ hnd (fun _ _ => rfl)
    (fun p hp => ha.mono fun d hd => by rw [List.mem_singleton.mp hd]; exact List.mem_map_of_mem hp)
  have ff : FirstFit (NearPy env ahash a obj.hashSize b r) rows kept := ⟨e2, fun pre p post e => by
    rw [e5 pre p post e]
    exact ⟨fun g => g.2, fun g => ⟨by simp, g⟩⟩⟩
  obtain ⟨s1, s2⟩ := ff.separated hnd nearPy_symm
  have hself : ∀ p ∈ rows, NearPy env ahash a obj.hashSize b r p.2 p.2 := by
    intro p hpm
    obtain ⟨l, q, f1, _⟩ := C80_query env ahash a obj h b r hp [] p.2 (ha.mono fun d hd => by
      have hd : d = p.2 := by simpa using hd
      rw [hd]; exact List.mem_map_of_mem hpm) o1 o2
    have hql : q.length = b * r := by
      obtain ⟨hh, _⟩ := content_rep h hp [] (by simpa using ha.mono (by simp))
      exact PyMinIndex.sig_length hh.hasher ((sigOf_iff h hp p.2 q).mpr f1)
    have h0 : 0 < b * r := Nat.mul_pos hb hr
    exact ⟨q, q, .fin 1, f1, f1, ⟨0, by omega, rfl⟩, self_similarity q (by omega) (by omega), hthr⟩
  obtain ⟨a1, a2⟩ := ff.answers hnd nearPy_symm hself
  have fin : ∀ p ∈ rows, ∃ l : List Int64, (obj.index.run env pops).query env o1 o2 p.2 false = .ok (.ids l) ∧
      ∀ id, id ∈ l ↔ ∃ d', (id, d') ∈ kept ∧ NearPy env ahash a obj.hashSize b r d' p.2 := by
    intro p hpm
    obtain ⟨l, f1, f2⟩ := qry pops hc hpa p.2 (ha.mono fun d hd => by
      rw [List.mem_singleton.mp hd]; exact List.mem_map_of_mem hpm)
    refine ⟨l, f1, fun id => ?_⟩
    rw [f2, hL]
    simp [e4]
  refine ⟨_, kept, e1, ff, s1, s2, fun k hk => ?_, fun p hpm => ?_⟩
  · obtain ⟨l, f1, f2⟩ := fin k (e2.subset hk)
    exact ⟨l, f1, fun id => by rw [f2, a1 k hk]⟩
  · obtain ⟨l, f1, f2⟩ := fin p hpm
    obtain ⟨k, hk, hk'⟩ := a2 p hpm
    exact ⟨l, f1, List.ne_nil_of_mem ((f2 k.1).mpr ⟨k.2, hk, hk'⟩)⟩

/-- The hypotheses are met. -/
example : ∃ obj, PyMinObject.init exPyMinEnv exAhash exArgs = .ok obj ∧ GoodSizes exArgs ∧
    exArgs.jaccardThreshold ≠ .nan ∧ BandParams exPyMinEnv exArgs 4 2 ∧
    AnalyzerReturns exPyMinEnv exArgs ["a b".toList, "c".toList, "A b".toList] := by
  obtain ⟨obj, h⟩ := exArgs_ok exPyMinEnv exAhash
  exact ⟨obj, h, .inl ⟨4, 2, rfl, rfl, by decide, by decide, by decide⟩, by decide, .inl ⟨4, 2, rfl, rfl, rfl, rfl⟩, trivial⟩

end Verif.Props
