import Verif.Lemmas.PyMinHash
import Verif.Spec.Python

/-! # Histories of the Python MinHash index as histories of the Rust index -/
namespace Verif
open Verif.Spec Verif.Props

section
variable {T C : Type} [DecidableEq T] [PyHasher T] [LawfulPyHasher T] [IdContainer C Int64]
  [LawfulIdContainer C Int64]

namespace PyMinIndex

/-- The calls of the Rust index that a call of the wrapper amounts to, if `S d` is the signature of `d`. -/
def core (S : PyText → List T) : PyMinOp → List (Op T Int64)
  | .insertDocument id d => [.insert id (S d)]
  | .parBulkInsertDocs ids docs _ _ => (ids.zip docs).map fun p => .insert p.1 (S p.2)
  | .remove id => [.remove id]

theorem step_core {env : PyMinEnv} {b r : Nat} {t : Fl} {ah : List T → UInt64} (S : PyText → List T)
    {ops : List (Op T Int64)} {st : PyMinIndex T C} (h : Rep env b r t ah ops st) (op : PyMinOp)
    (hs : ∀ d ∈ pyDocs op, st.sig env d = .ok (S d)) :
    Rep env b r t ah (ops ++ core S op) (st.step env op).1 ∧ SameCfg (st.step env op).1 st ∧
      (st.step env op).2 = .ok () := by
  cases op with
  | insertDocument id d =>
    obtain ⟨h1, _, h3⟩ := insertDocument_rep h id d
    obtain ⟨h4, h5⟩ := h1 (S d) (hs d (by simp [pyDocs]))
    exact ⟨h4, h3, h5⟩
  | parBulkInsertDocs ids docs s1 s2 =>
    have e := parBulkInsertDocs_eq h ids docs (fun d hd => ⟨_, hs d hd⟩) s1 s2
    have e' : st.step env (.parBulkInsertDocs ids docs s1 s2) = _ := e
    rw [e']
    obtain ⟨h1, h2⟩ := run_inserts S (ids.zip docs) h (fun p hp => hs p.2 (List.of_mem_zip (a := p.1) (b := p.2) hp).2)
    exact ⟨h1, h2, rfl⟩
  | remove id =>
    refine ⟨⟨?_, h.hasher, ?_⟩, ⟨rfl, rfl, rfl, rfl⟩, ?_⟩
    · show (st.native.inner.remove id).1 = MinHashIndex.run _ _
      unfold core
      rw [run_snoc, h.inner]
      rfl
    · refine RightLengths.append h.lengths ?_
      intro o ho
      unfold core at ho
      rw [List.mem_singleton] at ho; subst ho
      intro s hs; cases hs
    · show fromRust ((st.native.inner.remove id).2.map fun _ => ()) = .ok ()
      rw [h.inner, C15_remove]
      rfl

/-- The state after a history all of whose documents can be analyzed. -/
theorem run_core {env : PyMinEnv} {b r : Nat} {t : Fl} {ah : List T → UInt64} (S : PyText → List T)
    (pops : List PyMinOp) : ∀ {ops : List (Op T Int64)} {st : PyMinIndex T C}, Rep env b r t ah ops st →
    (∀ d ∈ pops.flatMap pyDocs, st.sig env d = .ok (S d)) →
    Rep env b r t ah (ops ++ pops.flatMap (core S)) (st.run env pops) ∧ SameCfg (st.run env pops) st := by
  induction pops with
  | nil =>
    intro ops st h _
    refine ⟨?_, SameCfg.refl _⟩
    rw [List.flatMap_nil, List.append_nil]
    exact h
  | cons op pops ih =>
    intro ops st h hs
    obtain ⟨h1, h2, _⟩ := step_core S h op (fun d hd => hs d (by rw [List.flatMap_cons, List.mem_append]; exact .inl hd))
    obtain ⟨h3, h4⟩ := ih h1 (fun d hd => by
      rw [h2.sig env]; exact hs d (by rw [List.flatMap_cons, List.mem_append]; exact .inr hd))
    rw [run_cons']
    refine ⟨?_, h4.trans h2⟩
    rw [List.flatMap_cons, ← List.append_assoc]
    exact h3

omit [DecidableEq T] [PyHasher T] [LawfulPyHasher T] in
theorem lastTouch_core {n : Nat} (S : PyText → List T) (id : Int64) (op : PyMinOp)
    (hl : ∀ d ∈ pyDocs op, (S d).length = n) :
    (core S op).reverse.findSome? (touch n id) = (pyTouch id op).map (Option.map S) := by
  cases op with
  | insertDocument id' d =>
    have := hl d (by simp [pyDocs])
    simp only [core, List.reverse_singleton, List.findSome?_singleton, touch, pyTouch, this, and_true]
    split_ifs <;> rfl
  | remove id' =>
    simp only [core, List.reverse_singleton, List.findSome?_singleton, touch, pyTouch]
    split_ifs <;> rfl
  | parBulkInsertDocs ids docs s1 s2 =>
    simp only [core, pyTouch, lastDoc, pyDocs] at hl ⊢
    have hl' : ∀ p ∈ (ids.zip docs).reverse, (S p.2).length = n := fun p hp =>
      hl p.2 (List.of_mem_zip (a := p.1) (b := p.2) (List.mem_reverse.mp hp)).2
    rw [← List.map_reverse]
    clear hl
    generalize (ids.zip docs).reverse = ps at hl'
    induction ps with
    | nil => rfl
    | cons p ps ih =>
      have hp := hl' p (by simp)
      have ih := ih (fun q hq => hl' q (by simp [hq]))
      simp only [List.map_cons, List.findSome?_cons, touch, hp, and_true, List.find?_cons]
      by_cases hid : p.1 = id
      · simp [hid]
      · simp only [hid, if_false, decide_false]
        exact ih

omit [DecidableEq T] [PyHasher T] [LawfulPyHasher T] in
/-- The content of the Rust index after a history of the wrapper. -/
theorem live_core {n : Nat} (S : PyText → List T) (id : Int64) (pops : List PyMinOp)
    (hl : ∀ d ∈ pops.flatMap pyDocs, (S d).length = n) :
    live n (pops.flatMap (core S)) id = (pyLive pops id).map S := by
  have key : (pops.flatMap (core S)).reverse.findSome? (touch n id) =
      (pops.reverse.findSome? (pyTouch id)).map (Option.map S) := by
    induction pops using List.reverseRecOn with
    | nil => rfl
    | append_singleton pops op ih =>
      rw [List.flatMap_append, List.reverse_append, List.reverse_append, List.findSome?_append]
      have h1 : ([op].flatMap (core S)) = core S op := by simp
      rw [h1, lastTouch_core S id op (fun d hd => hl d (by simp [hd])), ih (fun d hd => hl d (by
        rw [List.flatMap_append, List.mem_append]; exact .inl hd))]
      simp only [List.reverse_singleton, List.singleton_append, List.findSome?_cons]
      cases pyTouch id op <;> rfl
  unfold live pyLive
  rw [key]
  cases pops.reverse.findSome? (pyTouch id) with
  | none => rfl
  | some x => cases x <;> rfl

omit [DecidableEq T] [PyHasher T] [LawfulPyHasher T] in
theorem Clean.snoc {n : Nat} {ops : List (Op T Int64)} {op : Op T Int64} (h : Clean n ops)
    (h' : cleanCall n (live n ops) op) : Clean n (ops ++ [op]) := by
  intro pre o post e
  rcases List.eq_nil_or_concat post with rfl | ⟨post', x, rfl⟩
  · obtain ⟨rfl, e2⟩ := List.append_inj' e rfl
    cases e2
    exact h'
  · rw [List.concat_eq_append, ← List.cons_append, ← List.append_assoc] at e
    obtain ⟨e1, _⟩ := List.append_inj' e rfl
    exact h pre o post' e1

omit [DecidableEq T] [PyHasher T] [LawfulPyHasher T] in
theorem clean_nil (n : Nat) : Clean n ([] : List (Op T Int64)) := by
  intro pre op post e
  cases pre <;> cases e

theorem _root_.Verif.Spec.PyClean.init {ops : List PyMinOp} {op : PyMinOp} (h : PyClean (ops ++ [op])) :
    PyClean ops ∧ pyCleanCall (pyLive ops) op :=
  ⟨fun pre o post e => h pre o (post ++ [op]) (by rw [e]; simp), h ops op [] rfl⟩

omit [DecidableEq T] [PyHasher T] [LawfulPyHasher T] in
theorem clean_inserts {n : Nat} (ps : List (Int64 × List T)) : ∀ {ops : List (Op T Int64)}, Clean n ops →
    (ps.map Prod.fst).Nodup → (∀ p ∈ ps, live n ops p.1 = none) →
    Clean n (ops ++ ps.map fun p => .insert p.1 p.2) := by
  induction ps with
  | nil => intro ops h _ _; simpa using h
  | cons p ps ih =>
    intro ops h hnd hl
    rw [List.map_cons, List.nodup_cons] at hnd
    have h1 : Clean n (ops ++ [.insert p.1 p.2]) := Clean.snoc h (fun _ => hl p (by simp))
    have := ih h1 hnd.2 (fun q hq => by
      rw [live_snoc]
      unfold applyL touch
      have hne : p.1 ≠ q.1 := fun e => hnd.1 (by rw [e]; exact List.mem_map_of_mem hq)
      simp only [hne, false_and, if_false]
      exact hl q (by simp [hq]))
    rw [List.append_assoc] at this
    exact this

omit [DecidableEq T] [PyHasher T] [LawfulPyHasher T] in
/-- Histories of the wrapper without overwriting are histories of the Rust index without overwriting. -/
theorem clean_core {n : Nat} (S : PyText → List T) (pops : List PyMinOp)
    (hl : ∀ d ∈ pops.flatMap pyDocs, (S d).length = n) (hc : PyClean pops) : Clean n (pops.flatMap (core S)) := by
  induction pops using List.reverseRecOn with
  | nil => exact clean_nil n
  | append_singleton pops op ih =>
    have hl1 : ∀ d ∈ pops.flatMap pyDocs, (S d).length = n := fun d hd => hl d (by
      rw [List.flatMap_append, List.mem_append]; exact .inl hd)
    obtain ⟨hc1, hc2⟩ := hc.init
    have ih := ih hl1 hc1
    rw [List.flatMap_append, List.flatMap_singleton]
    cases op with
    | insertDocument id d =>
      refine Clean.snoc ih fun _ => ?_
      rw [live_core S id pops hl1, show pyLive pops id = none from hc2]
      rfl
    | remove id => exact Clean.snoc ih trivial
    | parBulkInsertDocs ids docs s1 s2 =>
      have := clean_inserts ((ids.zip docs).map fun p => (p.1, S p.2)) ih (by
        rw [List.map_map]; exact hc2.1) (by
        intro p hp
        obtain ⟨q, hq, rfl⟩ := List.mem_map.mp hp
        simp only
        rw [live_core S q.1 pops hl1, hc2.2 q hq]
        rfl)
      rw [List.map_map] at this
      exact this

/-- Plain queries in terms of the signature of the document. -/
theorem query_ids {env : PyMinEnv} {n : Nat} {st : PyMinIndex T C}
    (hh : st.native.minHash = PyHasher.new env.rng n env.hash) {doc : PyText} {s : List T}
    (h : st.sig env doc = .ok s) (o1 o2 : Order) :
    st.query env o1 o2 doc false =
      (fromRust (st.native.inner.queryOwned s)).map fun set => .ids (o1.perm set.elems) := by
  obtain ⟨an, na⟩ := st
  cases an with
  | named nm =>
    have hd := sig_named.mp h
    unfold PyMinIndex.query
    simp only
    rw [PyMinHash.query_eq, hd]
    cases hq : na.inner.queryOwned s <;> simp [bind, Except.bind, hq, fromRust, Except.map, pure, Except.pure]
  | callable f =>
    obtain ⟨toks, e1, e2⟩ := sig_callable hh h
    simp only at e2
    unfold PyMinIndex.query
    simp only
    rw [e1]
    simp only [bind, Except.bind, Bool.false_eq_true, if_false, if_true]
    unfold PyMinHash.queryTokens
    rw [e2]
    cases hq : na.inner.queryOwned s <;> simp [bind, Except.bind, hq, fromRust, Except.map, pure, Except.pure]

/-- Similarity queries in terms of the signature of the document. -/
theorem query_pairs {env : PyMinEnv} {n : Nat} {st : PyMinIndex T C}
    (hh : st.native.minHash = PyHasher.new env.rng n env.hash) {doc : PyText} {s : List T}
    (h : st.sig env doc = .ok s) (o1 o2 : Order) :
    st.query env o1 o2 doc true =
      (fromRust (st.native.inner.queryOwnedReturnSimilarity o1 o2 s)).map .pairs := by
  obtain ⟨an, na⟩ := st
  cases an with
  | named nm =>
    have hd := sig_named.mp h
    unfold PyMinIndex.query
    simp only
    rw [PyMinHash.queryReturnSimilarity_eq, hd]
    rfl
  | callable f =>
    obtain ⟨toks, e1, e2⟩ := sig_callable hh h
    simp only at e2
    unfold PyMinIndex.query
    simp only
    rw [e1]
    simp only [bind, Except.bind, Bool.false_eq_true, if_false, if_true]
    unfold PyMinHash.queryTokensReturnSimilarity
    rw [e2]
    rfl

theorem mapM_fromRust {α β γ : Type} (f : α → Except Panic β) (g : β → γ) (l : List α) :
    (fromRust (l.mapM f)).map (List.map g) = l.mapM fun a => (fromRust (f a)).map g := by
  induction l with
  | nil => rfl
  | cons a l ih =>
    rw [List.mapM_cons, List.mapM_cons, ← ih]
    cases f a with
    | error e => rfl
    | ok x => cases l.mapM f <;> rfl

theorem mapM_id_map {ε α β : Type} (f : α → Except ε β) (l : List α) : (l.map f).mapM (fun r => r) = l.mapM f := by
  induction l with
  | nil => rfl
  | cons a l ih => rw [List.map_cons, List.mapM_cons, List.mapM_cons, ih]

theorem mapM_map_ok {ε α β γ : Type} {f : β → Except ε γ} {g : α → β} (l : List α) :
    (l.map g).mapM f = l.mapM fun a => f (g a) := by
  induction l with
  | nil => rfl
  | cons a l ih => rw [List.map_cons, List.mapM_cons, List.mapM_cons, ih]

theorem mapM_congr_mem {ε α β : Type} {f g : α → Except ε β} {l : List α} (h : ∀ a ∈ l, f a = g a) :
    l.mapM f = l.mapM g := by
  induction l with
  | nil => rfl
  | cons a l ih => rw [List.mapM_cons, List.mapM_cons, h a (by simp), ih fun b hb => h b (by simp [hb])]

/-- The bulk query of the native class and of the wrapper, in terms of the signatures. -/
theorem parBulkQuery_eq {env : PyMinEnv} {n : Nat} {st : PyMinIndex T C}
    (hh : st.native.minHash = PyHasher.new env.rng n env.hash) (docs : List PyText)
    (hs : ∀ d ∈ docs, ∃ s, st.sig env d = .ok s) (o1 o2 : Order) (flag : Bool) (s1 s2 : List Nat) :
    st.parBulkQuery env o1 o2 docs flag s1 s2 = docs.mapM fun d => st.query env o1 o2 d flag := by
  have hS : ∃ S : PyText → List T, ∀ d ∈ docs, st.sig env d = .ok (S d) := by
    classical
    refine ⟨fun d => if h : d ∈ docs then (hs d h).choose else [], fun d hd => ?_⟩
    simp only [hd, dif_pos]
    exact (hs d hd).choose_spec
  obtain ⟨S, hS⟩ := hS
  have hR : (docs.mapM fun d => st.query env o1 o2 d flag) =
      if flag then docs.mapM fun d =>
        (fromRust (st.native.inner.queryOwnedReturnSimilarity o1 o2 (S d))).map .pairs
      else docs.mapM fun d => (fromRust (st.native.inner.queryOwned (S d))).map fun set =>
        .ids (o1.perm set.elems) := by
    cases flag with
    | true => exact mapM_congr_mem fun d hd => query_pairs hh (hS d hd) o1 o2
    | false => exact mapM_congr_mem fun d hd => query_ids hh (hS d hd) o1 o2
  rw [hR]
  obtain ⟨an, na⟩ := st
  cases an with
  | named nm =>
    have hd : ∀ d ∈ docs, na.hashDoc env d = .ok (S d) := fun d hd => sig_named.mp (hS d hd)
    unfold PyMinIndex.parBulkQuery
    simp only
    cases flag with
    | true =>
      simp only [if_true]
      unfold PyMinHash.parBulkQueryReturnSimilarity
      rw [bulkHashDocs_eq S hd, ← mapM_fromRust]
      show (fromRust (MinHashIndex.parBulkQueryReturnSimilarity o1 o2 na.inner (docs.map S) s2)).map _ = _
      unfold MinHashIndex.parBulkQueryReturnSimilarity
      rw [parMap_eq_map, mapM_id_map, mapM_map_ok]
    | false =>
      simp only [Bool.false_eq_true, if_false]
      unfold PyMinHash.parBulkQuery
      rw [bulkHashDocs_eq S hd, ← mapM_fromRust _ (fun set : HSet Int64 => PyMinAnswer.ids (o1.perm set.elems))]
      show (fromRust (do
        let sets ← na.inner.parBulkQuery (docs.map S) s2
        pure (sets.map fun set => o1.perm set.elems))).map (List.map PyMinAnswer.ids) = _
      unfold MinHashIndex.parBulkQuery
      rw [parMap_eq_map, mapM_id_map, mapM_map_ok]
      cases docs.mapM fun d => na.inner.queryOwned (S d) with
      | error e => rfl
      | ok sets => simp [bind, Except.bind, fromRust, Except.map, pure, Except.pure]
  | callable f =>
    have hd : ∀ d ∈ docs, ∃ toks, f d = .ok toks ∧ PyHasher.create na.minHash (pyTokens toks) = .ok (S d) :=
      fun d hd => sig_callable hh (hS d hd)
    have hF : ∃ F : PyText → List PyText, ∀ d ∈ docs, f d = .ok (F d) ∧
        PyHasher.create na.minHash (pyTokens (F d)) = .ok (S d) := by
      classical
      refine ⟨fun d => if h : d ∈ docs then (hd d h).choose else [], fun d h => ?_⟩
      simp only [h, dif_pos]
      exact (hd d h).choose_spec
    obtain ⟨F, hF⟩ := hF
    have hsig : bulkCreateSignature (PyHasher.create na.minHash) ((docs.map F).map pyTokens) s1 =
        .ok (docs.map S) := by
      unfold bulkCreateSignature
      rw [parMap_eq_map, mapM_id_map, mapM_map_ok, mapM_map_ok]
      exact mapM_except fun d hd => (hF d hd).2
    unfold PyMinIndex.parBulkQuery
    simp only
    rw [mapM_except (g := F) fun d hd => (hF d hd).1]
    cases flag with
    | true =>
      simp only [if_true]
      show (fromRust (PyMinHash.parBulkQueryTokensReturnSimilarity o1 o2 na (docs.map F) s1 s2)).map _ = _
      unfold PyMinHash.parBulkQueryTokensReturnSimilarity
      rw [hsig, ← mapM_fromRust]
      show (fromRust (MinHashIndex.parBulkQueryReturnSimilarity o1 o2 na.inner (docs.map S) s2)).map _ = _
      unfold MinHashIndex.parBulkQueryReturnSimilarity
      rw [parMap_eq_map, mapM_id_map, mapM_map_ok]
    | false =>
      simp only [Bool.false_eq_true, if_false]
      show (fromRust (PyMinHash.parBulkQueryTokens o1 na (docs.map F) s1 s2)).map _ = _
      unfold PyMinHash.parBulkQueryTokens
      rw [hsig, ← mapM_fromRust _ (fun set : HSet Int64 => PyMinAnswer.ids (o1.perm set.elems))]
      show (fromRust (do
        let sets ← na.inner.parBulkQuery (docs.map S) s2
        pure (sets.map fun set => o1.perm set.elems))).map (List.map PyMinAnswer.ids) = _
      unfold MinHashIndex.parBulkQuery
      rw [parMap_eq_map, mapM_id_map, mapM_map_ok]
      cases docs.mapM fun d => na.inner.queryOwned (S d) with
      | error e => rfl
      | ok sets => simp [bind, Except.bind, fromRust, Except.map, pure, Except.pure]

end PyMinIndex
end
end Verif
