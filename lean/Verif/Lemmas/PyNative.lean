import Verif.Spec.PyNative
import Verif.Lemmas.PyContent
import Verif.Props.PythonTokens

/-! # Lemmas on histories of the native Python classes -/
namespace Verif
open Verif.Spec Verif.Props

section
variable {T C : Type} [DecidableEq T] [PyHasher T] [LawfulPyHasher T] [IdContainer C Int64]
  [LawfulIdContainer C Int64]

/-- The calls of the Rust index that a call of the native class amounts to, if `S f` is the signature of `f`. -/
def natCore (S : List PyTok → List T) (F : PyText → List PyTok) : NatMinOp → List (Op T Int64)
  | .remove id => [.remove id]
  | op => (natInserts F op).map fun p => .insert p.1 (S p.2)

omit [LawfulPyHasher T] [LawfulIdContainer C Int64] in
theorem PyMinHash.run_cons (env : PyMinEnv) (st : PyMinHash T C) (op : NatMinOp) (ops : List NatMinOp) :
    st.run env (op :: ops) = ((st.step env op).1).run env ops := rfl

/-- One call in terms of the Rust index. -/
theorem nat_step {env : PyMinEnv} {b r : Nat} {t : Fl} {ah : List T → UInt64} {S : List PyTok → List T}
    (hS : ∀ f, PyHasher.create (PyHasher.new env.rng (b * r) env.hash : PyHasher.Hasher T) f = .ok (S f))
    {F : PyText → List PyTok} {ops : List (Op T Int64)} {na : PyMinHash T C} (hin : na.inner = After C b r t ah ops)
    (hmh : na.minHash = PyHasher.new env.rng (b * r) env.hash) (op : NatMinOp)
    (hF : ∀ d ∈ natDocs op, na.hashDoc env d = .ok (S (F d))) :
    na.step env op = ({ na with inner := After C b r t ah (ops ++ natCore S F op) }, .ok ()) := by
  have hl : ∀ f, (S f).length = b * r := by
    intro f
    obtain ⟨s, e, hl⟩ := LawfulPyHasher.create_new (T := T) env.rng (b * r) env.hash f
    rw [hS f] at e; cases e; exact hl
  cases op with
  | insertDocument id d =>
    show na.insertDocument env id d = _
    rw [PyMinHash.insertDocument_eq, hF d (by simp [natDocs])]
    simp only
    rw [hin, After.insert ops id _ (hl _)]
    rfl
  | insertTokens id ts =>
    show na.insertTokens id ts = _
    unfold PyMinHash.insertTokens
    rw [hmh, hS]
    simp only
    rw [hin, After.insert ops id _ (hl _), ← hmh]
    rfl
  | remove id =>
    show na.remove id = _
    unfold PyMinHash.remove
    rw [hin, C15_remove]
    have e : After C b r t ah (ops ++ natCore S F (.remove id)) = ((After C b r t ah ops).remove id).1 := by
      show MinHashIndex.run _ _ = _
      unfold natCore
      rw [run_snoc]
      rfl
    rw [e]
    rfl
  | parBulkInsertDocs ids docs s1 s2 =>
    show na.parBulkInsertDocs env ids docs s1 s2 = _
    rw [PyMinIndex.bulk_branch_eq (fun d => S (F d)) hin hmh ids docs hF]
    simp only [natCore, natInserts, List.zip_map_right, List.map_map]
    rfl
  | bulkInsertTokens ids tss =>
    show na.bulkInsertTokens (ids.zip tss) = _
    rw [PyMinIndex.bulkInsertTokens_eq (fun ts => S (pyTokens ts)) (ids.zip tss) hin hmh (by
      intro p _; rw [hmh]; exact hS _)]
    simp only [natCore, natInserts, List.zip_map_right, List.map_map]
    rfl
  | parBulkInsertTokens ids tss s1 s2 =>
    show na.parBulkInsertTokens ids tss s1 s2 = _
    obtain ⟨e1, e2⟩ := tokens_native hin hmh ids tss s1 s2
    rw [e1, ← e2, PyMinIndex.bulkInsertTokens_eq (fun ts => S (pyTokens ts)) (ids.zip tss) hin hmh (by
      intro p _; rw [hmh]; exact hS _)]
    simp only [natCore, natInserts, List.zip_map_right, List.map_map]
    rfl

/-- A history in terms of the Rust index. -/
theorem nat_run {env : PyMinEnv} {b r : Nat} {t : Fl} {ah : List T → UInt64} {S : List PyTok → List T}
    (hS : ∀ f, PyHasher.create (PyHasher.new env.rng (b * r) env.hash : PyHasher.Hasher T) f = .ok (S f))
    {F : PyText → List PyTok} (nops : List NatMinOp) : ∀ {ops : List (Op T Int64)} {na : PyMinHash T C},
    na.inner = After C b r t ah ops → na.minHash = PyHasher.new env.rng (b * r) env.hash →
    (∀ d ∈ nops.flatMap natDocs, na.hashDoc env d = .ok (S (F d))) →
    na.run env nops = { na with inner := After C b r t ah (ops ++ nops.flatMap (natCore S F)) } := by
  induction nops with
  | nil =>
    intro ops na hin _ _
    rw [List.flatMap_nil, List.append_nil, ← hin]
    rfl
  | cons op nops ih =>
    intro ops na hin hmh hF
    rw [PyMinHash.run_cons, nat_step hS hin hmh op fun d hd => hF d (by
      rw [List.flatMap_cons, List.mem_append]; exact .inl hd)]
    simp only
    rw [ih (na := { na with inner := After C b r t ah (ops ++ natCore S F op) }) rfl hmh (fun d hd => by
      rw [← hF d (by rw [List.flatMap_cons, List.mem_append]; exact .inr hd)]
      exact PyMinIndex.hashDoc_cfg rfl rfl rfl env d)]
    rw [List.flatMap_cons, List.append_assoc]

omit [DecidableEq T] [PyHasher T] [LawfulPyHasher T] in
theorem touch_natCore {n : Nat} {S : List PyTok → List T} (hl : ∀ f, (S f).length = n) (F : PyText → List PyTok)
    (id : Int64) (op : NatMinOp) :
    (natCore S F op).reverse.findSome? (touch n id) = (natTouch F id op).map (Option.map S) := by
  have key : ∀ ps : List (Int64 × List PyTok),
      ((ps.map fun p => (Op.insert p.1 (S p.2) : Op T Int64)).reverse.findSome? (touch n id)) =
        ((ps.reverse.find? fun p => p.1 = id).map fun p => some p.2).map (Option.map S) := by
    intro ps
    rw [← List.map_reverse]
    generalize ps.reverse = ps
    induction ps with
    | nil => rfl
    | cons p ps ih =>
      simp only [List.map_cons, List.findSome?_cons, touch, hl, and_true, List.find?_cons]
      by_cases hid : p.1 = id
      · simp [hid]
      · simp only [hid, if_false, decide_false]
        exact ih
  cases op with
  | remove id' =>
    simp only [natCore, List.reverse_singleton, List.findSome?_singleton, touch, natTouch]
    split_ifs <;> rfl
  | _ => exact key _

omit [DecidableEq T] [PyHasher T] [LawfulPyHasher T] in
/-- The content of the Rust index after a history of the native class. -/
theorem live_natCore {n : Nat} {S : List PyTok → List T} (hl : ∀ f, (S f).length = n) (F : PyText → List PyTok)
    (id : Int64) (nops : List NatMinOp) :
    live n (nops.flatMap (natCore S F)) id = (natLive F nops id).map S := by
  have key : (nops.flatMap (natCore S F)).reverse.findSome? (touch n id) =
      (nops.reverse.findSome? (natTouch F id)).map (Option.map S) := by
    induction nops using List.reverseRecOn with
    | nil => rfl
    | append_singleton nops op ih =>
      rw [List.flatMap_append, List.reverse_append, List.reverse_append, List.findSome?_append,
        List.flatMap_singleton, touch_natCore hl, ih]
      simp only [List.reverse_singleton, List.singleton_append, List.findSome?_cons]
      cases natTouch F id op <;> rfl
  unfold live natLive
  rw [key]
  cases nops.reverse.findSome? (natTouch F id) with
  | none => rfl
  | some x => cases x <;> rfl

omit [DecidableEq T] [PyHasher T] [LawfulPyHasher T] in
theorem rightLengths_natCore {n : Nat} {S : List PyTok → List T} (hl : ∀ f, (S f).length = n) (F : PyText → List PyTok)
    (nops : List NatMinOp) : RightLengths n (nops.flatMap (natCore S F)) := by
  intro o ho s hs
  obtain ⟨op, _, hop⟩ := List.mem_flatMap.mp ho
  have key : ∀ ps : List (Int64 × List PyTok), (o ∈ ps.map fun p => (Op.insert p.1 (S p.2) : Op T Int64)) →
      s.length = n := by
    intro ps hm
    obtain ⟨p, _, rfl⟩ := List.mem_map.mp hm
    have : s = S p.2 := by simpa [sigsOf] using hs
    rw [this, hl]
  cases op with
  | remove id =>
    simp only [natCore, List.mem_singleton] at hop
    subst hop
    cases hs
  | _ => exact key _ hop

omit [DecidableEq T] [PyHasher T] [LawfulPyHasher T] in
theorem clean_natCore {n : Nat} {S : List PyTok → List T} (hl : ∀ f, (S f).length = n) (F : PyText → List PyTok)
    (nops : List NatMinOp) (hc : NatClean F nops) : Clean n (nops.flatMap (natCore S F)) := by
  induction nops using List.reverseRecOn with
  | nil => exact PyMinIndex.clean_nil n
  | append_singleton nops op ih =>
    have hc2 := hc nops op [] rfl
    have ih := ih fun pre o post e => hc pre o (post ++ [op]) (by rw [e]; simp)
    rw [List.flatMap_append, List.flatMap_singleton]
    have key : Clean n (nops.flatMap (natCore S F) ++
        (natInserts F op).map fun p => (Op.insert p.1 (S p.2) : Op T Int64)) := by
      have := PyMinIndex.clean_inserts ((natInserts F op).map fun p => (p.1, S p.2)) ih (by
        rw [List.map_map]; exact hc2.1) (by
        intro p hp
        obtain ⟨q, hq, rfl⟩ := List.mem_map.mp hp
        simp only
        rw [live_natCore hl, hc2.2 q hq]
        rfl)
      rw [List.map_map] at this
      exact this
    cases op with
    | remove id => exact PyMinIndex.Clean.snoc ih trivial
    | _ => exact key

end

end Verif
