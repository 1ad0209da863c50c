import Verif.Model.PySimHash
import Verif.Lemmas.PyCommon
import Verif.Lemmas.PyInit
import Verif.Props.SimHashIndex

/-! # Lemmas on the Python SimHash index -/
namespace Verif
open Verif.Spec Verif.Props

variable {w : Nat}

namespace PySimHash

/-- Same tokenizer and case setting. -/
def SameCfg (a b : PySimHash w) : Prop := a.tokenizer = b.tokenizer ∧ a.lowercase = b.lowercase

theorem SameCfg.doc2signature {a b : PySimHash w} (h : SameCfg a b) (env : PySimEnv w) (doc : PyText) :
    a.doc2signature env doc = b.doc2signature env doc := by
  unfold PySimHash.doc2signature PySimHash.tokenizeAndSimhash
  rw [h.1, h.2]

/-- The loop inserts the signatures one by one. -/
theorem insertLoop_ok (env : PySimEnv w) (f : PyText → BitVec w) (ps : List (Int64 × PyText)) (st : PySimHash w)
    (hf : ∀ p ∈ ps, st.doc2signature env p.2 = .ok (f p.2)) :
    st.insertLoop env ps =
      ({ st with inner := st.inner.run (ps.map fun p => .insert p.1 (f p.2)) }, .ok ()) := by
  induction ps generalizing st with
  | nil => rfl
  | cons p ps ih =>
    have h1 : st.insertDocument env p.1 p.2 = ({ st with inner := st.inner.insert p.1 (f p.2) }, .ok ()) := by
      unfold insertDocument
      rw [hf p (by simp)]
    unfold insertLoop
    rw [h1]
    simp only
    rw [ih { st with inner := st.inner.insert p.1 (f p.2) } fun q hq => hf q (by simp [hq])]
    rfl

theorem mapM_doc2signature (env : PySimEnv w) (f : PyText → BitVec w) (docs : List PyText) (st : PySimHash w)
    (hf : ∀ d ∈ docs, st.doc2signature env d = .ok (f d)) (sched : List Nat) :
    (parMap (st.doc2signature env) docs sched).mapM (fun r => r) = .ok (docs.map f) := by
  rw [parMap_eq_map, List.mapM_map]
  exact mapM_ok _ f _ hf

end PySimHash

namespace PySimIndex

/-- The signature of a document, as computed by `insert_document` and `query`. -/
def sig (env : PySimEnv w) (st : PySimIndex w) (doc : PyText) : Except PyExc (BitVec w) :=
  match st.analyzer with
  | .callable f => (f doc).map fun toks => PySimHash.createSignature env (pyTokens toks)
  | .named _ => fromRust (st.native.doc2signature env doc)

/-- A history of `insert_document` calls (each may raise). -/
def run (env : PySimEnv w) (st : PySimIndex w) (ops : List (Int64 × PyText)) : PySimIndex w :=
  ops.foldl (fun st p => (st.insertDocument env p.1 p.2).1) st

/-- Same configuration. -/
def SameCfg (a b : PySimIndex w) : Prop := a.analyzer = b.analyzer ∧ PySimHash.SameCfg a.native b.native

theorem SameCfg.sig {a b : PySimIndex w} (h : SameCfg a b) (env : PySimEnv w) (doc : PyText) :
    a.sig env doc = b.sig env doc := by
  unfold PySimIndex.sig
  rw [h.1]
  cases b.analyzer with
  | callable f => rfl
  | named n => simp only; rw [h.2.doc2signature]

theorem insertDocument_cases (env : PySimEnv w) (st : PySimIndex w) (id : Int64) (doc : PyText) :
    (∃ s, st.sig env doc = .ok s ∧ st.insertDocument env id doc =
      ({ st with native := { st.native with inner := st.native.inner.insert id s } }, .ok ())) ∨
    (∃ e, st.sig env doc = .error e ∧ st.insertDocument env id doc = (st, .error e)) := by
  obtain ⟨an, na⟩ := st
  cases an with
  | callable f =>
    unfold sig insertDocument
    simp only
    cases hf : f doc with
    | ok toks => left; exact ⟨_, rfl, rfl⟩
    | error e => right; exact ⟨e, rfl, rfl⟩
  | named n =>
    unfold sig insertDocument PySimHash.insertDocument
    simp only
    cases hs : na.doc2signature env doc with
    | ok s => left; exact ⟨s, rfl, rfl⟩
    | error e => right; exact ⟨_, rfl, rfl⟩

/-- The accepted insertions. -/
def accepted (env : PySimEnv w) (st : PySimIndex w) (ops : List (Int64 × PyText)) : List (Int64 × BitVec w) :=
  ops.filterMap fun p => match st.sig env p.2 with
    | .ok s => some (p.1, s)
    | .error _ => none

theorem SameCfg.accepted {a b : PySimIndex w} (h : SameCfg a b) (env : PySimEnv w) (ops : List (Int64 × PyText)) :
    a.accepted env ops = b.accepted env ops := by
  unfold PySimIndex.accepted
  simp only [h.sig env]

theorem run_inner (env : PySimEnv w) (ops : List (Int64 × PyText)) (st : PySimIndex w) :
    SameCfg (st.run env ops) st ∧ (st.run env ops).native.inner =
      st.native.inner.run ((st.accepted env ops).map fun p => .insert p.1 p.2) := by
  induction ops generalizing st with
  | nil => exact ⟨⟨rfl, rfl, rfl⟩, rfl⟩
  | cons p ops ih =>
    have hrun : st.run env (p :: ops) = ((st.insertDocument env p.1 p.2).1).run env ops := rfl
    rw [hrun]
    rcases insertDocument_cases env st p.1 p.2 with ⟨s, e1, e2⟩ | ⟨e, e1, e2⟩
    · rw [e2]
      obtain ⟨h1, h2⟩ := ih { st with native := { st.native with inner := st.native.inner.insert p.1 s } }
      have hcfg : SameCfg { st with native := { st.native with inner := st.native.inner.insert p.1 s } } st :=
        ⟨rfl, rfl, rfl⟩
      refine ⟨⟨h1.1, h1.2.1, h1.2.2⟩, ?_⟩
      simp only
      rw [h2, hcfg.accepted env ops]
      have : st.accepted env (p :: ops) = (p.1, s) :: st.accepted env ops := by
        unfold accepted
        rw [List.filterMap_cons, e1]
      rw [this]
      rfl
    · rw [e2]
      obtain ⟨h1, h2⟩ := ih st
      refine ⟨h1, ?_⟩
      simp only
      rw [h2]
      have : st.accepted env (p :: ops) = st.accepted env ops := by
        unfold accepted
        rw [List.filterMap_cons, e1]
      rw [this]

end PySimIndex
end Verif
