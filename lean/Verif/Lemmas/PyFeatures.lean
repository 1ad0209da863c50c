import Verif.Spec.Features
import Verif.Lemmas.PyCommon

/-! # The tokenizer of the Python bindings computes the specified features -/
namespace Verif
open Verif.Spec

theorem strSplit_eq (p : Char → Bool) (text : List Char) : strSplit p text = text.splitOnP p := by
  induction text with
  | nil => rfl
  | cons c cs ih =>
    rw [strSplit, List.splitOnP_cons, ih]
    split_ifs
    · rfl
    · cases h : cs.splitOnP p with
      | nil => exact absurd h (List.splitOnP_ne_nil p cs)
      | cons t ts => rfl

theorem wordsOf_eq (text : List Char) : wordsOf text = whitespaceSplit text := by
  rw [whitespaceSplit_eq]
  unfold wordsOf tk
  rw [strSplit_eq]
  congr 1
  funext t
  cases t <;> simp

theorem exhaust_of_yields {σ ι : Type} {next : σ → Except Panic (Option ι × σ)} {s : σ} {out : List ι} {n : Nat}
    (h : Props.Yields next s out) (hn : ∃ out', collect next n s = some (.ok out')) :
    exhaust (collect next n s) = .ok out := by
  obtain ⟨out', e⟩ := hn
  rw [e, Props.Yields.unique (Props.Yields.of_collect e) h]
  rfl

/-- The strings that the string iterator yields for size 0 upwards. -/
theorem str_zero (cs : List Char) (b : Nat) (hb : 1 ≤ b) :
    Props.Yields MultiShingles.nextStr (MultiShingles.new (utf8 cs) 0 b) (if cs = [] then [[]] else []) := by
  by_cases hcs : cs = []
  · subst hcs
    rw [if_pos rfl]
    refine Props.Yields.of_collect (n := 2) ?_
    have h1 : MultiShingles.nextStr (MultiShingles.new (utf8 []) 0 b) = .ok (some [], ⟨[], 0, b, 1, 1⟩) := by
      unfold MultiShingles.nextStr MultiShingles.new
      have hw : ¬ (0 + 1 > b) := by omega
      simp only [if_neg hw]
      rfl
    have h2 : ∃ st, MultiShingles.nextStr ⟨[], 0, b, 1, 1⟩ = .ok (none, st) := by
      have := nextStr_sim [] 0 b 1 (by omega)
      rw [if_neg (by simp)] at this
      exact this.1
    obtain ⟨st, h2⟩ := h2
    rw [collect_some h1, collect_none h2]
    rfl
  · rw [if_neg hcs]
    obtain ⟨st, hst⟩ := Props.nextStr_zero cs hcs b
    exact Props.Yields.of_collect (n := 1) (collect_none hst 0)

theorem features_eq (env : PyEnv) (an : Analyzer) (lc : Option Bool) (range : Option (Nat × Nat)) (doc : PyText) :
    features env an lc range doc = match an with
      | .callable f => (f doc).map pyTokens
      | .named n => fromRust (tokenize env (TokenizerSpec.new (n.getD "word") range)
          (if lc = some true then env.lower doc else doc)) := by
  unfold features
  cases an with
  | callable f =>
    simp only
    cases f doc <;> rfl
  | named n =>
    simp only
    generalize (if lc = some true then env.lower doc else doc) = text
    by_cases hc : n = some "char"
    · subst hc
      rw [if_pos rfl]
      have hspec : TokenizerSpec.new "char" range = if (range.getD (3, 4)).1 = (range.getD (3, 4)).2 then
          .charShingle (range.getD (3, 4)).1 none else .charShingle (range.getD (3, 4)).1 (some (range.getD (3, 4)).2) := by
        unfold TokenizerSpec.new
        rw [if_pos rfl]
        cases range <;> rfl
      rw [show (some "char").getD "word" = "char" from rfl, hspec]
      generalize (range.getD (3, 4)).1 = lo
      generalize (range.getD (3, 4)).2 = hi
      by_cases h : lo = hi
      · rw [if_pos h, if_pos h]
        simp only [tokenize]
        cases env.strShingles text lo <;> rfl
      · rw [if_neg h, if_neg h]
        simp only [tokenize]
        by_cases h0 : lo = 0
        · subst h0
          have hb : 1 ≤ hi := by omega
          rw [if_pos rfl, exhaust_of_yields
            (show Props.Yields _ (MultiShingles.new (toUtf8 text) 0 hi) _ from str_zero text hi hb)
            (collectFuel_enough_str _ 0 hi (.inr hb))]
          split_ifs <;> rfl
        · have hlo : 1 ≤ lo := by omega
          rw [if_neg h0, exhaust_of_yields
            (show Props.Yields _ (MultiShingles.new (toUtf8 text) lo hi) _ from Props.C44_str_exact text lo hi hlo)
            (collectFuel_enough_str _ lo hi (.inl hlo))]
          simp [Except.map, fromRust]
    · have hn : n.getD "word" ≠ "char" := by
        cases n with
        | none => decide
        | some x => intro e; exact hc (congrArg some e)
      rw [if_neg hc]
      unfold TokenizerSpec.new
      rw [if_neg hn]
      cases range with
      | none =>
        simp only [wordsOf_eq]
        rfl
      | some r =>
        obtain ⟨lo, hi⟩ := r
        simp only
        split_ifs with h
        · simp only [tokenize, wordsOf_eq]
          cases env.sliceShingles (whitespaceSplit text) lo <;> rfl
        · have h2 : 1 ≤ lo ∨ 1 ≤ hi := by omega
          simp only [tokenize, wordsOf_eq]
          rw [exhaust_of_yields (Props.C43_slice_exact _ lo hi h2) (collectFuel_enough _ lo hi _ h2 le_rfl)]
          rfl

end Verif
