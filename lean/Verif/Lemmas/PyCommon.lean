import Verif.Model.PyCommon
import Verif.Props.Text

/-! # Tokenization in the Python bindings always terminates -/
namespace Verif
open Verif.Spec

theorem length_le_utf8 (cs : List Char) : cs.length ≤ (toUtf8 cs).length := by
  induction cs with
  | nil => simp
  | cons c cs ih =>
    have : 1 ≤ (String.utf8EncodeChar c).length := by
      unfold String.utf8EncodeChar
      simp only
      split_ifs <;> simp
    unfold toUtf8 at ih ⊢
    rw [List.flatMap_cons, List.length_append, List.length_cons]
    omega

/-- The fuel is enough for every slice. -/
theorem collectFuel_enough {α : Type} (l : List α) (a b n : Nat) (hab : 1 ≤ a ∨ 1 ≤ b) (hn : l.length ≤ n) :
    ∃ out, collect MultiShingles.nextSlice (collectFuel n a b) (MultiShingles.new l a b) = some (.ok out) := by
  have h := Nat.mul_le_mul_right (max a b + 2) (Nat.add_le_add_right hn 1)
  have e : (l.length + 1) * (max a b + 2) = l.length * (max a b + 2) + (max a b + 2) := by
    rw [Nat.add_mul, Nat.one_mul]
  have := slice_shingles l a b hab (collectFuel n a b - 1) 0 a (Nat.zero_le _) le_rfl (le_max_left _ _) (by
    unfold collectFuel
    rw [Nat.sub_zero]
    have := le_max_left a b
    omega)
  rw [List.drop_zero, Nat.sub_add_cancel (by unfold collectFuel; nlinarith [Nat.zero_le (max a b)])] at this
  exact ⟨_, this⟩

/-- The fuel is enough for every string. -/
theorem collectFuel_enough_str (cs : List Char) (a b : Nat) (hab : 1 ≤ a ∨ 1 ≤ b) :
    ∃ out, collect MultiShingles.nextStr (collectFuel (toUtf8 cs).length a b) (MultiShingles.new (toUtf8 cs) a b)
      = some (.ok out) := by
  by_cases ha : 1 ≤ a
  · obtain ⟨out, h⟩ := collectFuel_enough cs a b _ hab (length_le_utf8 cs)
    have := collectStr_sim a b ha (collectFuel (toUtf8 cs).length a b) cs a ha
    refine ⟨out.map utf8, ?_⟩
    show collect MultiShingles.nextStr _ ⟨utf8 cs, a, b, a, 1⟩ = _
    rw [this]
    show Option.map _ (collect MultiShingles.nextSlice _ (MultiShingles.new cs a b)) = _
    rw [h]
    rfl
  · have ha0 : a = 0 := by omega
    subst ha0
    have hb : 1 ≤ b := by omega
    have hf : ∃ k, collectFuel (toUtf8 cs).length 0 b = k + 2 :=
      ⟨collectFuel (toUtf8 cs).length 0 b - 2, by
        have : 2 ≤ collectFuel (toUtf8 cs).length 0 b := by
          unfold collectFuel
          nlinarith [Nat.zero_le (max 0 b), Nat.zero_le (toUtf8 cs).length]
        omega⟩
    obtain ⟨k, hk⟩ := hf
    rw [hk]
    by_cases hcs : cs = []
    · subst hcs
      have h1 : MultiShingles.nextStr (MultiShingles.new (toUtf8 []) 0 b) = .ok (some [], ⟨[], 0, b, 1, 1⟩) := by
        unfold MultiShingles.nextStr MultiShingles.new
        have hw : ¬ (0 + 1 > b) := by omega
        simp only [if_neg hw]
        rfl
      have h2 : ∃ st, MultiShingles.nextStr ⟨[], 0, b, 1, 1⟩ = .ok (none, st) := by
        have := nextStr_sim [] 0 b 1 (by omega)
        rw [if_neg (by simp)] at this
        exact this.1
      obtain ⟨st, h2⟩ := h2
      exact ⟨[[]], by rw [collect_some h1, collect_none h2]; rfl⟩
    · obtain ⟨st, hst⟩ := Props.nextStr_zero cs hcs b
      exact ⟨[], collect_none hst (k + 1)⟩

/-- What is assumed about the external crate `shingles`: with the configured size it yields shingles on every text. -/
def ShinglesReturn (env : PyEnv) : TokenizerSpec → Prop
  | .charShingle lo none => ∀ t, ∃ l, env.strShingles t lo = .ok l
  | .whiteSpaceShingle lo none => ∀ ws, ∃ l, env.sliceShingles ws lo = .ok l
  | _ => True

theorem tokenizerSpec_range (name : String) (range : Option (Nat × Nat)) :
    (∀ lo hi, TokenizerSpec.new name range = .charShingle lo (some hi) → 1 ≤ lo ∨ 1 ≤ hi) ∧
    (∀ lo hi, TokenizerSpec.new name range = .whiteSpaceShingle lo (some hi) → 1 ≤ lo ∨ 1 ≤ hi) := by
  constructor <;>
  · intro lo hi h
    unfold TokenizerSpec.new at h
    split_ifs at h
    all_goals
      split at h
      · split_ifs at h
        all_goals
          cases h
          try omega
      · cases h
        try omega

/-- Every configured tokenizer returns on every document. -/
theorem tokenize_total (env : PyEnv) (name : String) (range : Option (Nat × Nat))
    (henv : ShinglesReturn env (TokenizerSpec.new name range)) (doc : PyText) :
    ∃ toks, tokenize env (TokenizerSpec.new name range) doc = .ok toks := by
  obtain ⟨h1, h2⟩ := tokenizerSpec_range name range
  generalize TokenizerSpec.new name range = spec at henv h1 h2
  match spec, henv, h1, h2 with
  | .charShingle lo none, henv, _, _ =>
    obtain ⟨l, hl⟩ := henv doc
    exact ⟨_, by unfold tokenize; simp only; rw [hl]; rfl⟩
  | .charShingle lo (some hi), _, h1, _ =>
    obtain ⟨l, hl⟩ := collectFuel_enough_str doc lo hi (h1 lo hi rfl)
    exact ⟨_, by unfold tokenize; simp only; rw [hl]; rfl⟩
  | .whiteSpace, _, _, _ => exact ⟨_, rfl⟩
  | .whiteSpaceShingle lo none, henv, _, _ =>
    obtain ⟨l, hl⟩ := henv (whitespaceSplit doc)
    exact ⟨_, by unfold tokenize; simp only; rw [hl]; rfl⟩
  | .whiteSpaceShingle lo (some hi), _, _, h2 =>
    obtain ⟨l, hl⟩ := collectFuel_enough (whitespaceSplit doc) lo hi _ (h2 lo hi rfl) le_rfl
    exact ⟨_, by unfold tokenize; simp only; rw [hl]; rfl⟩

end Verif
