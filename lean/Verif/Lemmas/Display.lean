import Verif.Model.Display
import Verif.Spec.Display
import Mathlib.Data.List.Basic

/-! # Lemmas on printed forms -/
namespace Verif
open Verif.Spec

theorem showUsize_numeral (n : Nat) : IsNumeral n (showUsize n) := by
  refine ⟨Nat.toDigits_ne_nil, ?_, ?_, ?_⟩
  · intro c hc
    have := Nat.isDigit_of_mem_toDigits (by decide) (by decide) hc
    simpa [Char.isDigit, Char.le_def] using this
  · intro hh
    unfold showUsize at hh ⊢
    induction n using Nat.strongRecOn with
    | _ n ih =>
      by_cases h : n < 10
      · rw [Nat.toDigits_of_lt_base h] at hh ⊢
        simpa using hh
      · rw [Nat.toDigits_of_base_le (by decide) (by omega)] at hh ⊢
        exfalso
        have hne : Nat.toDigits 10 (n / 10) ≠ [] := Nat.toDigits_ne_nil
        rw [List.head?_append_of_ne_nil _ hne] at hh
        have h2 := ih (n / 10) (by omega) hh
        have h3 : Nat.ofDigitChars 10 (Nat.toDigits 10 (n / 10)) 0 = n / 10 := Nat.ofDigitChars_ten_toDigits
        rw [h2] at h3
        have : Nat.ofDigitChars 10 ['0'] 0 = 0 := by decide
        omega
  · have := Nat.ofDigitChars_ten_toDigits (n := n)
    rwa [Nat.ofDigitChars_eq_foldl] at this

theorem numeral_value {n m : Nat} {cs : List Char} (h : IsNumeral n cs) (h' : IsNumeral m cs) : n = m :=
  h.2.2.2.symm.trans h'.2.2.2

theorem numeral_not_mem {n : Nat} {cs : List Char} (h : IsNumeral n cs) {c : Char} (hc : ¬ ('0' ≤ c ∧ c ≤ '9')) :
    c ∉ cs := fun hm => hc (h.2.1 c hm)

theorem split_unique {α : Type} {c : α} {a a' x x' : List α} (h : c ∉ a) (h' : c ∉ a')
    (e : a ++ c :: x = a' ++ c :: x') : a = a' ∧ x = x' := by
  induction a generalizing a' with
  | nil =>
    cases a' with
    | nil => simpa using e
    | cons d a' =>
      simp only [List.nil_append, List.cons_append, List.cons.injEq] at e
      exact absurd e.1 (by rintro rfl; simp at h')
  | cons d a ih =>
    cases a' with
    | nil =>
      simp only [List.nil_append, List.cons_append, List.cons.injEq] at e
      exact absurd e.1.symm (by rintro rfl; simp at h)
    | cons d' a' =>
      simp only [List.cons_append, List.cons.injEq] at e
      obtain ⟨rfl, e⟩ := e
      obtain ⟨rfl, rfl⟩ := ih (by simp at h; tauto) (by simp at h'; tauto) e
      exact ⟨rfl, rfl⟩

/-- The printed form can be read back, also if something follows it. -/
theorem indexText_unique {ty ty' f f' : List Char} {b r n b' r' n' : Nat} {txt txt' rest rest' : List Char}
    (h : IndexText ty f b r n txt) (h' : IndexText ty' f' b' r' n' txt') (hty : '>' ∉ ty) (hty' : '>' ∉ ty')
    (hf : ',' ∉ f) (hf' : ',' ∉ f') (e : txt ++ rest = txt' ++ rest') :
    ty = ty' ∧ f = f' ∧ b = b' ∧ r = r' ∧ n = n' ∧ rest = rest' := by
  obtain ⟨c1, c2, c3, c4, h1, h2, h3, h4, rfl⟩ := h
  obtain ⟨d1, d2, d3, d4, k1, k2, k3, k4, rfl⟩ := h'
  have comma : ¬ ('0' ≤ ',' ∧ ',' ≤ '9') := by decide
  have space : ¬ ('0' ≤ ' ' ∧ ' ' ≤ '9') := by decide
  have q1 : "> { threshold = ".toList = '>' :: " { threshold = ".toList := by simp
  have q2 : ", num_hashes = ".toList = ',' :: " num_hashes = ".toList := by simp
  have q3 : ", bands = ".toList = ',' :: " bands = ".toList := by simp
  have q4 : ", rows_per_band = ".toList = ',' :: " rows_per_band = ".toList := by simp
  have q5 : ", size = ".toList = ',' :: " size = ".toList := by simp
  have q6 : " }".toList = ' ' :: "}".toList := by simp
  simp only [List.append_assoc, q1, q2, q3, q4, q5, q6, List.cons_append] at e
  replace e := List.append_cancel_left e
  obtain ⟨e1, e⟩ := split_unique hty hty' e
  replace e := List.append_cancel_left e
  obtain ⟨e2, e⟩ := split_unique hf hf' e
  replace e := List.append_cancel_left e
  obtain ⟨_, e⟩ := split_unique
    (numeral_not_mem h1 comma) (numeral_not_mem k1 comma) e
  replace e := List.append_cancel_left e
  obtain ⟨e3, e⟩ := split_unique
    (numeral_not_mem h2 comma) (numeral_not_mem k2 comma) e
  replace e := List.append_cancel_left e
  obtain ⟨e4, e⟩ := split_unique
    (numeral_not_mem h3 comma) (numeral_not_mem k3 comma) e
  replace e := List.append_cancel_left e
  obtain ⟨e5, e⟩ := split_unique
    (numeral_not_mem h4 space) (numeral_not_mem k4 space) e
  exact ⟨e1, e2, numeral_value h2 (e3 ▸ k2), numeral_value h3 (e4 ▸ k3), numeral_value h4 (e5 ▸ k4),
    List.append_cancel_left e⟩

theorem MinHashIndex.display_text {T Id C : Type} [DecidableEq Id] (showFloat : Fl → Text) (ty : Text)
    (idx : MinHashIndex T Id C) :
    IndexText ty (showFloat idx.threshold) idx.b idx.r idx.size (idx.display showFloat ty) :=
  ⟨_, _, _, _, showUsize_numeral _, showUsize_numeral _, showUsize_numeral _, showUsize_numeral _, rfl⟩

theorem showUsize_inj {n m : Nat} (h : showUsize n = showUsize m) : n = m :=
  numeral_value (showUsize_numeral n) (h ▸ showUsize_numeral m)

theorem debugOption_inj {o o' : Option Nat} {x x' : Text} (h : debugOption o ++ ')' :: x = debugOption o' ++ ')' :: x') :
    o = o' := by
  have par : ¬ ('0' ≤ ')' ∧ ')' ≤ '9') := by decide
  cases o with
  | none =>
    cases o' with
    | none => rfl
    | some n => simp [debugOption] at h
  | some m =>
    cases o' with
    | none => simp [debugOption] at h
    | some n =>
      simp only [debugOption, List.append_assoc] at h
      have h1 := List.append_cancel_left h
      obtain ⟨h2, _⟩ := split_unique (x := ')' :: x) (x' := ')' :: x') (numeral_not_mem (showUsize_numeral m) par)
        (numeral_not_mem (showUsize_numeral n) par) h1
      rw [showUsize_inj h2]

theorem pair_inj {lo lo' : Nat} {hi hi' : Option Nat}
    (h : showUsize lo ++ (", ".toList ++ (debugOption hi ++ "))".toList)) =
      showUsize lo' ++ (", ".toList ++ (debugOption hi' ++ "))".toList))) : lo = lo' ∧ hi = hi' := by
  have comma : ¬ ('0' ≤ ',' ∧ ',' ≤ '9') := by decide
  have q1 : ", ".toList = ',' :: " ".toList := by simp
  have q2 : "))".toList = ')' :: ")".toList := by simp
  simp only [q1, q2, List.cons_append] at h
  obtain ⟨h2, h3⟩ := split_unique
    (numeral_not_mem (showUsize_numeral lo) comma) (numeral_not_mem (showUsize_numeral lo') comma) h
  exact ⟨showUsize_inj h2, debugOption_inj (x := ")".toList) (x' := ")".toList) (List.append_cancel_left h3)⟩

theorem debugPair_inj {name : Text} {lo lo' : Nat} {hi hi' : Option Nat}
    (h : debugPair name lo hi = debugPair name lo' hi') : lo = lo' ∧ hi = hi' := by
  unfold debugPair at h
  exact pair_inj (List.append_cancel_left (List.append_cancel_left h))

theorem debugPair_ne {lo : Nat} {hi : Option Nat} : debugPair "CharShingle".toList lo hi ≠ "WhiteSpace".toList := by
  intro h
  unfold debugPair at h
  simp only [String.reduceToList, List.cons_append, List.cons.injEq, Char.reduceEq, false_and] at h

theorem debugPair_ne' {lo lo' : Nat} {hi hi' : Option Nat} :
    debugPair "CharShingle".toList lo hi ≠ debugPair "WhiteSpaceShingle".toList lo' hi' := by
  intro h
  unfold debugPair at h
  simp only [String.reduceToList, List.cons_append, List.cons.injEq, Char.reduceEq, false_and] at h

theorem debugPair_ne'' {lo : Nat} {hi : Option Nat} :
    debugPair "WhiteSpaceShingle".toList lo hi ≠ "WhiteSpace".toList := by
  intro h
  have := congrArg List.length h
  unfold debugPair at this
  simp only [String.reduceToList, List.length_append, List.length_cons, List.length_nil] at this
  omega

/-- The printed tokenizer can be read back. -/
theorem TokenizerSpec.debug_inj {s s' : TokenizerSpec} (h : s.debug = s'.debug) : s = s' := by
  match s, s', h with
  | .charShingle lo hi, .charShingle lo' hi', h =>
    obtain ⟨h1, h2⟩ := debugPair_inj h
    rw [h1, h2]
  | .charShingle lo hi, .whiteSpace, h => exact absurd h debugPair_ne
  | .charShingle lo hi, .whiteSpaceShingle lo' hi', h => exact absurd h debugPair_ne'
  | .whiteSpace, .charShingle lo hi, h => exact absurd h.symm debugPair_ne
  | .whiteSpace, .whiteSpace, _ => rfl
  | .whiteSpace, .whiteSpaceShingle lo hi, h => exact absurd h.symm debugPair_ne''
  | .whiteSpaceShingle lo hi, .charShingle lo' hi', h => exact absurd h.symm debugPair_ne'
  | .whiteSpaceShingle lo hi, .whiteSpace, h => exact absurd h debugPair_ne''
  | .whiteSpaceShingle lo hi, .whiteSpaceShingle lo' hi', h =>
    obtain ⟨h1, h2⟩ := debugPair_inj h
    rw [h1, h2]

end Verif
