import Mathlib.Data.List.Basic

/-! # Specification vocabulary for texts: separators, tokens, n-grams, UTF-8. -/
namespace Verif.Spec

/-- The separators of the tokenizer: the 32 ASCII punctuation characters and the ASCII white space. -/
def separators : List Char := "!\"#$%&'()*+,-./:;<=>?@[\\]^_`{|}~ \t\n\x0c\r".toList

/-- `toks` are the maximal separator-free runs of `text`: the text is a possibly empty run of separators followed
by tokens that are each followed by a run of separators, which is non-empty except after the last token. -/
def MaximalRuns (text : List Char) (toks : List (List Char)) : Prop :=
  ∃ (g : List Char) (ps : List (List Char × List Char)),
    text = g ++ ps.flatMap (fun p => p.1 ++ p.2) ∧ toks = ps.map Prod.fst ∧
    (∀ c ∈ g, c ∈ separators) ∧
    (∀ p ∈ ps, p.1 ≠ [] ∧ (∀ c ∈ p.1, c ∉ separators) ∧ ∀ c ∈ p.2, c ∈ separators) ∧
    ∀ p ∈ ps.dropLast, p.2 ≠ []

/-- The `n`-gram at position `p`. -/
def ngram {α : Type} (l : List α) (p n : Nat) : List α := (l.drop p).take n

/-- All (position, size) pairs in order of position, then size; sizes run from `a` to `b` (only `a` if `b < a`). -/
def allPairs (a b L : Nat) : List (Nat × Nat) :=
  (List.range (L + 1)).flatMap fun p => (List.range' a (b - a + 1)).map fun n => (p, n)

/-- The n-grams before the first pair that does not fit. -/
def shinglesBeforeGap {α : Type} (l : List α) (a b : Nat) : List (List α) :=
  ((allPairs a b l.length).takeWhile fun q => decide (q.1 + q.2 ≤ l.length)).map fun q => ngram l q.1 q.2

/-- The UTF-8 bytes of a text. -/
def utf8 (cs : List Char) : List UInt8 := cs.flatMap String.utf8EncodeChar

end Verif.Spec
