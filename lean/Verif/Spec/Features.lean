import Verif.Model.PyCommon
import Verif.Spec.Text
import Mathlib.Data.List.SplitOn

/-!
# Specification of the features of a document in the Python indexes

Written against the documentation of the analyzers; only types are shared with the model (`PyEnv` has the code of other
crates, `PyTok` the alphabet of features).
-/
namespace Verif.Spec

/-- The words of a text: the non-empty pieces between separators. -/
def wordsOf (text : List Char) : List (List Char) :=
  (text.splitOnP fun c => decide (c ∈ separators)).filter fun t => decide (t ≠ [])

/-- A panic of the code of another crate. -/
def crateResult {α β : Type} (f : α → β) : Except Panic (List α) → Except PyExc (List β)
  | .ok l => .ok (l.map f)
  | .error p => .error (.panic p)

/-- The features of a document. A callable analyzer gets the raw text and its tokens are the features. The built-in
analyzers get the text, lowercased if asked, and make words or n-grams; sizes `(n, n)` are left to the crate
`shingles`, and `(3, 4)` is the default for characters. -/
def features (env : PyEnv) (analyzer : Analyzer) (lowercase : Option Bool) (range : Option (Nat × Nat)) (doc : PyText) :
    Except PyExc (List PyTok) :=
  match analyzer with
  | .callable f =>
    match f doc with
    | .ok tokens => .ok (tokens.map fun t => .str (utf8 t))
    | .error e => .error e
  | .named name =>
    let text := if lowercase = some true then env.lower doc else doc
    if name = some "char" then
      let lo := (range.getD (3, 4)).1
      let hi := (range.getD (3, 4)).2
      if lo = hi then crateResult .str (env.strShingles text lo)
      else if lo = 0 then .ok (if text = [] then [.str []] else [])
      else .ok ((shinglesBeforeGap text lo hi).map fun g => .str (utf8 g))
    else
      match range with
      | none => .ok ((wordsOf text).map fun t => .str (utf8 t))
      | some (lo, hi) =>
        if lo = hi then crateResult .words (env.sliceShingles (wordsOf text) lo)
        else .ok ((shinglesBeforeGap (wordsOf text) lo hi).map .words)

end Verif.Spec
