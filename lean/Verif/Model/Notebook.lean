import Verif.Model.PyMinHash

/-!
# The deduplication notebook (`py-gaoya/examples/deduplication_scholarly_articles_gaoya.ipynb`)

The cells that use the index: insert all documents in bulk, query all documents in bulk, take the id of the row out of the
list of the row. `ids` and `docs` are the columns `core_id` and `combined_text`. Then the cells that compare the found
duplicates with the labelled ones.
-/
namespace Verif

/-- `list.remove(x)` of Python: the first occurrence, `ValueError` if there is none.
Python, used in deduplication_scholarly_articles_gaoya.ipynb 676. -/
def listRemove (l : List Int64) (x : Int64) : Except PyExc (List Int64) :=
  if x ∈ l then .ok (l.erase x) else .error .valueError

/-- The list in an answer of `par_bulk_query` (without similarities).
deduplication_scholarly_articles_gaoya.ipynb 658. -/
def PyMinAnswer.idList : PyMinAnswer → List Int64
  | .ids l => l
  | .pairs l => l.map Prod.fst

/-- The cells of lines 410 (bulk insertion), 658 (bulk query) and 676 (remove the own id) of
deduplication_scholarly_articles_gaoya.ipynb; the result is the column `predicted_duplicates`. -/
def notebookDuplicates {T C : Type} [DecidableEq T] [PyHasher T] [IdContainer C Int64] (env : PyMinEnv) (o1 o2 : Order)
    (st : PyMinIndex T C) (ids : List Int64) (docs : List PyText) (s1 s2 s3 s4 : List Nat) :
    Except PyExc (List (List Int64)) := do
  let r := st.parBulkInsertDocs env ids docs s1 s2
  r.2
  let answers ← r.1.parBulkQuery env o1 o2 docs false s3 s4
  (ids.zip answers).mapM fun p => listRemove p.2.idList p.1

/-- The column `Correct` of a row: the two sets are equal. deduplication_scholarly_articles_gaoya.ipynb 694. -/
def rowCorrect (labelled predicted : List Int64) : Bool :=
  let l : HSet Int64 := HSet.empty.extend labelled
  let d : HSet Int64 := HSet.empty.extend predicted
  (l.elems.all fun x => d.contains x) && (d.elems.all fun x => l.contains x)

/-- `_recall`. Python divides integers with one rounding. deduplication_scholarly_articles_gaoya.ipynb 744-749. -/
def rowRecall (labelled predicted : List Int64) : Fl :=
  let l : HSet Int64 := HSet.empty.extend labelled
  if l.len = 0 then .fin 1
  else
    let d : HSet Int64 := HSet.empty.extend predicted
    rnd b64 (((d.elems.filter fun x => l.contains x).length : ℚ) / l.len)

/-- `_precision`. deduplication_scholarly_articles_gaoya.ipynb 781-787. -/
def rowPrecision (labelled predicted : List Int64) : Fl :=
  let l : HSet Int64 := HSet.empty.extend labelled
  let d : HSet Int64 := HSet.empty.extend predicted
  if d.len = 0 then .fin 0
  else rnd b64 (((d.elems.filter fun x => l.contains x).length : ℚ) / d.len)

/-- Sum of two finite numbers, for `mean`. deduplication_scholarly_articles_gaoya.ipynb 771, 809. -/
def addFinite : Fl → Fl → Fl
  | .fin a, .fin b => rnd b64 (a + b)
  | _, _ => .nan

/-- `mean` of a column. Simplified: the library adds in blocks; sums of integers below 2^53 do not depend on it.
deduplication_scholarly_articles_gaoya.ipynb 771, 809. -/
def columnMean (l : List Fl) : Fl := Fl.div b64 (l.foldl addFinite (.fin 0)) (Fl.ofNat b64 l.length)

/-- `Accuracy` before `round`: the number of correct rows over the number of rows.
deduplication_scholarly_articles_gaoya.ipynb 704-705. -/
def notebookAccuracy (correct : List Bool) : Fl :=
  Fl.div b64 (Fl.ofNat b64 (correct.countP id)) (Fl.ofNat b64 correct.length)

end Verif
