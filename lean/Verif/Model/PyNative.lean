import Verif.Model.PyMinHash
import Verif.Model.PySimHash

/-!
# Histories of the native Python classes (`py-gaoya/src/min_hash.rs`, `py-gaoya/src/sim_hash.rs`)

The classes that pyo3 exports can be used without the wrappers of `minhash.py` and `simhash.py`; their calls take
documents or lists of tokens.
-/
namespace Verif

/-- The mutating calls of the native MinHash classes. py-gaoya/src/min_hash.rs lines 96-152. -/
inductive NatMinOp where
  | insertDocument (id : Int64) (doc : PyText)
  | insertTokens (id : Int64) (tokens : List PyText)
  | remove (id : Int64)
  | parBulkInsertDocs (ids : List Int64) (docs : List PyText) (s1 s2 : List Nat)
  | bulkInsertTokens (ids : List Int64) (tokens : List (List PyText))
  | parBulkInsertTokens (ids : List Int64) (tokens : List (List PyText)) (s1 s2 : List Nat)

namespace PyMinHash
variable {T C : Type} [DecidableEq T] [PyHasher T] [IdContainer C Int64]

/-- One call. py-gaoya/src/min_hash.rs lines 96-152. -/
def step (env : PyMinEnv) (st : PyMinHash T C) : NatMinOp → PyMinHash T C × Except Panic Unit
  | .insertDocument id doc => st.insertDocument env id doc
  | .insertTokens id tokens => st.insertTokens id tokens
  | .remove id => st.remove id
  | .parBulkInsertDocs ids docs s1 s2 => st.parBulkInsertDocs env ids docs s1 s2
  | .bulkInsertTokens ids tokens => st.bulkInsertTokens (ids.zip tokens)
  | .parBulkInsertTokens ids tokens s1 s2 => st.parBulkInsertTokens ids tokens s1 s2

/-- A history; calls after a panic go on with the state it left behind. py-gaoya/src/min_hash.rs lines 96-152. -/
def run (env : PyMinEnv) (st : PyMinHash T C) (ops : List NatMinOp) : PyMinHash T C :=
  ops.foldl (fun st op => (st.step env op).1) st

end PyMinHash

/-- The mutating calls of the native SimHash classes; `o` is the order of the rebuilt map.
py-gaoya/src/sim_hash.rs lines 85-116. -/
inductive NatSimOp where
  | insertDocument (id : Int64) (doc : PyText)
  | insertTokens (id : Int64) (tokens : List PyText)
  | parBulkInsertTokens (o : Order) (ids : List Int64) (tokens : List (List PyText)) (s1 s2 : List Nat)
  | parBulkInsertDocs (o : Order) (ids : List Int64) (docs : List PyText) (s1 s2 : List Nat)

namespace PySimHash
variable {w : Nat}

/-- One call. py-gaoya/src/sim_hash.rs lines 85-116. -/
def step (env : PySimEnv w) (st : PySimHash w) : NatSimOp → PySimHash w × Except Panic Unit
  | .insertDocument id doc => st.insertDocument env id doc
  | .insertTokens id tokens => st.insertTokens env id tokens
  | .parBulkInsertTokens o ids tokens s1 s2 => st.parBulkInsertTokens env o ids tokens s1 s2
  | .parBulkInsertDocs o ids docs s1 s2 => st.parBulkInsertDocs env o ids docs s1 s2

/-- A history; calls after a panic go on with the state it left behind. py-gaoya/src/sim_hash.rs lines 85-116. -/
def run (env : PySimEnv w) (st : PySimHash w) (ops : List NatSimOp) : PySimHash w :=
  ops.foldl (fun st op => (st.step env op).1) st

end PySimHash

end Verif
