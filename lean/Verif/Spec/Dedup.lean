import Mathlib.Data.List.Basic

/-!
# One-pass deduplication: what a user does with an index, and what it should give

Not code of /repo: the loop a client writes around `query_owned` (minhash_index.rs 580-598, sim_hash_index.rs 191-197)
and `insert` (minhash_index.rs 420-426, sim_hash_index.rs 130-135). It is stated over any two such calls.
-/
namespace Verif.Spec

/-- For each document in turn: query, and insert it if nothing was found. The result is the final index and the
documents that were inserted. -/
def keepNew {σ D ε Id : Type} (query : σ → D → Except ε (List Id)) (insert : σ → Id → D → σ × Except ε Unit) :
    σ → List (Id × D) → Except ε (σ × List (Id × D))
  | st, [] => .ok (st, [])
  | st, p :: ps =>
    match query st p.2 with
    | .error e => .error e
    | .ok [] =>
      match insert st p.1 p.2 with
      | (_, .error e) => .error e
      | (st', .ok _) =>
        match keepNew query insert st' ps with
        | .error e => .error e
        | .ok z => .ok (z.1, p :: z.2)
    | .ok (_ :: _) => keepNew query insert st ps

/-- The choice that keeps a document exactly if no document kept before it is similar. -/
structure FirstFit {D Id : Type} (sim : D → D → Prop) (docs kept : List (Id × D)) : Prop where
  /-- The kept documents are documents of the input, in the order of the input. -/
  sub : kept.Sublist docs
  /-- A document is kept exactly if none of the kept documents before it is similar. -/
  iff : ∀ pre p post, docs = pre ++ p :: post → (p ∈ kept ↔ ∀ k ∈ kept, k ∈ pre → ¬ sim k.2 p.2)

end Verif.Spec
