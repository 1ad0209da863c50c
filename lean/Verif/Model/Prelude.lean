import Mathlib.Data.List.Nodup
import Mathlib.Data.List.Basic

/-!
# Rust and library semantics shared by the whole model (trusted)

* `Panic` / `Except Panic α`: a Rust panic is an explicit error value.
* `HMap`, `HSet`: `std::collections::HashMap` / `HashSet` as association lists / lists without repeated keys.
* `Order`: the unspecified iteration order of hash maps and the unspecified tie-breaking of unstable sorts.
* `parMap`, `parForEach`: rayon's `par_iter().map().collect()` and `par_iter_mut().for_each()` under an
  arbitrary schedule.
-/
namespace Verif

/-- The kinds of Rust panic that the modelled code can raise.
asserts, indexing and unwraps, e.g. minhash_index.rs 421, 490, 631, mod.rs 119. -/
inductive Panic where
  | assert      -- failed `assert!` / `assert_eq!`
  | index       -- slice or map index out of bounds
  | unwrap      -- `unwrap` on `None`
  | overflow    -- checked arithmetic overflow
  | invalidArg  -- library precondition (`par_chunks(0)`, `Uniform` of an empty range, ...)
  | outOfFuel   -- not a panic: a loop that is given explicit fuel has not ended
deriving DecidableEq, Repr

/-- `Option::unwrap`. e.g. minhash_index.rs 543, 804. -/
def unwrap {α : Type} : Option α → Except Panic α
  | some a => .ok a
  | none => .error .unwrap

/-- `&s[start..end]`. minhash_index.rs 148, 158, 168, 223. -/
def slice {α : Type} (l : List α) (s e : Nat) : Except Panic (List α) :=
  if s ≤ e ∧ e ≤ l.length then .ok ((l.drop s).take (e - s)) else .error .index

/-! ### Hash sets -/

/-- `HashSet<α>`: a list without repetition. The list order is a representation artefact; code that iterates
over a set does so through an `Order`. Std, used in minhash_index.rs 533-628. -/
structure HSet (α : Type) where
  elems : List α
  nodup : elems.Nodup

namespace HSet
variable {α : Type}

/-- `HashSet::new`. Std, used in minhash_index.rs 117, 369, 533. -/
def empty : HSet α := ⟨[], List.nodup_nil⟩

/-- Needed by `getD` and the like; not in the code (minhash_index.rs 102, 533 use the type). -/
instance : Inhabited (HSet α) := ⟨empty⟩

/-- `HashSet::insert`. Std, used in minhash_index.rs 425, id_container.rs 44-71. -/
def insert [DecidableEq α] (s : HSet α) (a : α) : HSet α :=
  if h : a ∈ s.elems then s else ⟨a :: s.elems, List.nodup_cons.mpr ⟨h, s.nodup⟩⟩

/-- `HashSet::remove`. Std, used in minhash_index.rs 229, 686, id_container.rs 44-71. -/
def erase [DecidableEq α] (s : HSet α) (a : α) : HSet α :=
  ⟨s.elems.filter (fun x => x ≠ a), s.nodup.filter _⟩

/-- `HashSet::len`. Std, used in minhash_index.rs 489, 716, id_container.rs 44-71. -/
def len (s : HSet α) : Nat := s.elems.length

/-- `HashSet::extend` (also `FromIterator`, starting from the empty set).
Std, used in id_container.rs 44-145, mod.rs 86-95. -/
def extend [DecidableEq α] (s : HSet α) (l : List α) : HSet α := l.foldl insert s

/-- `HashSet::contains`. Std, used in mod.rs 86-95. -/
def contains [DecidableEq α] (s : HSet α) (a : α) : Bool := decide (a ∈ s.elems)

/-- `HashSet::retain` with a total predicate. Std, used in minhash_index.rs 553-560. -/
def filter (s : HSet α) (p : α → Bool) : HSet α := ⟨s.elems.filter p, s.nodup.filter _⟩

/-- `HashSet::retain` with a predicate that may panic: if the predicate panics on some element the call
panics, otherwise exactly the elements with answer `true` stay. Std, used in minhash_index.rs 553-560, 589-596. -/
def retainE (s : HSet α) (p : α → Except Panic Bool) : Except Panic (HSet α) :=
  match s.elems.mapM p with
  | .error e => .error e
  | .ok _ => .ok (s.filter fun a => match p a with | .ok b => b | .error _ => false)

end HSet

/-! ### Hash maps -/

/-- `HashMap<κ, ν>`: an association list without repeated keys. Std, used in minhash_index.rs 102, 323. -/
structure HMap (κ ν : Type) where
  entries : List (κ × ν)
  nodup : (entries.map Prod.fst).Nodup

namespace HMap
variable {κ ν : Type}

/-- `HashMap::new`. Std, used in minhash_index.rs 117, 369, 533. -/
def empty : HMap κ ν := ⟨[], List.nodup_nil⟩

/-- Needed by `getD` and the like; not in the code (minhash_index.rs 102, 533 use the type). -/
instance : Inhabited (HMap κ ν) := ⟨empty⟩

/-- `HashMap::get`. Std, used in minhash_index.rs 160, 504, 554. -/
def get? [DecidableEq κ] (m : HMap κ ν) (k : κ) : Option ν :=
  (m.entries.find? (fun e => e.1 = k)).map Prod.snd

/-- `HashMap::remove` (the map part). Std, used in minhash_index.rs 229, 686, id_container.rs 44-71. -/
def erase [DecidableEq κ] (m : HMap κ ν) (k : κ) : HMap κ ν :=
  ⟨m.entries.filter (fun e => e.1 ≠ k), by
    have := (List.filter_sublist (l := m.entries) (p := fun e => decide (e.1 ≠ k))).map Prod.fst
    exact this.nodup m.nodup⟩

theorem notMem_erase_keys [DecidableEq κ] (m : HMap κ ν) (k : κ) :
    k ∉ (m.erase k).entries.map Prod.fst := by
  simp [erase]

/-- `HashMap::insert`: overwrites. Std, used in minhash_index.rs 425, id_container.rs 44-71. -/
def insert [DecidableEq κ] (m : HMap κ ν) (k : κ) (v : ν) : HMap κ ν :=
  ⟨(k, v) :: (m.erase k).entries, by
    simpa using ⟨by simpa using notMem_erase_keys m k, (m.erase k).nodup⟩⟩

/-- `HashMap::len`. Std, used in minhash_index.rs 489, 716, id_container.rs 44-71. -/
def len (m : HMap κ ν) : Nat := m.entries.length

/-- The keys. Std, the key set of minhash_index.rs 102, 323. -/
def keys (m : HMap κ ν) : List κ := m.entries.map Prod.fst

/-- `map.entry(k).or_insert_with(|| d)` followed by an in-place update `f`. minhash_index.rs 150-153. -/
def upsert [DecidableEq κ] (m : HMap κ ν) (k : κ) (d : ν) (f : ν → ν) : HMap κ ν :=
  m.insert k (f ((m.get? k).getD d))

end HMap

/-! ### Unspecified order -/

/-- An iteration order for hash collections: any permutation.
Std and rand, for minhash_index.rs 538, 553, 630, 648. -/
structure Order where
  perm : {α : Type} → List α → List α
  isPerm : ∀ {α : Type} (l : List α), (perm l).Perm l

/-- The order used in examples: as stored. Not in the code; for examples about minhash_index.rs 538. -/
def Order.id : Order := ⟨fun l => l, fun l => List.Perm.refl l⟩
/-- Another order for examples: reversed. Not in the code; for examples about minhash_index.rs 538. -/
def Order.rev : Order := ⟨fun l => l.reverse, fun l => List.reverse_perm l⟩

/-- `HashMap::shrink_to_fit` / `shrink_to`: the table is rebuilt, so the content stays and the iteration order
may change. minhash_index.rs 251-263, 475, 494. -/
def HMap.rehash {κ ν : Type} (o : Order) (m : HMap κ ν) : HMap κ ν :=
  ⟨o.perm m.entries, ((o.isPerm m.entries).map Prod.fst).nodup_iff.mpr m.nodup⟩

/-- `sort_unstable_by` with a total comparison: an arbitrary permutation followed by a stable sort gives
every sorted arrangement of ties. Std, used in minhash_index.rs 637, 656. -/
def sortUnstable {α : Type} (o : Order) (le : α → α → Bool) (l : List α) : List α :=
  (o.perm l).mergeSort le

/-- `Iterator::max_by` over a total comparison: the last maximal element. Std, used in minhash_index.rs 543. -/
def maxBy {α : Type} (cmp : α → α → Ordering) : List α → Option α
  | [] => none
  | x :: xs => some (xs.foldl (fun best y => if cmp best y = .gt then best else y) x)

/-- `Iterator::min_by` over a total comparison: the first minimal element. Std, used in sim_hash_index.rs 174-181. -/
def minBy {α : Type} (cmp : α → α → Ordering) : List α → Option α
  | [] => none
  | x :: xs => some (xs.foldl (fun best y => if cmp best y = .gt then y else best) x)

/-- `for x in items.iter_mut() { f(x) }` where `f` may panic: items before the panic are updated, the
others are untouched. minhash_index.rs 422-424, 499, 688-693. -/
def forEachMut {σ : Type} (f : σ → Except Panic σ) : List σ → List σ × Except Panic Unit
  | [] => ([], .ok ())
  | x :: xs =>
    match f x with
    | .error e => (x :: xs, .error e)
    | .ok y => (y :: (forEachMut f xs).1, (forEachMut f xs).2)

/-! ### Rayon -/

/-- One step of the parallel map: the thread scheduled on item `i` computes `f` and writes slot `i`.
Rayon, used in mod.rs 54-72, minhash_index.rs 600-618. -/
def parMapStep {α β : Type} (f : α → β) (l : List α) (slots : List (Option β)) (i : Nat) :
    List (Option β) :=
  match l[i]? with
  | some a => slots.set i (some (f a))
  | none => slots

/-- `l.par_iter().map(f).collect()`: the schedule says in which order items are computed; items not
mentioned are computed at the end. Rayon, used in mod.rs 54-72, minhash_index.rs 600-618. -/
def parMap {α β : Type} (f : α → β) (l : List α) (sched : List Nat) : List β :=
  let slots := sched.foldl (parMapStep f l) (List.replicate l.length none)
  (slots.zip l).map fun p => p.1.getD (f p.2)

/-- A worker of `par_iter_mut().for_each(..)`: its item, the operations left, and whether it panicked.
Rayon, used in minhash_index.rs 428-467. -/
structure Worker (σ ω : Type) where
  st : σ
  pending : List ω
  dead : Option Panic

/-- A worker executes its next operation. Rayon, used in minhash_index.rs 428-467. -/
def Worker.step {σ ω : Type} (f : σ → ω → Except Panic σ) (w : Worker σ ω) : Worker σ ω :=
  match w.dead, w.pending with
  | none, op :: rest =>
      match f w.st op with
      | .ok s => ⟨s, rest, none⟩
      | .error e => ⟨w.st, op :: rest, some e⟩
  | _, _ => w

/-- A worker runs until it is done or panics. Rayon, used in minhash_index.rs 428-467. -/
def Worker.finish {σ ω : Type} (f : σ → ω → Except Panic σ) (w : Worker σ ω) : Worker σ ω :=
  w.pending.foldl (fun w _ => w.step f) w

/-- First panic among the workers. Rayon, used in minhash_index.rs 428-467. -/
def firstPanic {σ ω : Type} (ws : List (Worker σ ω)) : Option Panic := ws.findSome? Worker.dead

/-- `items.par_iter_mut().for_each(|it| for op in ops { f(it, op) })`. The schedule interleaves the workers
operation by operation. If a worker panics within the schedule the call panics and leaves the items as they
are at that point (the other workers are abandoned anywhere); otherwise all workers finish.
Rayon, used in minhash_index.rs 428-467. -/
def parForEach {σ ω : Type} (f : σ → ω → Except Panic σ) (items : List σ) (ops : List ω)
    (sched : List Nat) : List σ × Except Panic Unit :=
  let ws1 := sched.foldl (fun ws i => ws.modify i (Worker.step f)) (items.map (Worker.mk · ops none))
  match firstPanic ws1 with
  | some e => (ws1.map Worker.st, .error e)
  | none =>
    let ws2 := ws1.map (Worker.finish f)
    match firstPanic ws2 with
    | some e => (ws2.map Worker.st, .error e)
    | none => (ws2.map Worker.st, .ok ())

end Verif
