import Verif.Model.Prelude

/-!
# Parallel clustering (`gaoya/src/clustering/clusterer_parallel.rs`)

A small-step machine. `P` is the type of point objects (`Arc<ClusterPointInner<Id>>`, compared by address). The shared
memory consists of the `cluster` pointers of the points (`ptr`; absent = null), the heap of `Cluster` boxes (a pointer
is a position in `heap`; a dropped box stays in the list with `dropped = true`, so that a later access can be seen) and
the id sequence. Every worker runs `cluster_slice` on its chunk; one step of the machine is at most one access to
shared memory by one worker, and a schedule (list of worker numbers) says who moves.

All atomic operations of the code are `Relaxed`: a load may return a value that has been overwritten since. Every step
therefore has an `age`: 0 reads the latest value, `k + 1` the value that was overwritten `k` writes before the last one
(if there is one). This allows every execution of the C11 model of relaxed atomics without cycles of program order and
reads-from, and more, since a real thread does not read older values than it has seen before. An atomic
read-modify-write that writes reads the latest value, as in C11. With age 0 everywhere (`latest`) the machine is
sequentially consistent. The field `cluster_id` is not atomic; it is written before the pointer is published only.

`trace` is a ghost variable: it records what happened and influences nothing.
-/
namespace Verif
variable {P : Type} [DecidableEq P]

/-- `COMMITTED`, clusterer_parallel.rs line 88. -/
def COMMITTED : Nat := 1
/-- `ROLLED_BACK`, clusterer_parallel.rs line 89: the same number. -/
def ROLLED_BACK : Nat := 1

/-- `Cluster`, clusterer_parallel.rs lines 91-105; `owner` (ghost) is the worker that created it, `dropped` says that the box was freed. -/
structure PCell (P : Type) where
  owner : Nat
  clusterId : Nat
  points : List P
  state : Nat
  dropped : Bool
  /-- states that were overwritten during the call -/
  past : List Nat := []

/-- Ghost events. Not in the code; the events happen in clusterer_parallel.rs 225-290. -/
inductive PEvent (P : Type) where
  /-- worker, cluster: the compare-exchange of `commit` succeeded and the cluster is returned -/
  | committed (worker cluster : Nat)
  /-- worker, cluster: a compare-exchange of `rollback` succeeded -/
  | rolledBack (worker cluster : Nat)
  /-- worker, its cluster, a point, the cluster that owned the point -/
  | stolen (worker cluster : Nat) (point : P) (victim : Nat)
  /-- worker, its cluster, the point that is left out (`i = i - 1`) -/
  | skipped (worker cluster : Nat) (point : P)
  /-- worker, cluster: the box was freed -/
  | freed (worker cluster : Nat)
  /-- worker, cluster: a freed box was accessed -/
  | useAfterFree (worker cluster : Nat)
deriving DecidableEq

/-- Shared memory. clusterer_parallel.rs 20-23 (`cluster`), 91-95, 136-141 (`cluster_id_sequence`). -/
structure PShared (P : Type) where
  ptr : HMap P Nat
  heap : List (PCell P)
  seq : Nat
  trace : List (PEvent P)
  /-- for each point the pointers that were overwritten during the call, the last one first -/
  past : P → List (Option Nat) := fun _ => []

/-- Program counter of a worker, with its local variables. The control points of clusterer_parallel.rs 193-290. -/
inductive Pc (P : Type) where
  /-- loop head of `cluster_slice`, line 201 -/
  | next
  /-- lines 205-207: similar points still to look at, those kept -/
  | filter (rest acc : List P)
  /-- loop head of `try_create_cluster`, lines 232-235: own cluster, points still to assign -/
  | check (c : Nat) (rest : List P)
  /-- line 235, `rollback_cluster_points` before the assignment of `p` -/
  | undo (c : Nat) (todo : List P) (p : P) (rest : List P)
  /-- line 238, `assign_cluster` -/
  | assign (c : Nat) (p : P) (rest : List P)
  /-- line 246, `is_commited` of the conflicting cluster `d` -/
  | conflict1 (c d : Nat) (p : P) (rest : List P)
  /-- line 250, `is_rolled_back` -/
  | conflict2 (c d : Nat) (p : P) (rest : List P)
  /-- line 252, comparison of ids -/
  | conflict3 (c d : Nat) (p : P) (rest : List P)
  /-- line 258, `conflict_cluster.rollback()` -/
  | conflict4 (c d : Nat) (p : P) (rest : List P)
  /-- lines 247, 254, 262, `cluster.rollback()` -/
  | giveUp (c : Nat)
  /-- lines 248, 255, 263, 271, `rollback_cluster_points`, then the box is dropped -/
  | release (c : Nat) (todo : List P)
  /-- line 270, `cluster.commit()` -/
  | commit (c : Nat)
  /-- end of `cluster_slice` -/
  | done

/-- A worker: program counter, points not yet looked at, clusters created (pointers).
clusterer_parallel.rs 193-220. -/
structure PWorker (P : Type) where
  pc : Pc P
  todo : List P
  out : List Nat

/-- The machine. clusterer_parallel.rs 165-175. -/
structure PState (P : Type) where
  shared : PShared P
  workers : List (PWorker P)
  clock : Nat

/-- The cell behind a pointer. clusterer_parallel.rs 229-230, 245. -/
def PShared.cell (sh : PShared P) (c : Nat) : PCell P := sh.heap.getD c ⟨0, 0, [], 0, true, []⟩

/-- A load of the pointer of `p`. clusterer_parallel.rs 39-41, 202. -/
def PShared.readPtr (sh : PShared P) : Nat → P → Option Nat
  | 0, p => sh.ptr.get? p
  | k + 1, p => ((sh.past p)[k]?).getD (sh.ptr.get? p)

/-- A load of the state of cluster `c`. clusterer_parallel.rs 122-128. -/
def PShared.readState (sh : PShared P) : Nat → Nat → Nat
  | 0, c => (sh.cell c).state
  | k + 1, c => ((sh.cell c).past[k]?).getD (sh.cell c).state

/-- What the compare-exchange of `assign_cluster` reads: a pointer, perhaps an old one, or null, and then it is the
latest value. clusterer_parallel.rs 49-59. -/
def PShared.readAssign (sh : PShared P) (k : Nat) (p : P) : Option Nat := (sh.readPtr k p).or (sh.ptr.get? p)

/-- A ghost event. Not in the code; used for clusterer_parallel.rs 225-290. -/
def PShared.log (sh : PShared P) (e : PEvent P) : PShared P := { sh with trace := sh.trace ++ [e] }

/-- Access through a pointer: recorded when the box has been freed (the stale content is read).
clusterer_parallel.rs 245-258. -/
def PShared.deref (sh : PShared P) (me d : Nat) : PShared P :=
  if (sh.cell d).dropped then sh.log (.useAfterFree me d) else sh

/-- clusterer_parallel.rs lines 226-230: the id sequence and a new box. The sequence is an `AtomicU32`, so ids wrap. -/
def PShared.alloc (sh : PShared P) (me : Nat) : PShared P :=
  { sh with heap := sh.heap ++ [{ owner := me, clusterId := (sh.seq + 1) % 2 ^ 32, points := [], state := 0,
                                  dropped := false }]
            seq := sh.seq + 1 }

/-- `cluster.points.push(point.clone())`. clusterer_parallel.rs 240, 259. -/
def PShared.push (sh : PShared P) (c : Nat) (p : P) : PShared P :=
  { sh with heap := sh.heap.modify c fun cell => { cell with points := cell.points ++ [p] } }

/-- Compare-exchange of the state from 0 (`commit` 110-114, `rollback` 116-120 succeed). Only 0 is ever overwritten, so
that a failing exchange has read the latest value, too.
clusterer_parallel.rs 110-120. -/
def PShared.setState (sh : PShared P) (c : Nat) (v : Nat) (e : PEvent P) : PShared P :=
  { sh with heap := sh.heap.modify c fun cell => { cell with state := v, past := cell.state :: cell.past }
            trace := sh.trace ++ [e] }

/-- The body of `rollback_cluster_points`, clusterer_parallel.rs lines 282-289: `compare_exchange(cluster_ptr, null)`.
The worker itself has written `cluster_ptr`, and nobody else replaces it, so that it reads this value when it is there. -/
def PShared.unassign (sh : PShared P) (c : Nat) (p : P) : PShared P :=
  if sh.ptr.get? p = some c then { sh with ptr := sh.ptr.erase p, past := fun q => if q = p then some c :: sh.past q else sh.past q }
  else sh

/-- `assign_cluster`, clusterer_parallel.rs lines 49-59, when the pointer is null. -/
def PShared.setPtr (sh : PShared P) (p : P) (c : Nat) : PShared P := { sh with ptr := sh.ptr.insert p c, past := fun q => if q = p then none :: sh.past q else sh.past q }

/-- The box goes out of scope. clusterer_parallel.rs 249, 256, 264, 272. -/
def PShared.free (sh : PShared P) (me c : Nat) : PShared P :=
  { sh with heap := sh.heap.modify c fun cell => { cell with dropped := true }
            trace := sh.trace ++ [.freed me c] }

/-- One step of worker `me`; `min` is `min_cluster_size` and `nbrs` the result of `query_index.query` (in its
iteration order), `k` the age of the value that a load returns. `cluster_slice` clusterer_parallel.rs lines 193-220, `try_create_cluster` lines 225-275. -/
def pstep (min : Nat) (nbrs : P → List P) (k me : Nat) (sh : PShared P) (w : PWorker P) : PShared P × PWorker P :=
  match w.pc with
  | .next =>
    match w.todo with
    | [] => (sh, { w with pc := .done })
    | p :: rest =>
      if (sh.readPtr k p).isSome then (sh, { w with todo := rest })
      else (sh, { w with pc := .filter (nbrs p) [], todo := rest })
  | .filter (q :: qs) acc =>
    if (sh.readPtr k q).isNone then (sh, { w with pc := .filter qs (acc ++ [q]) })
    else (sh, { w with pc := .filter qs acc })
  | .filter [] acc =>
    if acc.length ≥ min then (sh.alloc me, { w with pc := .check sh.heap.length acc })
    else (sh, { w with pc := .next })
  | .check c [] => (sh, { w with pc := .commit c })
  | .check c (p :: rest) =>
    if sh.readState k c = ROLLED_BACK then (sh, { w with pc := .undo c (sh.cell c).points p rest })
    else (sh, { w with pc := .assign c p rest })
  | .undo c [] p rest => (sh, { w with pc := .assign c p rest })
  | .undo c (q :: qs) p rest => (sh.unassign c q, { w with pc := .undo c qs p rest })
  | .assign c p rest =>
    match sh.readAssign k p with
    | none => ((sh.setPtr p c).push c p, { w with pc := .check c rest })
    | some d => (sh, { w with pc := .conflict1 c d p rest })
  | .conflict1 c d p rest =>
    if sh.readState k d = COMMITTED then (sh.deref me d, { w with pc := .giveUp c })
    else (sh.deref me d, { w with pc := .conflict2 c d p rest })
  | .conflict2 c d p rest =>
    if sh.readState k d = ROLLED_BACK then
      -- `i = i - 1` changes the loop variable of this iteration only: the point is left out
      ((sh.deref me d).log (.skipped me c p), { w with pc := .check c rest })
    else (sh.deref me d, { w with pc := .conflict3 c d p rest })
  | .conflict3 c d p rest =>
    if (sh.cell c).clusterId > (sh.cell d).clusterId then (sh.deref me d, { w with pc := .giveUp c })
    else (sh.deref me d, { w with pc := .conflict4 c d p rest })
  | .conflict4 c d p rest =>
    if (sh.cell d).state = 0 then
      ((((sh.deref me d).setState d ROLLED_BACK (.rolledBack me d)).log (.stolen me c p d)).push c p, { w with pc := .check c rest })
    else (sh.deref me d, { w with pc := .giveUp c })
  | .giveUp c =>
    if (sh.cell c).state = 0 then
      (sh.setState c ROLLED_BACK (.rolledBack me c), { w with pc := .release c (sh.cell c).points })
    else (sh, { w with pc := .release c (sh.cell c).points })
  | .release c (q :: qs) => (sh.unassign c q, { w with pc := .release c qs })
  | .release c [] => (sh.free me c, { w with pc := .next })
  | .commit c =>
    if (sh.cell c).state = 0 then
      (sh.setState c COMMITTED (.committed me c), { w with pc := .next, out := w.out ++ [c] })
    else (sh, { w with pc := .release c (sh.cell c).points })
  | .done => (sh, w)

/-- All loads return the latest value: sequential consistency. A special case, for clusterer_parallel.rs 165-290. -/
def latest : Nat → Nat := fun _ => 0

/-- Worker `i` moves; `query` is the index, `ord` the iteration order of the set it returns at each time, `age` the age
of the values that loads return.
clusterer_parallel.rs 171-173. -/
def PState.step (min : Nat) (query : P → HSet P) (ord : Nat → Order) (age : Nat → Nat) (s : PState P) (i : Nat) : PState P :=
  match s.workers[i]? with
  | none => { s with clock := s.clock + 1 }
  | some w =>
    let r := pstep min (fun p => (ord s.clock).perm (query p).elems) (age s.clock) i s.shared w
    { shared := r.1, workers := s.workers.set i r.2, clock := s.clock + 1 }

/-- The machine under a schedule. clusterer_parallel.rs 171-173. -/
def PState.run (min : Nat) (query : P → HSet P) (ord : Nat → Order) (age : Nat → Nat) (s : PState P) (sched : List Nat) : PState P :=
  sched.foldl (PState.step min query ord age) s

/-- `sort_by_most_number_of_similar_points`, clusterer_parallel.rs lines 177-191 (`sort_by` is a stable sort). -/
def sortByMostSimilar {Id : Type} [DecidableEq Id] (idOf : P → Id) (query : P → HSet P) (points : List P) :
    Except Panic (List P) := do
  let pointCount := points.foldl (fun m p => m.insert (idOf p) (query p).elems.length) (HMap.empty : HMap Id Nat)
  let counted ← points.mapM fun p => do
    let count ← unwrap (pointCount.get? (idOf p))
    pure (count, p)
  pure ((counted.mergeSort fun a b => decide (b.1 ≤ a.1)).map Prod.snd)

/-- `[T]::chunks_mut(n)`. Rayon, used in clusterer_parallel.rs 171. -/
def chunks (n : Nat) (l : List P) : List (List P) :=
  (List.range ((l.length + n - 1) / n)).map fun i => (l.drop (i * n)).take n

/-- The machine at the start of the workers, each on its (sorted) chunk. clusterer_parallel.rs 171-173, 198-199. -/
def PState.start (sh : PShared P) (slices : List (List P)) : PState P :=
  { shared := sh, workers := slices.map fun slice => { pc := .next, todo := slice, out := [] }, clock := 0 }

/-- `Clusterer::cluster`, clusterer_parallel.rs lines 157-163: one worker on all points. -/
def parClusterStart {Id : Type} [DecidableEq Id] (idOf : P → Id) (query : P → HSet P) (sh : PShared P)
    (points : List P) : Except Panic (PState P) := do
  let slice ← sortByMostSimilar idOf query points
  pure (PState.start sh [slice])

/-- `Clusterer::cluster_par`, clusterer_parallel.rs lines 165-175, up to the start of the workers: division by zero panics, and so does
`par_chunks_mut(0)`. -/
def clusterParStart {Id : Type} [DecidableEq Id] (idOf : P → Id) (query : P → HSet P) (sh : PShared P)
    (nThreads : Nat) (points : List P) : Except Panic (PState P) :=
  if nThreads = 0 then .error .overflow
  else
    let chunkSize := points.length / nThreads
    if chunkSize = 0 then .error .invalidArg
    else do
      let slices ← (chunks chunkSize points).mapM (sortByMostSimilar idOf query)
      pure (PState.start sh slices)

/-- All workers are at their end. clusterer_parallel.rs 173, 219. -/
def PState.finished (s : PState P) : Prop := ∀ w ∈ s.workers, w.pc = .done

/-- What `cluster_par` returns at the end (clusterer_parallel.rs lines 170-174): the clusters of all workers, in the order of the chunks. -/
def PState.result (s : PState P) : List (PCell P) :=
  (s.workers.flatMap fun w => w.out).map s.shared.cell

/-- Memory of a fresh clusterer over unassigned points. clusterer_parallel.rs 32-37, 148-155. -/
def PShared.init : PShared P := { ptr := HMap.empty, heap := [], seq := 0, trace := [] }

end Verif
