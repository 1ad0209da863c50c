import Verif.Model.ClusterPar

/-!
# The parallel clusterer with addresses (`gaoya/src/clustering/clusterer_parallel.rs`)

`Model/ClusterPar` gives every cluster a pointer of its own. Here the allocator chooses addresses: the `c`-th box lies at
address `addr c`, and the address of a freed box may be used again. A pointer still carries the number of the box it was made
from (which the code cannot see); all comparisons are between addresses, and an access through a pointer reaches the box
that is at its address now.
-/
namespace Verif
variable {P : Type} [DecidableEq P]

/-- The box that is now at the address of `d`; if there is none, the remains of `d`. clusterer_parallel.rs 245. -/
def PShared.occupant (addr : Nat → Nat) (sh : PShared P) (d : Nat) : Nat :=
  ((List.range sh.heap.length).find? fun e => !(sh.cell e).dropped && addr e == addr d).getD d

/-- `rollback_cluster_points`, clusterer_parallel.rs lines 282-289: `compare_exchange(cluster_ptr, null)` compares addresses. -/
def PShared.unassignAddr (addr : Nat → Nat) (sh : PShared P) (c : Nat) (p : P) : PShared P :=
  match sh.ptr.get? p with
  | some d =>
    if addr d = addr c then
      { sh with ptr := sh.ptr.erase p, past := fun q => if q = p then some d :: sh.past q else sh.past q }
    else sh
  | none => sh

/-- One step of worker `me`, clusterer_parallel.rs lines 193-290. The steps that access no foreign box and compare no
pointers except with null are those of `pstep`. -/
def pstepAddr (addr : Nat → Nat) (min : Nat) (nbrs : P → List P) (k me : Nat) (sh : PShared P) (w : PWorker P) :
    PShared P × PWorker P :=
  match w.pc with
  | .undo c (q :: qs) p rest => (sh.unassignAddr addr c q, { w with pc := .undo c qs p rest })
  | .release c (q :: qs) => (sh.unassignAddr addr c q, { w with pc := .release c qs })
  | .conflict1 c d p rest =>
    if sh.readState k (sh.occupant addr d) = COMMITTED then (sh.deref me d, { w with pc := .giveUp c })
    else (sh.deref me d, { w with pc := .conflict2 c d p rest })
  | .conflict2 c d p rest =>
    if sh.readState k (sh.occupant addr d) = ROLLED_BACK then
      ((sh.deref me d).log (.skipped me c p), { w with pc := .check c rest })
    else (sh.deref me d, { w with pc := .conflict3 c d p rest })
  | .conflict3 c d p rest =>
    if (sh.cell c).clusterId > (sh.cell (sh.occupant addr d)).clusterId then (sh.deref me d, { w with pc := .giveUp c })
    else (sh.deref me d, { w with pc := .conflict4 c d p rest })
  | .conflict4 c d p rest =>
    let e := sh.occupant addr d
    if (sh.cell e).state = 0 then
      ((((sh.deref me d).setState e ROLLED_BACK (.rolledBack me e)).log (.stolen me c p e)).push c p,
        { w with pc := .check c rest })
    else (sh.deref me d, { w with pc := .giveUp c })
  | _ => pstep min nbrs k me sh w

/-- Worker `i` moves. clusterer_parallel.rs 171-173. -/
def PState.stepAddr (addr : Nat → Nat) (min : Nat) (query : P → HSet P) (ord : Nat → Order) (age : Nat → Nat) (s : PState P)
    (i : Nat) : PState P :=
  match s.workers[i]? with
  | none => { s with clock := s.clock + 1 }
  | some w =>
    let r := pstepAddr addr min (fun p => (ord s.clock).perm (query p).elems) (age s.clock) i s.shared w
    { shared := r.1, workers := s.workers.set i r.2, clock := s.clock + 1 }

/-- The machine under a schedule. clusterer_parallel.rs 171-173. -/
def PState.runAddr (addr : Nat → Nat) (min : Nat) (query : P → HSet P) (ord : Nat → Order) (age : Nat → Nat) (s : PState P)
    (sched : List Nat) : PState P :=
  sched.foldl (PState.stepAddr addr min query ord age) s

end Verif
