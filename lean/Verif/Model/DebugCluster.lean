import Verif.Model.ClusterPar

/-!
# Debug builds of the parallel clusterer (`gaoya/src/clustering/clusterer_parallel.rs`)

In a debug build arithmetic overflow panics. Two places of the clusterer can overflow: `fetch_add(1) + 1` on the id
sequence (line 226) and `i = i - 1` (line 251). The machine is that of `Model/ClusterPar` with the loop variable `i` of
`try_create_cluster` and a flag for workers that have panicked. Rayon passes the panic of a worker on to the caller of
`cluster_par`; other workers may go on until then.
-/
namespace Verif
variable {P : Type} [DecidableEq P]

/-- A worker of a debug build. `i` is the loop variable of line 232. clusterer_parallel.rs 193-275. -/
structure DWorker (P : Type) where
  w : PWorker P
  i : Nat
  panicked : Bool

/-- The loop variable after a step that did not start a loop: the loop of line 232 goes on with the next `i` when its
head is reached. clusterer_parallel.rs 232. -/
def nextIndex (i : Nat) : Pc P → Nat
  | .check _ _ => i + 1
  | _ => i

/-- One step of worker `me` of a debug build. A panic in line 226 happens after the sequence was advanced; a panic in line
251 drops the box of the own cluster. clusterer_parallel.rs lines 193-275. -/
def dstep (min : Nat) (nbrs : P → List P) (k me : Nat) (sh : PShared P) (d : DWorker P) : PShared P × DWorker P :=
  if d.panicked then (sh, d)
  else
    let r := pstep min nbrs k me sh d.w
    match d.w.pc with
    | .filter [] acc =>
      if acc.length ≥ min ∧ (sh.seq + 1) % 2 ^ 32 = 0 then ({ sh with seq := sh.seq + 1 }, { d with panicked := true })
      else (r.1, { w := r.2, i := 0, panicked := false })
    | .conflict2 c x _ _ =>
      if sh.readState k x = ROLLED_BACK ∧ d.i = 0 then ((sh.deref me x).free me c, { d with panicked := true })
      else (r.1, { w := r.2, i := nextIndex d.i r.2.pc, panicked := false })
    | _ => (r.1, { w := r.2, i := nextIndex d.i r.2.pc, panicked := false })

/-- The machine of a debug build. clusterer_parallel.rs 165-175. -/
structure DState (P : Type) where
  shared : PShared P
  workers : List (DWorker P)
  clock : Nat

/-- Worker `i` of a debug build moves. clusterer_parallel.rs 171-173. -/
def DState.step (min : Nat) (query : P → HSet P) (ord : Nat → Order) (age : Nat → Nat) (s : DState P) (i : Nat) : DState P :=
  match s.workers[i]? with
  | none => { s with clock := s.clock + 1 }
  | some w =>
    let r := dstep min (fun p => (ord s.clock).perm (query p).elems) (age s.clock) i s.shared w
    { shared := r.1, workers := s.workers.set i r.2, clock := s.clock + 1 }

/-- The machine under a schedule. clusterer_parallel.rs 171-173. -/
def DState.run (min : Nat) (query : P → HSet P) (ord : Nat → Order) (age : Nat → Nat) (s : DState P) (sched : List Nat) : DState P :=
  sched.foldl (DState.step min query ord age) s

/-- The start of the workers in a debug build. clusterer_parallel.rs 171-173, 198-199. -/
def DState.ofRelease (s : PState P) : DState P :=
  { shared := s.shared, workers := s.workers.map fun w => { w := w, i := 0, panicked := false }, clock := s.clock }

/-- Some worker has panicked, and so does the call. clusterer_parallel.rs 171-174. -/
def DState.panics (s : DState P) : Bool := s.workers.any fun w => w.panicked

/-- The state without the loop variables. clusterer_parallel.rs 165-175. -/
def DState.state (s : DState P) : PState P :=
  { shared := s.shared, workers := s.workers.map fun w => w.w, clock := s.clock }

end Verif
