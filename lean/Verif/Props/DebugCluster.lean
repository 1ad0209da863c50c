import Verif.Lemmas.DebugCluster
import Verif.Props.ClusterReal

/-!
# Parallel clustering in a debug build (C131)
-/
set_option linter.unusedSectionVars false
namespace Verif.Props
open Verif.Spec
variable {P : Type} [DecidableEq P] {Id : Type} [DecidableEq Id]

/-! ### Where the release build passes an overflow -/

theorem pstep_seq (min : Nat) (nbrs : P → List P) (k me : Nat) (sh : PShared P) (w : PWorker P) :
    ((pstep min nbrs k me sh w).1.seq = sh.seq + 1 ∧ ∃ acc, w.pc = .filter [] acc ∧ min ≤ acc.length) ∨
    ((pstep min nbrs k me sh w).1.seq = sh.seq ∧ ∀ acc, w.pc = .filter [] acc → acc.length < min) := by
  have hd : ∀ d, (sh.deref me d).seq = sh.seq := fun d => by
    rcases deref_cases sh me d with e | e
    · rw [e]
    · rw [e.1]; rfl
  obtain ⟨pc, todo, out⟩ := w
  cases pc with
  | next =>
    refine Or.inr ⟨?_, by simp⟩
    cases todo with
    | nil => rfl
    | cons p rest => simp only [pstep]; split_ifs <;> rfl
  | filter qs acc =>
    cases qs with
    | cons q qs =>
      refine Or.inr ⟨?_, by simp⟩
      simp only [pstep]; split_ifs <;> rfl
    | nil =>
      simp only [pstep]
      split_ifs with h
      · exact Or.inl ⟨rfl, acc, rfl, h⟩
      · refine Or.inr ⟨rfl, fun acc' e => ?_⟩
        injection e with _ e
        subst e
        omega
  | check c rest =>
    refine Or.inr ⟨?_, by simp⟩
    cases rest with
    | nil => rfl
    | cons p rest => simp only [pstep]; split_ifs <;> rfl
  | undo c qs p rest =>
    refine Or.inr ⟨?_, by simp⟩
    cases qs <;> simp [pstep]
  | assign c p rest =>
    refine Or.inr ⟨?_, by simp⟩
    simp only [pstep]
    cases sh.readAssign k p <;> simp
  | release c qs =>
    refine Or.inr ⟨?_, by simp⟩
    cases qs <;> simp [pstep]
  | done => exact Or.inr ⟨rfl, by simp⟩
  | _ =>
    refine Or.inr ⟨?_, by simp⟩
    simp only [pstep]
    split_ifs <;> simp [hd]

theorem pstep_skipped (min : Nat) (nbrs : P → List P) (k me : Nat) (sh : PShared P) (w : PWorker P) (i c : Nat) (p : P)
    (h : .skipped i c p ∈ (pstep min nbrs k me sh w).1.trace) :
    .skipped i c p ∈ sh.trace ∨ (i = me ∧ ∃ d rest, w.pc = .conflict2 c d p rest ∧ sh.readState k d = ROLLED_BACK) := by
  have hder : ∀ d, .skipped i c p ∈ (sh.deref me d).trace → .skipped i c p ∈ sh.trace := by
    intro d h
    rcases deref_cases sh me d with e | e
    · rwa [e] at h
    · rw [e.1, trace_log] at h
      simpa using h
  obtain ⟨pc, todo, out⟩ := w
  cases pc with
  | next =>
    left
    cases todo with
    | nil => exact h
    | cons q rest => simp only [pstep] at h; split_ifs at h <;> exact h
  | filter qs acc =>
    left
    cases qs with
    | cons q qs => simp only [pstep] at h; split_ifs at h <;> exact h
    | nil => simp only [pstep] at h; split_ifs at h <;> exact h
  | check x rest =>
    left
    cases rest with
    | nil => exact h
    | cons q rest => simp only [pstep] at h; split_ifs at h <;> exact h
  | undo x qs q rest =>
    left
    cases qs <;> simpa [pstep] using h
  | assign x q rest =>
    left
    simp only [pstep] at h
    cases hr : sh.readAssign k q <;> rw [hr] at h <;> exact h
  | conflict1 x d q rest =>
    left
    simp only [pstep] at h
    split_ifs at h <;> exact hder _ h
  | conflict2 x d q rest =>
    simp only [pstep] at h
    split_ifs at h with hs
    · rw [trace_log, List.mem_append] at h
      rcases h with h | h
      · exact Or.inl (hder _ h)
      · simp only [List.mem_singleton, PEvent.skipped.injEq] at h
        obtain ⟨rfl, rfl, rfl⟩ := h
        exact Or.inr ⟨rfl, d, rest, rfl, hs⟩
    · exact Or.inl (hder _ h)
  | conflict3 x d q rest =>
    left
    simp only [pstep] at h
    split_ifs at h <;> exact hder _ h
  | conflict4 x d q rest =>
    left
    simp only [pstep] at h
    split_ifs at h
    · simp only [trace_push, trace_log, trace_setState, List.mem_append, List.mem_singleton, reduceCtorEq, or_false] at h
      exact hder _ h
    · exact hder _ h
  | giveUp x =>
    left
    simp only [pstep] at h
    split_ifs at h
    · simpa [trace_setState] using h
    · exact h
  | release x qs =>
    left
    cases qs
    · simpa [pstep, trace_free] using h
    · simpa [pstep] using h
  | commit x =>
    left
    simp only [pstep] at h
    split_ifs at h
    · simpa [trace_setState] using h
    · exact h
  | done => exact Or.inl h

/-- The first point of a cluster is left out: in the run of the release build under `sched`, at some time worker `me`
leaves point `p` out of cluster `c`, which has no point yet and from which none was left out before. -/
def FirstLeftOut (min : Nat) (query : P → HSet P) (ord : Nat → Order) (age : Nat → Nat) (s0 : PState P) (sched : List Nat) :
    Prop :=
  ∃ pre me c p, pre ++ [me] <+: sched ∧
    ((s0.run min query ord age pre).shared.cell c).points = [] ∧
    (∀ i q, .skipped i c q ∉ (s0.run min query ord age pre).shared.trace) ∧
    .skipped me c p ∈ (s0.run min query ord age (pre ++ [me])).shared.trace

theorem skips_zero_iff (sh : PShared P) (c : Nat) : skips sh c = 0 ↔ ∀ i q, .skipped i c q ∉ sh.trace := by
  unfold skips
  rw [List.countP_eq_zero]
  constructor
  · intro h i q hm
    have := h _ hm
    simp at this
  · intro h e he
    cases e <;> simp
    rintro rfl
    exact h _ _ he

theorem run_snoc (min : Nat) (query : P → HSet P) (ord : Nat → Order) (age : Nat → Nat) (s : PState P) (l : List Nat) (a : Nat) :
    s.run min query ord age (l ++ [a]) = (s.run min query ord age l).step min query ord age a := by
  simp [PState.run]

theorem step_seq (min : Nat) (query : P → HSet P) (ord : Nat → Order) (age : Nat → Nat) (s : PState P) (me : Nat) :
    (s.step min query ord age me).shared.seq = s.shared.seq ∨
    (s.step min query ord age me).shared.seq = s.shared.seq + 1 := by
  unfold PState.step
  cases s.workers[me]? with
  | none => exact Or.inl rfl
  | some w => exact (pstep_seq min _ (age s.clock) me s.shared w).symm.imp And.left And.left

theorem overflow_iff (min : Nat) (query : P → HSet P) (ord : Nat → Order) (age : Nat → Nat) (s0 : PState P)
    (sched : List Nat) :
    (∃ pre me, pre ++ [me] <+: sched ∧ Overflows min age (s0.run min query ord age pre) me) ↔
    s0.shared.seq / 2 ^ 32 < (s0.run min query ord age sched).shared.seq / 2 ^ 32 ∨
      FirstLeftOut min query ord age s0 sched := by
  have hmono : ∀ l m : List Nat, (s0.run min query ord age l).shared.seq ≤ (s0.run min query ord age (l ++ m)).shared.seq := by
    intro l m
    induction m using List.reverseRecOn with
    | nil => simp
    | append_singleton m a ih =>
      rw [← List.append_assoc, run_snoc]
      rcases step_seq min query ord age (s0.run min query ord age (l ++ m)) a with h | h <;> omega
  have hmono' : ∀ l m : List Nat, l <+: m → (s0.run min query ord age l).shared.seq ≤ (s0.run min query ord age m).shared.seq := by
    rintro l _ ⟨m, rfl⟩
    exact hmono l m
  constructor
  · rintro ⟨pre, me, hp, w, hw, hov⟩
    rcases hov with ⟨acc, hpc, hlen, hseq⟩ | ⟨c, d, p, rest, hpc, hst, hh⟩
    · left
      have h1 := hmono' [] pre List.nil_prefix
      have h2 := hmono' (pre ++ [me]) sched hp
      have h3 : (s0.run min query ord age (pre ++ [me])).shared.seq = (s0.run min query ord age pre).shared.seq + 1 := by
        rw [run_snoc]
        unfold PState.step
        rw [hw]
        rcases pstep_seq min (fun p => (ord (s0.run min query ord age pre).clock).perm (query p).elems)
          (age (s0.run min query ord age pre).clock) me (s0.run min query ord age pre).shared w with h | h
        · exact h.1
        · have := h.2 acc hpc; omega
      have h0 : (s0.run min query ord age []).shared.seq = s0.shared.seq := rfl
      omega
    · right
      have hh' : ((s0.run min query ord age pre).shared.cell c).points.length = 0 ∧
          skips (s0.run min query ord age pre).shared c = 0 := by
        unfold handled at hh; omega
      refine ⟨pre, me, c, p, hp, List.length_eq_zero_iff.mp hh'.1, (skips_zero_iff _ _).mp hh'.2, ?_⟩
      rw [run_snoc]
      unfold PState.step
      rw [hw]
      simp only [pstep, hpc]
      rw [if_pos hst, trace_log]
      simp
  · rintro (h | ⟨pre, me, c, p, hp, hpts, hno, hyes⟩)
    · -- the sequence passes a multiple of 2^32 at some step
      have key : ∀ l : List Nat, s0.shared.seq / 2 ^ 32 < (s0.run min query ord age l).shared.seq / 2 ^ 32 →
          ∃ pre me, pre ++ [me] <+: l ∧ (s0.run min query ord age (pre ++ [me])).shared.seq =
            (s0.run min query ord age pre).shared.seq + 1 ∧ ((s0.run min query ord age pre).shared.seq + 1) % 2 ^ 32 = 0 := by
        intro l
        induction l using List.reverseRecOn with
        | nil => intro h; exact absurd h (lt_irrefl _)
        | append_singleton l a ih =>
          intro h
          by_cases h' : s0.shared.seq / 2 ^ 32 < (s0.run min query ord age l).shared.seq / 2 ^ 32
          · obtain ⟨pre, me, hp, hr⟩ := ih h'
            exact ⟨pre, me, hp.trans (List.prefix_append _ _), hr⟩
          · refine ⟨l, a, List.prefix_refl _, ?_⟩
            have e := step_seq min query ord age (s0.run min query ord age l) a
            rw [← run_snoc] at e
            have h1 := hmono [] l
            have h0 : (s0.run min query ord age []).shared.seq = s0.shared.seq := rfl
            simp only [List.nil_append] at h1
            rcases e with e | e
            · omega
            · exact ⟨e, by omega⟩
      obtain ⟨pre, me, hp, hs, hm⟩ := key sched h
      refine ⟨pre, me, hp, ?_⟩
      rw [run_snoc] at hs
      unfold PState.step at hs
      cases hw : (s0.run min query ord age pre).workers[me]? with
      | none => rw [hw] at hs; simp at hs
      | some w =>
        rw [hw] at hs
        rcases pstep_seq min (fun p => (ord (s0.run min query ord age pre).clock).perm (query p).elems)
          (age (s0.run min query ord age pre).clock) me (s0.run min query ord age pre).shared w with h | h
        · obtain ⟨_, acc, hpc, hl⟩ := h
          exact ⟨w, hw, Or.inl ⟨acc, hpc, hl, hm⟩⟩
        · have := h.1
          simp only at hs
          omega
    · refine ⟨pre, me, hp, ?_⟩
      rw [run_snoc] at hyes
      unfold PState.step at hyes
      cases hw : (s0.run min query ord age pre).workers[me]? with
      | none => rw [hw] at hyes; exact absurd hyes (hno me p)
      | some w =>
        rw [hw] at hyes
        rcases pstep_skipped _ _ _ _ _ _ _ _ _ hyes with h | ⟨_, d, rest, hpc, hst⟩
        · exact absurd h (hno me p)
        · refine ⟨w, hw, Or.inr ⟨c, d, p, rest, hpc, hst, ?_⟩⟩
          unfold handled
          rw [hpts, (skips_zero_iff _ _).mpr hno]
          rfl

/-! ### C131 -/

/-- C131: under every schedule, as long as no worker of a debug build panics, memory and workers are as in a release build. -/
theorem C131_same (min : Nat) (query : P → HSet P) (ord : Nat → Order) (age : Nat → Nat) (sh0 : PShared P) (h0 : sh0.Fresh)
    (slices : List (List P)) (sched : List Nat) :
    let s := (DState.ofRelease (PState.start sh0 slices)).run min query ord age sched
    s.panics = false → s.state = (PState.start sh0 slices).run min query ord age sched := by
  intro s hs
  obtain ⟨N, hN⟩ := exists_bound query slices
  rcases drun (min := min) hN ord age (dinv_start h0 slices) sched with ⟨_, h⟩ | ⟨_, I⟩
  · rw [h] at hs; cases hs
  · exact I.same

/-- C131: exactly when a debug build panics, said of the release build under the same schedule: its id sequence passes a
multiple of 2^32, or it leaves out the first point of a cluster. -/
theorem C131_panics_iff (min : Nat) (query : P → HSet P) (ord : Nat → Order) (age : Nat → Nat) (sh0 : PShared P)
    (h0 : sh0.Fresh) (slices : List (List P)) (sched : List Nat) :
    ((DState.ofRelease (PState.start sh0 slices)).run min query ord age sched).panics = true ↔
      sh0.seq / 2 ^ 32 < ((PState.start sh0 slices).run min query ord age sched).shared.seq / 2 ^ 32 ∨
        FirstLeftOut min query ord age (PState.start sh0 slices) sched := by
  obtain ⟨N, hN⟩ := exists_bound query slices
  have := overflow_iff min query ord age (PState.start sh0 slices) sched
  rw [show (PState.start sh0 slices).shared.seq = sh0.seq from rfl] at this
  rw [← this]
  rcases drun (min := min) hN ord age (dinv_start h0 slices) sched with ⟨h, hp⟩ | ⟨h, I⟩
  · exact iff_of_true hp h
  · refine iff_of_false (by rw [I.calm]; simp) ?_
    rintro ⟨pre, me, hp, ho⟩
    exact h pre me hp ho

/-- Worker 1 has found both documents unassigned before worker 0 starts; it meets the cluster of worker 0 and looks at its
state before and after that is given up. -/
def exSched131 : List Nat := steps 2 1 ++ steps 6 0 ++ steps 5 1 ++ steps 20 0 ++ steps 20 1

/-- C131: a debug build does not always do what a release build does: with two threads and two equal documents of a MinHash
index the call can panic. -/
theorem C131_no_panic_false :
    ¬ ∀ (docs : List (Nat × List Nat)) (query : Nat → HSet Nat) (s0 : PState Nat) (min : Nat) (ord : Nat → Order)
      (sched : List Nat), IndexedRun 2 docs query s0 → ((DState.ofRelease s0).run min query ord latest sched).panics = false := by
  intro hall
  have h := hall docs2 _ _ 2 (fun _ => Order.id) exSched131 docs2_run
  have : ((DState.ofRelease (PState.start PShared.init [[0], [1]])).run 2 (docsQuery docs2) (fun _ => Order.id) latest
    exSched131).panics = true := by decide +kernel
  rw [this] at h
  cases h

/-- The release build ends this run with one cluster. -/
example : let s := (PState.start PShared.init [[0], [1]]).run 2 (docsQuery docs2) (fun _ => Order.id) latest exSched131
    s.result.map (fun c => c.points) = [[0, 1]] := by decide +kernel

/-- C131, what holds: if no two attempts overlap and the id sequence stays within its multiple of 2^32, a debug build does
what a release build does. What is missing is the absence of overlapping attempts. -/
theorem C131_no_overlap_partial (min : Nat) (query : P → HSet P) (ord : Nat → Order) (sh0 : PShared P)
    (h0 : sh0.Fresh) (slices : List (List P)) (sched : List Nat)
    (hone : ∀ pre, pre <+: sched → ((PState.start sh0 slices).run min query ord latest pre).OneAttempt)
    (hseq : ((PState.start sh0 slices).run min query ord latest sched).shared.seq / 2 ^ 32 ≤ sh0.seq / 2 ^ 32) :
    let s := (DState.ofRelease (PState.start sh0 slices)).run min query ord latest sched
    s.panics = false ∧ s.state = (PState.start sh0 slices).run min query ord latest sched := by
  intro s
  have hp : s.panics = false := by
    rw [Bool.eq_false_iff]
    intro h
    rcases (C131_panics_iff min query ord latest sh0 h0 slices sched).mp h with h | ⟨pre, me, c, p, hp, _, _, hm⟩
    · omega
    · have := (no_overlap min query ord sh0 h0 slices (pre ++ [me]) fun l hl => hone l (hl.trans hp)).2.2 _ hm
      cases this
  exact ⟨hp, C131_same min query ord latest sh0 h0 slices sched hp⟩

/-- C131: `cluster`, which runs one worker, does in a debug build what it does in a release build, as long as it does not
use up the ids. -/
theorem C131_single_partial (min : Nat) (idOf : P → Id) (query : P → HSet P) (ord : Nat → Order) (sh0 : PShared P)
    (h0 : sh0.Fresh) (points : List P) (s0 : PState P) (hs : parClusterStart idOf query sh0 points = .ok s0) (sched : List Nat)
    (hseq : (s0.run min query ord latest sched).shared.seq / 2 ^ 32 ≤ sh0.seq / 2 ^ 32) :
    let s := (DState.ofRelease s0).run min query ord latest sched
    s.panics = false ∧ s.state = s0.run min query ord latest sched := by
  obtain ⟨slice, hsort, _, _⟩ := sortByMostSimilar_spec idOf query points
  have e : s0 = PState.start sh0 [slice] := by
    unfold parClusterStart at hs
    rw [hsort] at hs
    cases hs
    rfl
  subst e
  exact C131_no_overlap_partial min query ord sh0 h0 [slice] sched
    (fun pre _ => oneAttempt_single ord latest rfl pre) hseq

/-- The hypotheses of `C131_no_overlap_partial` and `C131_single_partial` are met: one worker clusters the two documents in a
debug build as in a release build. -/
example : let s0 := DState.ofRelease (PState.start PShared.init [[0, 1]])
    (s0.run 2 (docsQuery docs2) (fun _ => Order.id) latest (steps 40 0)).panics = false ∧
    (s0.run 2 (docsQuery docs2) (fun _ => Order.id) latest (steps 40 0)).state.result.map (fun c => c.points) = [[0, 1]] := by
  have h := C131_no_overlap_partial 2 (docsQuery docs2) (fun _ => Order.id) PShared.init init_fresh [[0, 1]] (steps 40 0)
    (fun pre _ => oneAttempt_single _ latest rfl pre) (by decide +kernel)
  refine ⟨h.1, ?_⟩
  rw [h.2]
  decide +kernel

/-- A clusterer that has given out 2^32 - 1 ids panics on the next one in a debug build, and wraps round in a release build. -/
example : ((DState.ofRelease (PState.start { (PShared.init : PShared Nat) with seq := 2 ^ 32 - 1 } [[0, 1]])).run 2
      (docsQuery docs2) (fun _ => Order.id) latest (steps 40 0)).panics = true ∧
    ((PState.start { (PShared.init : PShared Nat) with seq := 2 ^ 32 - 1 } [[0, 1]]).run 2 (docsQuery docs2)
      (fun _ => Order.id) latest (steps 40 0)).result.map (fun c => (c.clusterId, c.points)) = [(0, [0, 1])] := by
  decide +kernel

end Verif.Props
