import Verif.Model.DebugCluster
import Verif.Lemmas.ClusterParEnd
import Mathlib.Data.List.Induction

/-! # Lemmas on debug builds of the parallel clusterer -/
set_option linter.unusedSectionVars false
namespace Verif
variable {P : Type} [DecidableEq P]

/-- The number of points of cluster `c` that its worker has dealt with. -/
def handled (sh : PShared P) (c : Nat) : Nat := (sh.cell c).points.length + skips sh c

theorem handled_same {sh sh' : PShared P} {c : Nat} (hp : (sh'.cell c).points = (sh.cell c).points)
    (ht : skips sh' c = skips sh c) : handled sh' c = handled sh c := by
  unfold handled; rw [hp, ht]

theorem skips_log (sh : PShared P) (e : PEvent P) (c : Nat) :
    skips (sh.log e) c = skips sh c + (match e with | .skipped _ c' _ => if c' = c then 1 else 0 | _ => 0) := by
  unfold skips
  rw [trace_log, List.countP_append]
  cases e <;> simp [List.countP_cons]

theorem skips_deref (sh : PShared P) (me d c : Nat) : skips (sh.deref me d) c = skips sh c := by
  rcases deref_cases sh me d with h | h
  · rw [h]
  · rw [h.1, skips_log]; rfl

theorem skips_setState (sh : PShared P) (d v c : Nat) (e : PEvent P) (he : ∀ i c p, e ≠ .skipped i c p) :
    skips (sh.setState d v e) c = skips sh c := by
  unfold skips
  rw [trace_setState, List.countP_append]
  cases e <;> simp [List.countP_cons]
  exact absurd rfl (he _ _ _)

theorem skips_free (sh : PShared P) (me d c : Nat) : skips (sh.free me d) c = skips sh c := by
  unfold skips
  rw [trace_free, List.countP_append]
  simp

theorem skips_unassign (sh : PShared P) (d c : Nat) (p : P) : skips (sh.unassign d p) c = skips sh c := by
  unfold skips; rw [trace_unassign]

theorem skips_push (sh : PShared P) (d c : Nat) (p : P) : skips (sh.push d p) c = skips sh c := rfl
theorem skips_setPtr (sh : PShared P) (d c : Nat) (p : P) : skips (sh.setPtr p d) c = skips sh c := rfl
theorem skips_alloc (sh : PShared P) (me c : Nat) : skips (sh.alloc me) c = skips sh c := rfl

theorem handled_deref (sh : PShared P) (me d c : Nat) : handled (sh.deref me d) c = handled sh c :=
  handled_same (by rw [cell_deref]) (skips_deref _ _ _ _)
theorem handled_unassign (sh : PShared P) (d c : Nat) (p : P) : handled (sh.unassign d p) c = handled sh c :=
  handled_same (by rw [cell_unassign]) (skips_unassign _ _ _ _)
theorem handled_setState (sh : PShared P) (d v c : Nat) (e : PEvent P) (hd : d < sh.heap.length)
    (he : ∀ i c p, e ≠ .skipped i c p) : handled (sh.setState d v e) c = handled sh c := by
  refine handled_same ?_ (skips_setState _ _ _ _ _ he)
  rw [cell_setState _ _ _ _ _ hd]
  split_ifs with h
  · rw [h]
  · rfl
theorem handled_free (sh : PShared P) (me d c : Nat) (hd : d < sh.heap.length) :
    handled (sh.free me d) c = handled sh c := by
  refine handled_same ?_ (skips_free _ _ _ _)
  rw [cell_free _ _ _ _ hd]
  split_ifs with h
  · rw [h]
  · rfl
theorem handled_push (sh : PShared P) (d c : Nat) (p : P) (hd : d < sh.heap.length) :
    handled (sh.push d p) c = handled sh c + if c = d then 1 else 0 := by
  unfold handled
  rw [skips_push, cell_push _ _ _ _ hd]
  split_ifs with h
  · subst h
    simp only [List.length_append, List.length_singleton]
    omega
  · rfl
theorem handled_setPtr (sh : PShared P) (d c : Nat) (p : P) : handled (sh.setPtr p d) c = handled sh c := rfl
theorem handled_log (sh : PShared P) (e : PEvent P) (c : Nat) :
    handled (sh.log e) c = handled sh c + (match e with | .skipped _ c' _ => if c' = c then 1 else 0 | _ => 0) := by
  unfold handled
  rw [skips_log, cell_log]
  omega
theorem handled_alloc (sh : PShared P) (me c : Nat) (hc : c ≠ sh.heap.length) :
    handled (sh.alloc me) c = handled sh c := by
  refine handled_same ?_ (skips_alloc _ _ _)
  rw [cell_alloc, if_neg hc]

/-- Only clusters that exist lack points. -/
def SkipOld (sh : PShared P) : Prop := ∀ c, sh.heap.length ≤ c → handled sh c = 0

variable {min N k me : Nat} {sh0 sh : PShared P} {w : PWorker P}

/-- How a step of worker `me` changes the number of points dealt with: that of its own cluster grows by one when it is
back at the head of the loop, a new cluster starts with none, and others do not change. -/
structure Counts (me : Nat) (sh : PShared P) (w : PWorker P) (r : PShared P × PWorker P) : Prop where
  own : ∀ c, r.2.pc.building = some c → (∀ acc, w.pc ≠ .filter [] acc) →
    w.pc.building = some c ∧ handled r.1 c = nextIndex (handled sh c) r.2.pc
  new : ∀ c acc, r.2.pc.building = some c → w.pc = .filter [] acc → handled r.1 c = 0
  foreign : ∀ c, c < sh.heap.length → w.pc.own ≠ some c → handled r.1 c = handled sh c
  old : SkipOld r.1

theorem Counts.of_same {r : PShared P × PWorker P} (S : SkipOld sh) (hl : r.1.heap.length = sh.heap.length)
    (hh : ∀ c, handled r.1 c = handled sh c)
    (hb : ∀ c, r.2.pc.building = some c → w.pc.building = some c ∧ ∀ c' rest, r.2.pc ≠ .check c' rest) :
    Counts me sh w r := by
  refine ⟨fun c hc _ => ⟨(hb c hc).1, ?_⟩, fun c acc hc he => ?_, fun c _ _ => hh c, fun c hc => ?_⟩
  · rw [hh]
    have := (hb c hc).2
    cases hp : r.2.pc <;> simp only [nextIndex]
    exact absurd hp (this _ _)
  · have := (hb c hc).1
    rw [he] at this
    cases this
  · rw [hh]; exact S c (by omega)

/-- A step that ends one round of the loop. -/
theorem Counts.of_round {r : PShared P × PWorker P} {c : Nat} (S : SkipOld sh) (hl : r.1.heap.length = sh.heap.length)
    (hc : c < sh.heap.length) (hw : w.pc.building = some c) (hr : ∃ rest, r.2.pc = .check c rest)
    (hh : ∀ d, handled r.1 d = handled sh d + if d = c then 1 else 0) : Counts me sh w r := by
  obtain ⟨rest, hr⟩ := hr
  refine ⟨fun d hd _ => ?_, fun d acc _ he => ?_, fun d _ hne => ?_, fun d hd => ?_⟩
  · rw [hr] at hd
    injection hd with hd
    subst hd
    refine ⟨hw, ?_⟩
    rw [hh, hr, if_pos rfl]
    rfl
  · rw [he] at hw; cases hw
  · rw [hh, if_neg]
    · rfl
    · rintro rfl; exact hne (Pc.own_of_building hw)
  · rw [hh, S d (by omega), if_neg (by omega)]

theorem pstep_counts (nbrs : P → List P) (W : PW min N sh0 me sh w) (S : SkipOld sh) :
    Counts me sh w (pstep min nbrs k me sh w) := by
  obtain ⟨pc, todo, out⟩ := w
  have ho := fun c h => (W.own c h).2.1
  have hx := fun c h => (W.other c h).2
  cases pc with
  | next =>
    cases todo with
    | nil => exact Counts.of_same S rfl (fun _ => rfl) (by simp [pstep, Pc.building])
    | cons p rest =>
      simp only [pstep]
      split_ifs
      · exact Counts.of_same S rfl (fun _ => rfl) (by simp [Pc.building])
      · exact Counts.of_same S rfl (fun _ => rfl) (by simp [Pc.building])
  | filter qs acc =>
    cases qs with
    | cons q qs =>
      simp only [pstep]
      split_ifs
      · exact Counts.of_same S rfl (fun _ => rfl) (by simp [Pc.building])
      · exact Counts.of_same S rfl (fun _ => rfl) (by simp [Pc.building])
    | nil =>
      simp only [pstep]
      split_ifs
      · refine ⟨fun c _ he => absurd rfl (he acc), fun c acc' hc _ => ?_, fun c hc _ => handled_alloc _ _ _ (by omega), ?_⟩
        · simp only [Pc.building] at hc
          injection hc with hc
          subst hc
          have := S sh.heap.length le_rfl
          unfold handled at this ⊢
          rw [skips_alloc, cell_alloc, if_pos rfl]
          simp only [List.length_nil]
          omega
        · intro c hc
          rw [heap_alloc] at hc
          rw [handled_alloc _ _ _ (by omega)]
          exact S c (by omega)
      · exact Counts.of_same S rfl (fun _ => rfl) (by simp [Pc.building])
  | check c rest =>
    cases rest with
    | nil => exact Counts.of_same S rfl (fun _ => rfl) (by simp [pstep, Pc.building])
    | cons p rest =>
      simp only [pstep]
      split_ifs
      · exact Counts.of_same S rfl (fun _ => rfl) (by simp [Pc.building])
      · exact Counts.of_same S rfl (fun _ => rfl) (by simp [Pc.building])
  | undo c qs p rest =>
    cases qs with
    | nil => exact Counts.of_same S rfl (fun _ => rfl) (by simp [pstep, Pc.building])
    | cons q qs =>
      exact Counts.of_same S (by simp [pstep]) (fun _ => handled_unassign _ _ _ _) (by simp [pstep, Pc.building])
  | assign c p rest =>
    have hc := ho c rfl
    simp only [pstep]
    cases sh.readAssign k p with
    | none =>
      refine Counts.of_round (c := c) S (by simp) hc rfl ⟨rest, rfl⟩ fun d => ?_
      rw [handled_push _ _ _ _ (by simpa using hc), handled_setPtr]
    | some d => exact Counts.of_same S rfl (fun _ => rfl) (by simp [Pc.building])
  | conflict1 c d p rest =>
    simp only [pstep]
    split_ifs
    · exact Counts.of_same S (by simp) (fun _ => handled_deref _ _ _ _) (by simp [Pc.building])
    · exact Counts.of_same S (by simp) (fun _ => handled_deref _ _ _ _) (by simp [Pc.building])
  | conflict2 c d p rest =>
    have hc := ho c rfl
    simp only [pstep]
    split_ifs
    · refine Counts.of_round (c := c) S (by simp) hc rfl ⟨rest, rfl⟩ fun e => ?_
      rw [handled_log, handled_deref]
      simp only [eq_comm]
    · exact Counts.of_same S (by simp) (fun _ => handled_deref _ _ _ _) (by simp [Pc.building])
  | conflict3 c d p rest =>
    simp only [pstep]
    split_ifs
    · exact Counts.of_same S (by simp) (fun _ => handled_deref _ _ _ _) (by simp [Pc.building])
    · exact Counts.of_same S (by simp) (fun _ => handled_deref _ _ _ _) (by simp [Pc.building])
  | conflict4 c d p rest =>
    have hc := ho c rfl
    have hd := hx d rfl
    simp only [pstep]
    split_ifs
    · refine Counts.of_round (c := c) S (by simp) hc rfl ⟨rest, rfl⟩ fun e => ?_
      rw [handled_push _ _ _ _ (by simpa using hc), handled_log,
        handled_setState _ _ _ _ _ (by simpa using hd) (by simp), handled_deref]
      simp
    · exact Counts.of_same S (by simp) (fun _ => handled_deref _ _ _ _) (by simp [Pc.building])
  | giveUp c =>
    have hc := ho c rfl
    simp only [pstep]
    split_ifs
    · exact Counts.of_same S (by simp) (fun _ => handled_setState _ _ _ _ _ hc (by simp)) (by simp [Pc.building])
    · exact Counts.of_same S rfl (fun _ => rfl) (by simp [Pc.building])
  | release c qs =>
    have hc := ho c rfl
    cases qs with
    | nil => exact Counts.of_same S (by simp [pstep]) (fun _ => handled_free _ _ _ _ hc) (by simp [pstep, Pc.building])
    | cons q qs =>
      exact Counts.of_same S (by simp [pstep]) (fun _ => handled_unassign _ _ _ _) (by simp [pstep, Pc.building])
  | commit c =>
    have hc := ho c rfl
    simp only [pstep]
    split_ifs
    · exact Counts.of_same S (by simp) (fun _ => handled_setState _ _ _ _ _ hc (by simp)) (by simp [Pc.building])
    · exact Counts.of_same S rfl (fun _ => rfl) (by simp [Pc.building])
  | done => exact Counts.of_same S rfl (fun _ => rfl) (by simp [pstep, Pc.building])

/-- The next move of worker `me` overflows: it takes the last id of the sequence, or leaves out the point of its loop with
none dealt with before it. -/
def Overflows (min : Nat) (age : Nat → Nat) (s : PState P) (me : Nat) : Prop :=
  ∃ w, s.workers[me]? = some w ∧
    ((∃ acc, w.pc = .filter [] acc ∧ min ≤ acc.length ∧ (s.shared.seq + 1) % 2 ^ 32 = 0) ∨
      ∃ c d p rest, w.pc = .conflict2 c d p rest ∧ s.shared.readState (age s.clock) d = ROLLED_BACK ∧
        handled s.shared c = 0)

theorem dstep_ok (nbrs : P → List P) {d : DWorker P} (hd : d.panicked = false)
    (h1 : ∀ acc, d.w.pc = .filter [] acc → ¬ (acc.length ≥ min ∧ (sh.seq + 1) % 2 ^ 32 = 0))
    (h2 : ∀ c x p rest, d.w.pc = .conflict2 c x p rest → ¬ (sh.readState k x = ROLLED_BACK ∧ d.i = 0)) :
    ∃ i', dstep min nbrs k me sh d =
        ((pstep min nbrs k me sh d.w).1, { w := (pstep min nbrs k me sh d.w).2, i := i', panicked := false }) ∧
      ((∃ acc, d.w.pc = .filter [] acc) → i' = 0) ∧
      ((∀ acc, d.w.pc ≠ .filter [] acc) → i' = nextIndex d.i (pstep min nbrs k me sh d.w).2.pc) := by
  unfold dstep
  rw [if_neg (by simp [hd])]
  cases hpc : d.w.pc with
  | filter qs acc =>
    cases qs with
    | nil =>
      simp only
      rw [if_neg (h1 acc hpc)]
      exact ⟨0, rfl, fun _ => rfl, fun h => absurd rfl (h acc)⟩
    | cons q qs => exact ⟨_, rfl, by simp, fun _ => rfl⟩
  | conflict2 c x p rest =>
    simp only
    rw [if_neg (h2 c x p rest hpc)]
    exact ⟨_, rfl, by simp, fun _ => rfl⟩
  | _ => exact ⟨_, rfl, by simp, fun _ => rfl⟩

theorem dstep_panic (nbrs : P → List P) {d : DWorker P} (hd : d.panicked = false)
    (h : (∃ acc, d.w.pc = .filter [] acc ∧ min ≤ acc.length ∧ (sh.seq + 1) % 2 ^ 32 = 0) ∨
      ∃ c x p rest, d.w.pc = .conflict2 c x p rest ∧ sh.readState k x = ROLLED_BACK ∧ d.i = 0) :
    (dstep min nbrs k me sh d).2.panicked = true := by
  unfold dstep
  rw [if_neg (by simp [hd])]
  rcases h with ⟨acc, hpc, h1, h2⟩ | ⟨c, x, p, rest, hpc, h1, h2⟩
  · simp only [hpc]
    rw [if_pos ⟨h1, h2⟩]
  · simp only [hpc]
    rw [if_pos ⟨h1, h2⟩]

theorem dstep_stays (nbrs : P → List P) {d : DWorker P} (hd : d.panicked = true) :
    dstep min nbrs k me sh d = (sh, d) := by
  unfold dstep
  rw [if_pos hd]

theorem panics_iff (s : DState P) : s.panics = true ↔ ∃ (i : Nat) (d : DWorker P), s.workers[i]? = some d ∧ d.panicked = true := by
  unfold DState.panics
  rw [List.any_eq_true]
  constructor
  · rintro ⟨d, hd, hp⟩
    obtain ⟨i, hi⟩ := List.getElem?_of_mem hd
    exact ⟨i, d, hi, hp⟩
  · rintro ⟨i, d, hi, hp⟩
    exact ⟨d, List.mem_of_getElem? hi, hp⟩

theorem panics_step (query : P → HSet P) (ord : Nat → Order) (age : Nat → Nat) (s : DState P) (me : Nat)
    (h : s.panics = true) : (s.step min query ord age me).panics = true := by
  rw [panics_iff] at h ⊢
  obtain ⟨i, d, hi, hp⟩ := h
  unfold DState.step
  cases hm : s.workers[me]? with
  | none => exact ⟨i, d, hi, hp⟩
  | some d' =>
    by_cases e : me = i
    · subst e
      rw [hi] at hm
      cases hm
      refine ⟨me, d, ?_, hp⟩
      simp only
      rw [dstep_stays _ hp, List.getElem?_set_self (List.getElem?_eq_some_iff.mp hi).1]
    · exact ⟨i, d, by simp only; rw [List.getElem?_set_ne e]; exact hi, hp⟩

/-- While no worker has panicked: the state is that of the release build, and the loop variables count the points dealt
with. -/
structure DInv (min N : Nat) (query : P → HSet P) (slices : List (List P)) (sh0 : PShared P) (s : DState P) (r : PState P) :
    Prop where
  same : s.state = r
  inv : PInv min N query slices sh0 r
  old : SkipOld s.shared
  calm : s.panics = false
  idx : ∀ (i : Nat) (d : DWorker P), s.workers[i]? = some d → ∀ c, d.w.pc.building = some c → d.i = handled s.shared c

theorem DInv.worker {query : P → HSet P} {slices : List (List P)} {s : DState P} {r : PState P}
    (I : DInv min N query slices sh0 s r) {i : Nat} {d : DWorker P} (h : s.workers[i]? = some d) :
    r.workers[i]? = some d.w ∧ d.panicked = false := by
  refine ⟨?_, ?_⟩
  · rw [← I.same]
    simp [DState.state, h]
  · by_contra hp
    have := (panics_iff s).mpr ⟨i, d, h, by simpa using hp⟩
    rw [I.calm] at this
    cases this

theorem dinv_start {query : P → HSet P} (h : sh0.Fresh) (slices : List (List P)) :
    DInv min N query slices sh0 (DState.ofRelease (PState.start sh0 slices)) (PState.start sh0 slices) := by
  refine ⟨?_, pinv_start h slices, ?_, ?_, ?_⟩
  · simp [DState.state, DState.ofRelease, Function.comp_def]
  · intro c hc
    change handled sh0 c = 0
    unfold handled skips PShared.cell
    rw [h.trace, List.getD_eq_getElem?_getD, List.getElem?_eq_none (show sh0.heap.length ≤ c from hc)]
    rfl
  · simp [DState.panics, DState.ofRelease]
  · intro i d hd c hc
    simp only [DState.ofRelease, PState.start, List.getElem?_map, Option.map_map, Option.map_eq_some_iff] at hd
    obtain ⟨sl, _, rfl⟩ := hd
    cases hc

theorem dinv_step {query : P → HSet P} {slices : List (List P)}
    (hN : ∀ slice ∈ slices, ∀ p ∈ slice, (query p).elems.length ≤ N) (ord : Nat → Order) (age : Nat → Nat) {s : DState P}
    {r : PState P} (I : DInv min N query slices sh0 s r) (me : Nat) :
    (Overflows min age r me → (s.step min query ord age me).panics = true) ∧
    (¬ Overflows min age r me → DInv min N query slices sh0 (s.step min query ord age me) (r.step min query ord age me)) := by
  have hsh : r.shared = s.shared := by rw [← I.same]; rfl
  have hcl : r.clock = s.clock := by rw [← I.same]; rfl
  constructor
  · rintro ⟨w, hw, hov⟩
    have hw' : s.state.workers[me]? = some w := by rw [I.same]; exact hw
    simp only [DState.state, List.getElem?_map, Option.map_eq_some_iff] at hw'
    obtain ⟨d, hd, rfl⟩ := hw'
    have hp := (I.worker hd).2
    rw [panics_iff]
    refine ⟨me, (dstep min (fun p => (ord s.clock).perm (query p).elems) (age s.clock) me s.shared d).2, ?_, ?_⟩
    · unfold DState.step
      rw [hd]
      simp only
      rw [List.getElem?_set_self (List.getElem?_eq_some_iff.mp hd).1]
    · refine dstep_panic _ hp ?_
      rw [hsh, hcl] at hov
      rcases hov with h | ⟨c, x, p, rest, hpc, h1, h2⟩
      · exact Or.inl h
      · refine Or.inr ⟨c, x, p, rest, hpc, h1, ?_⟩
        rw [I.idx me d hd c (by rw [hpc]; rfl), h2]
  · intro hno
    have J := pinv_step hN ord age I.inv me
    unfold DState.step
    cases hd : s.workers[me]? with
    | none =>
      have hr : r.workers[me]? = none := by
        rw [← I.same]
        simp [DState.state, hd]
      have hstep : r.step min query ord age me = { r with clock := r.clock + 1 } := by
        unfold PState.step
        rw [hr]
      rw [hstep] at J ⊢
      refine ⟨?_, J, I.old, I.calm, I.idx⟩
      rw [← I.same]; rfl
    | some d =>
      obtain ⟨hr, hp⟩ := I.worker hd
      have hstep : r.step min query ord age me =
          { shared := (pstep min (fun p => (ord s.clock).perm (query p).elems) (age s.clock) me s.shared d.w).1,
            workers := r.workers.set me (pstep min (fun p => (ord s.clock).perm (query p).elems) (age s.clock) me s.shared d.w).2,
            clock := s.clock + 1 } := by
        unfold PState.step
        rw [hr, hsh, hcl]
      have W := I.inv.w me d.w hr
      rw [hsh] at W
      obtain ⟨i', he, hi0, hi1⟩ := dstep_ok (min := min) (k := age s.clock) (me := me) (sh := s.shared)
        (fun p => (ord s.clock).perm (query p).elems) hp
        (fun acc hpc h => hno ⟨d.w, hr, Or.inl ⟨acc, hpc, h.1, by rw [hsh]; exact h.2⟩⟩)
        (fun c x p rest hpc h => hno ⟨d.w, hr, Or.inr ⟨c, x, p, rest, hpc, by rw [hsh, hcl]; exact h.1, by
          rw [hsh, ← I.idx me d hd c (by rw [hpc]; rfl)]; exact h.2⟩⟩)
      have C := pstep_counts (k := age s.clock) (fun p => (ord s.clock).perm (query p).elems) W I.old
      simp only
      rw [he]
      refine ⟨?_, J, C.old, ?_, ?_⟩
      · rw [hstep, ← I.same]
        simp only [DState.state, List.map_set]
      · rw [Bool.eq_false_iff]
        intro hpan
        obtain ⟨i, d', hi, hp'⟩ := (panics_iff _).mp hpan
        by_cases e : me = i
        · subst e
          simp only at hi
          rw [List.getElem?_set_self (List.getElem?_eq_some_iff.mp hd).1] at hi
          cases hi
          cases hp'
        · simp only at hi
          rw [List.getElem?_set_ne e] at hi
          rw [(I.worker hi).2] at hp'
          cases hp'
      · intro i d' hi c hc
        by_cases e : me = i
        · subst e
          simp only at hi
          rw [List.getElem?_set_self (List.getElem?_eq_some_iff.mp hd).1] at hi
          cases hi
          simp only at hc ⊢
          by_cases hf : ∃ acc, d.w.pc = .filter [] acc
          · obtain ⟨acc, hf⟩ := hf
            rw [C.new c acc hc hf]
            exact hi0 ⟨acc, hf⟩
          · have hf' : ∀ acc, d.w.pc ≠ .filter [] acc := fun acc h => hf ⟨acc, h⟩
            obtain ⟨hb, hh⟩ := C.own c hc hf'
            rw [hi1 hf', hh, I.idx me d hd c hb]
        · simp only at hi
          rw [List.getElem?_set_ne e] at hi
          have W' := I.inv.w i d'.w (I.worker hi).1
          have ho := W'.own c (Pc.own_of_building hc)
          rw [hsh] at ho
          rw [I.idx i d' hi c hc, C.foreign c ho.2.1]
          intro hme
          have := (W.own c hme).2.2.1
          rw [ho.2.2.1] at this
          exact e this.symm

theorem drun {query : P → HSet P} {slices : List (List P)}
    (hN : ∀ slice ∈ slices, ∀ p ∈ slice, (query p).elems.length ≤ N) (ord : Nat → Order) (age : Nat → Nat) {s : DState P}
    {r : PState P} (I : DInv min N query slices sh0 s r) (sched : List Nat) :
    ((∃ pre me, pre ++ [me] <+: sched ∧ Overflows min age (r.run min query ord age pre) me) ∧
      (s.run min query ord age sched).panics = true) ∨
    ((∀ pre me, pre ++ [me] <+: sched → ¬ Overflows min age (r.run min query ord age pre) me) ∧
      DInv min N query slices sh0 (s.run min query ord age sched) (r.run min query ord age sched)) := by
  induction sched using List.reverseRecOn with
  | nil => exact Or.inr ⟨fun pre me h => by simp at h, I⟩
  | append_singleton l a ih =>
    have e1 : s.run min query ord age (l ++ [a]) = (s.run min query ord age l).step min query ord age a := by
      simp [DState.run]
    have e2 : r.run min query ord age (l ++ [a]) = (r.run min query ord age l).step min query ord age a := by
      simp [PState.run]
    rw [e1, e2]
    rcases ih with ⟨⟨pre, me, hp, ho⟩, hpan⟩ | ⟨hno, J⟩
    · exact Or.inl ⟨⟨pre, me, hp.trans (List.prefix_append _ _), ho⟩, panics_step _ _ _ _ _ hpan⟩
    · have := dinv_step hN ord age J a
      by_cases h : Overflows min age (r.run min query ord age l) a
      · exact Or.inl ⟨⟨l, a, List.prefix_refl _, h⟩, this.1 h⟩
      · refine Or.inr ⟨fun pre me hp => ?_, this.2 h⟩
        rw [List.prefix_concat_iff] at hp
        rcases hp with hp | hp
        · obtain ⟨rfl, hme⟩ := List.append_inj' hp rfl
          cases hme
          exact h
        · exact hno pre me hp

end Verif
