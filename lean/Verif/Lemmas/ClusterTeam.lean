import Verif.Lemmas.ClusterParEnd

/-!
# Workers that lose no attempt
-/
namespace Verif
variable {P : Type} [DecidableEq P] {min N k me : Nat} {sh0 sh sh' : PShared P} {w : PWorker P}

/-- A cluster whose state is not new was committed or rolled back. -/
def PRb (sh0 sh : PShared P) : Prop :=
  ∀ c, sh0.heap.length ≤ c → c < sh.heap.length → (sh.cell c).state = 1 →
    (∃ i, .committed i c ∈ sh.trace) ∨ ∃ i, .rolledBack i c ∈ sh.trace

theorem PRb.of_same (R : PRb sh0 sh) (hl : sh'.heap.length = sh.heap.length)
    (hs : ∀ c, (sh'.cell c).state = (sh.cell c).state) (ht : ∀ e ∈ sh.trace, e ∈ sh'.trace) : PRb sh0 sh' := by
  intro c h1 h2 h3
  rw [hl] at h2
  rw [hs] at h3
  rcases R c h1 h2 h3 with ⟨i, h⟩ | ⟨i, h⟩
  · exact Or.inl ⟨i, ht _ h⟩
  · exact Or.inr ⟨i, ht _ h⟩

theorem state_push (sh : PShared P) (c : Nat) (p : P) (hc : c < sh.heap.length) (d : Nat) :
    ((sh.push c p).cell d).state = (sh.cell d).state := by
  rw [cell_push _ _ _ _ hc]
  split_ifs with h
  · rw [h]
  · rfl

theorem mem_deref {me d : Nat} {e : PEvent P} (h : e ∈ sh.trace) : e ∈ (sh.deref me d).trace := by
  rcases deref_cases sh me d with e' | e'
  · rw [e']; exact h
  · rw [e'.1, trace_log]; exact List.mem_append_left _ h

theorem PRb.deref (R : PRb sh0 sh) (me d : Nat) : PRb sh0 (sh.deref me d) :=
  R.of_same (heap_deref _ _ _) (fun c => by rw [cell_deref]) fun _ h => mem_deref h

theorem PRb.log (R : PRb sh0 sh) (e : PEvent P) : PRb sh0 (sh.log e) :=
  R.of_same rfl (fun _ => rfl) fun _ h => by rw [trace_log]; exact List.mem_append_left _ h

theorem PRb.push (R : PRb sh0 sh) {c : Nat} (p : P) (hc : c < sh.heap.length) : PRb sh0 (sh.push c p) :=
  R.of_same (heap_push _ _ _) (state_push _ _ _ hc) fun _ h => h

theorem PRb.setState (R : PRb sh0 sh) {c : Nat} {e : PEvent P} (hc : c < sh.heap.length) (v : Nat)
    (he : (∃ i, e = .committed i c) ∨ ∃ i, e = .rolledBack i c) : PRb sh0 (sh.setState c v e) := by
  intro d h1 h2 h3
  rw [heap_setState] at h2
  rw [trace_setState]
  by_cases h : d = c
  · subst h
    rcases he with ⟨i, rfl⟩ | ⟨i, rfl⟩
    · exact Or.inl ⟨i, by simp⟩
    · exact Or.inr ⟨i, by simp⟩
  · rw [cell_setState _ _ _ _ _ hc, if_neg h] at h3
    rcases R d h1 h2 h3 with ⟨i, h⟩ | ⟨i, h⟩
    · exact Or.inl ⟨i, List.mem_append_left _ h⟩
    · exact Or.inr ⟨i, List.mem_append_left _ h⟩

theorem PRb.unassign (R : PRb sh0 sh) (c : Nat) (p : P) : PRb sh0 (sh.unassign c p) :=
  R.of_same (heap_unassign _ _ _) (fun d => by rw [cell_unassign]) fun _ h => by rw [trace_unassign]; exact h

theorem prb_step (nbrs : P → List P) (W : PW min N sh0 me sh w) (R : PRb sh0 sh) :
    PRb sh0 (pstep min nbrs k me sh w).1 := by
  obtain ⟨pc, todo, out⟩ := w
  cases pc with
  | next =>
    cases todo with
    | nil => exact R
    | cons p rest => simp only [pstep]; split_ifs <;> exact R
  | filter qs acc =>
    cases qs with
    | nil =>
      simp only [pstep]
      split_ifs
      · intro c h1 h2 h3
        rw [cell_alloc] at h3
        split_ifs at h3 with h
        rw [heap_alloc] at h2
        exact R c h1 (by omega) h3
      · exact R
    | cons q qs => simp only [pstep]; split_ifs <;> exact R
  | check c rest => cases rest <;> simp only [pstep] <;> (try split_ifs) <;> exact R
  | undo c qs p rest =>
    cases qs with
    | nil => exact R
    | cons q qs => exact R.unassign c q
  | assign c p rest =>
    simp only [pstep]
    cases sh.readAssign k p with
    | some d => exact R
    | none => exact PRb.push (sh := sh.setPtr p c) R p (W.own c rfl).2.1
  | conflict1 c d p rest => simp only [pstep]; split_ifs <;> exact R.deref me d
  | conflict2 c d p rest =>
    simp only [pstep]
    split_ifs
    · exact (R.deref me d).log _
    · exact R.deref me d
  | conflict3 c d p rest => simp only [pstep]; split_ifs <;> exact R.deref me d
  | conflict4 c d p rest =>
    simp only [pstep]
    split_ifs
    · refine PRb.push (PRb.log (PRb.setState (R.deref me d) ?_ _ (Or.inr ⟨me, rfl⟩)) _) p ?_
      · rw [heap_deref]; exact (W.other d rfl).2
      · rw [heap_log, heap_setState, heap_deref]; exact (W.own c rfl).2.1
    · exact R.deref me d
  | giveUp c =>
    simp only [pstep]
    split_ifs
    · exact R.setState (W.own c rfl).2.1 _ (Or.inr ⟨me, rfl⟩)
    · exact R
  | release c qs =>
    cases qs with
    | nil =>
      change PRb sh0 (sh.free me c)
      refine R.of_same (heap_free _ _ _) ?_ ?_
      · intro d
        rw [cell_free _ _ _ _ (W.own c rfl).2.1]
        split_ifs with h
        · rw [h]
        · rfl
      · intro e he
        rw [trace_free]
        exact List.mem_append_left _ he
    | cons q qs => exact R.unassign c q
  | commit c =>
    simp only [pstep]
    split_ifs
    · exact R.setState (W.own c rfl).2.1 _ (Or.inl ⟨me, rfl⟩)
    · exact R
  | done => exact R

/-- Some attempt is lost or about to be. -/
def PLost (sh : PShared P) (ws : List (PWorker P)) : Prop :=
  (∃ i c, .rolledBack i c ∈ sh.trace) ∨ ∃ (i : Nat) (w : PWorker P) (c : Nat), ws[i]? = some w ∧ w.pc = .giveUp c

/-- What a worker has still to do so that the points of `slice` are settled; `all` are the points similar to the current
one that may be unassigned. -/
def PTeam (min : Nat) (query : P → HSet P) (slice : List P) (sh : PShared P) (w : PWorker P) : Prop :=
  let doing (all : List P) : Prop := ∃ p, (∀ q ∈ slice, q ∈ w.todo ∨ q = p ∨ settled min query sh q) ∧
    ∀ q ∈ (query p).elems, sh.ptr.get? q = none → q ∈ all
  match w.pc with
  | .next => ∀ q ∈ slice, q ∈ w.todo ∨ settled min query sh q
  | .done => ∀ q ∈ slice, settled min query sh q
  | .filter qs acc => doing (acc ++ qs)
  | .check _ rest => doing rest
  | .assign _ r rest => doing (r :: rest)
  | .conflict1 _ _ _ rest => doing rest
  | .conflict2 _ _ _ rest => doing rest
  | .conflict3 _ _ _ rest => doing rest
  | .conflict4 _ _ _ rest => doing rest
  | .commit _ => doing []
  | _ => True

theorem PTeam.frame {query : P → HSet P} {slice : List P} (T : PTeam min query slice sh w)
    (h : ∀ p, sh.ptr.get? p ≠ none → sh'.ptr.get? p ≠ none) : PTeam min query slice sh' w := by
  have key : ∀ all : List P,
      (∃ p, (∀ q ∈ slice, q ∈ w.todo ∨ q = p ∨ settled min query sh q) ∧
        ∀ q ∈ (query p).elems, sh.ptr.get? q = none → q ∈ all) →
      ∃ p, (∀ q ∈ slice, q ∈ w.todo ∨ q = p ∨ settled min query sh' q) ∧
        ∀ q ∈ (query p).elems, sh'.ptr.get? q = none → q ∈ all := by
    rintro all ⟨p, h1, h2⟩
    refine ⟨p, fun q hq => ?_, fun q hq hn => h2 q hq ?_⟩
    · rcases h1 q hq with h' | h' | h'
      · exact Or.inl h'
      · exact Or.inr (Or.inl h')
      · exact Or.inr (Or.inr (settled_mono h h'))
    · by_contra hne
      exact h q hne hn
  obtain ⟨pc, todo, out⟩ := w
  cases pc with
  | next => exact fun q hq => (T q hq).imp_right (settled_mono h)
  | done => exact fun q hq => settled_mono h (T q hq)
  | filter qs acc => exact key _ T
  | check c rest => exact key _ T
  | assign c r rest => exact key _ T
  | conflict1 c d r rest => exact key _ T
  | conflict2 c d r rest => exact key _ T
  | conflict3 c d r rest => exact key _ T
  | conflict4 c d r rest => exact key _ T
  | commit c => exact key _ T
  | undo c qs r rest => trivial
  | giveUp c => trivial
  | release c qs => trivial

/-- A step of a worker in a run without rollbacks. -/
theorem pteam_step {query : P → HSet P} {slice : List P} (o : Order) (hmin : 1 ≤ min) (G : PG min sh0 sh)
    (W : PW min N sh0 me sh w) (R : PRb sh0 sh) (hno : ∀ i c, .rolledBack i c ∉ sh.trace)
    (hg : ∀ c, w.pc ≠ .giveUp c) (hpast : ∀ p d, some d ∉ sh.past p) (T : PTeam min query slice sh w) :
    let r := pstep min (fun p => o.perm (query p).elems) k me sh w
    (∃ i c, .rolledBack i c ∈ r.1.trace) ∨ (∃ c, r.2.pc = .giveUp c) ∨
      (PTeam min query slice r.1 r.2 ∧ (∀ p, sh.ptr.get? p ≠ none → r.1.ptr.get? p ≠ none) ∧
        ∀ p d, some d ∉ r.1.past p) := by
  obtain ⟨pc, todo, out⟩ := w
  -- the worker's own cluster is new
  have hnew : ∀ c, pc.own = some c → (sh.cell c).state ≠ 1 := by
    intro c hc h1
    obtain ⟨a, b, _, _, nc⟩ := W.own c hc
    rcases R c a b h1 with ⟨i, h⟩ | ⟨i, h⟩
    · exact nc i h
    · exact hno i c h
  have hread : ∀ p d, sh.readPtr k p = some d → sh.ptr.get? p ≠ none := by
    intro p d h
    rcases readPtr_cases sh k p with e | e
    · rw [← e, h]; simp
    · rw [h] at e; exact absurd e (hpast p d)
  intro r
  cases pc with
  | next =>
    cases todo with
    | nil =>
      refine Or.inr (Or.inr ⟨?_, fun _ h => h, hpast⟩)
      exact fun q hq => (T q hq).resolve_left (by simp)
    | cons p rest =>
      by_cases h : (sh.readPtr k p).isSome = true
      · have e : r = (sh, { pc := .next, todo := rest, out := out }) := by simp only [r, pstep, h, if_true]
        rw [e]
        refine Or.inr (Or.inr ⟨?_, fun _ h => h, hpast⟩)
        intro q hq
        rcases T q hq with h' | h'
        · rcases List.mem_cons.mp h' with rfl | h'
          · obtain ⟨d, hd⟩ := Option.isSome_iff_exists.mp h
            exact Or.inr (Or.inl (hread q d hd))
          · exact Or.inl h'
        · exact Or.inr h'
      · have e : r = (sh, { pc := .filter (o.perm (query p).elems) [], todo := rest, out := out }) := by
          simp only [r, pstep, h]; rfl
        rw [e]
        refine Or.inr (Or.inr ⟨?_, fun _ h => h, hpast⟩)
        refine ⟨p, ?_, fun q hq _ => ?_⟩
        · intro q hq
          rcases T q hq with h' | h'
          · rcases List.mem_cons.mp h' with rfl | h'
            · exact Or.inr (Or.inl rfl)
            · exact Or.inl h'
          · exact Or.inr (Or.inr h')
        · rw [List.nil_append]
          exact (o.mem_perm _ _).mpr hq
  | filter qs acc =>
    obtain ⟨p, T1, T2⟩ := T
    cases qs with
    | nil =>
      rw [List.append_nil] at T2
      by_cases h : min ≤ acc.length
      · have e : r = (sh.alloc me, { pc := .check sh.heap.length acc, todo := todo, out := out }) := by
          simp only [r, pstep, ge_iff_le, h, if_true]
        rw [e]
        exact Or.inr (Or.inr ⟨⟨p, T1, T2⟩, fun _ h => h, hpast⟩)
      · have e : r = (sh, { pc := .next, todo := todo, out := out }) := by
          simp only [r, pstep, ge_iff_le, h, if_false]
        rw [e]
        refine Or.inr (Or.inr ⟨?_, fun _ h => h, hpast⟩)
        intro q hq
        rcases T1 q hq with h' | rfl | h'
        · exact Or.inl h'
        · exact Or.inr (settled_of_few (by omega) T2)
        · exact Or.inr h'
    | cons x qs =>
      by_cases h : (sh.readPtr k x).isNone = true
      · have e : r = (sh, { pc := .filter qs (acc ++ [x]), todo := todo, out := out }) := by
          simp only [r, pstep, h, if_true]
        rw [e]
        exact Or.inr (Or.inr ⟨⟨p, T1, fun q hq hn => by simpa using T2 q hq hn⟩, fun _ h => h, hpast⟩)
      · have e : r = (sh, { pc := .filter qs acc, todo := todo, out := out }) := by
          simp only [r, pstep, h]; rfl
        rw [e]
        refine Or.inr (Or.inr ⟨⟨p, T1, fun q hq hn => ?_⟩, fun _ h => h, hpast⟩)
        have := T2 q hq hn
        rw [List.mem_append, List.mem_cons] at this
        rw [List.mem_append]
        rcases this with h' | rfl | h'
        · exact Or.inl h'
        · exfalso
          cases hx : sh.readPtr k q with
          | none => rw [hx] at h; exact h rfl
          | some d => exact hread q d hx hn
        · exact Or.inr h'
  | check c rest =>
    obtain ⟨p, T1, T2⟩ := T
    cases rest with
    | nil => exact Or.inr (Or.inr ⟨⟨p, T1, T2⟩, fun _ h => h, hpast⟩)
    | cons x rest =>
      have ho := W.own c rfl
      have hs : ¬ sh.readState k c = ROLLED_BACK := fun h => hnew c rfl (G.readState_one ho.1 ho.2.1 h)
      have e : r = (sh, { pc := .assign c x rest, todo := todo, out := out }) := by
        simp only [r, pstep, hs, if_false]
      rw [e]
      exact Or.inr (Or.inr ⟨⟨p, T1, T2⟩, fun _ h => h, hpast⟩)
  | undo c qs p rest => exact absurd (W.undo c qs p rest rfl) (hnew c rfl)
  | assign c x rest =>
    obtain ⟨p, T1, T2⟩ := T
    cases hx : sh.readAssign k x with
    | none =>
      have e : r = ((sh.setPtr x c).push c x, { pc := .check c rest, todo := todo, out := out }) := by
        simp only [r, pstep, hx]
      have hptr : ∀ q, ((sh.setPtr x c).push c x).ptr.get? q = if q = x then some c else sh.ptr.get? q := by
        intro q
        rw [ptr_push, ptr_setPtr]
      have hmono : ∀ q, sh.ptr.get? q ≠ none → ((sh.setPtr x c).push c x).ptr.get? q ≠ none := by
        intro q hq
        rw [hptr]
        split_ifs
        · simp
        · exact hq
      rw [e]
      refine Or.inr (Or.inr ⟨⟨p, ?_, ?_⟩, hmono, ?_⟩)
      · intro q hq
        rcases T1 q hq with h | h | h
        · exact Or.inl h
        · exact Or.inr (Or.inl h)
        · exact Or.inr (Or.inr (settled_mono hmono h))
      · intro q hq he
        simp only at he
        rw [hptr] at he
        split_ifs at he with hqr
        exact (List.mem_cons.mp (T2 q hq he)).resolve_left hqr
      · intro q d hd
        simp only [past_push, past_setPtr] at hd
        split_ifs at hd
        · rcases List.mem_cons.mp hd with h | h
          · cases h
          · exact hpast q d h
        · exact hpast q d hd
    | some d =>
      have e : r = (sh, { pc := .conflict1 c d x rest, todo := todo, out := out }) := by
        simp only [r, pstep, hx]
      rw [e]
      refine Or.inr (Or.inr ⟨⟨p, T1, ?_⟩, fun _ h => h, hpast⟩)
      intro q hq hn
      refine (List.mem_cons.mp (T2 q hq hn)).resolve_left ?_
      rintro rfl
      unfold PShared.readAssign at hx
      rw [hn, Option.or_none] at hx
      exact hread q d hx hn
  | conflict1 c d x rest =>
    obtain ⟨p, T1, T2⟩ := T
    by_cases h : sh.readState k d = COMMITTED
    · exact Or.inr (Or.inl ⟨c, by simp only [r, pstep, h, if_true]⟩)
    · have e : r = (sh.deref me d, { pc := .conflict2 c d x rest, todo := todo, out := out }) := by
        simp only [r, pstep, h, if_false]
      rw [e]
      rcases deref_cases sh me d with e | ⟨e, _⟩ <;> rw [e] <;>
        exact Or.inr (Or.inr ⟨⟨p, T1, T2⟩, fun _ h => h, hpast⟩)
  | conflict2 c d x rest =>
    obtain ⟨p, T1, T2⟩ := T
    by_cases h : sh.readState k d = ROLLED_BACK
    · have e : r = ((sh.deref me d).log (.skipped me c x), { pc := .check c rest, todo := todo, out := out }) := by
        simp only [r, pstep, h, if_true]
      rw [e]
      rcases deref_cases sh me d with e | ⟨e, _⟩ <;> rw [e] <;>
        exact Or.inr (Or.inr ⟨⟨p, T1, T2⟩, fun _ h => h, hpast⟩)
    · have e : r = (sh.deref me d, { pc := .conflict3 c d x rest, todo := todo, out := out }) := by
        simp only [r, pstep, h, if_false]
      rw [e]
      rcases deref_cases sh me d with e | ⟨e, _⟩ <;> rw [e] <;>
        exact Or.inr (Or.inr ⟨⟨p, T1, T2⟩, fun _ h => h, hpast⟩)
  | conflict3 c d x rest =>
    obtain ⟨p, T1, T2⟩ := T
    by_cases h : (sh.cell c).clusterId > (sh.cell d).clusterId
    · exact Or.inr (Or.inl ⟨c, by simp only [r, pstep, h, if_true]⟩)
    · have e : r = (sh.deref me d, { pc := .conflict4 c d x rest, todo := todo, out := out }) := by
        simp only [r, pstep, h, if_false]
      rw [e]
      rcases deref_cases sh me d with e | ⟨e, _⟩ <;> rw [e] <;>
        exact Or.inr (Or.inr ⟨⟨p, T1, T2⟩, fun _ h => h, hpast⟩)
  | conflict4 c d x rest =>
    by_cases h : (sh.cell d).state = 0
    · refine Or.inl ⟨me, d, ?_⟩
      simp only [r, pstep, h, if_true, trace_push, trace_log, trace_setState]
      simp
    · exact Or.inr (Or.inl ⟨c, by simp only [r, pstep, h, if_false]⟩)
  | giveUp c => exact absurd rfl (hg c)
  | release c qs => exact absurd (W.rel c qs rfl).1 (hnew c rfl)
  | commit c =>
    obtain ⟨p, T1, T2⟩ := T
    have ho := W.own c rfl
    have h0 : (sh.cell c).state = 0 := (G.state c ho.1 ho.2.1).resolve_right (hnew c rfl)
    have e : r = (sh.setState c COMMITTED (.committed me c), { pc := .next, todo := todo, out := out ++ [c] }) := by
      simp only [r, pstep, h0, if_true]
    rw [e]
    refine Or.inr (Or.inr ⟨?_, fun _ h => h, hpast⟩)
    intro q hq
    rcases T1 q hq with h | rfl | h
    · exact Or.inl h
    · exact Or.inr (settled_of_few (sh := sh) (l := []) (by rw [List.length_nil]; omega) T2)
    · exact Or.inr h
  | done => exact Or.inr (Or.inr ⟨T, fun _ h => h, hpast⟩)

/-- Runs: an attempt was lost, or all workers are on their way to settle their points. -/
structure PTeams (min : Nat) (query : P → HSet P) (slices : List (List P)) (sh : PShared P) (ws : List (PWorker P)) :
    Prop where
  past : ∀ p d, some d ∉ sh.past p
  team : ∀ (i : Nat) (w : PWorker P) (slice : List P), ws[i]? = some w → slices[i]? = some slice →
    PTeam min query slice sh w

theorem pteams_run {query : P → HSet P} {slices : List (List P)}
    (hN : ∀ slice ∈ slices, ∀ p ∈ slice, (query p).elems.length ≤ N) (hmin : 1 ≤ min) (ord : Nat → Order)
    (age : Nat → Nat) {s : PState P} (I : PInv min N query slices sh0 s) (R : PRb sh0 s.shared)
    (T : PLost s.shared s.workers ∨ PTeams min query slices s.shared s.workers) (sched : List Nat) :
    PRb sh0 (s.run min query ord age sched).shared ∧
    (PLost (s.run min query ord age sched).shared (s.run min query ord age sched).workers ∨
      PTeams min query slices (s.run min query ord age sched).shared (s.run min query ord age sched).workers) := by
  refine run_inv (min := min) hN ord age
    (fun sh ws => PRb sh0 sh ∧ (PLost sh ws ∨ PTeams min query slices sh ws)) ?_ I ⟨R, T⟩ sched
  intro s i w o k I ⟨R, T⟩ hi
  have W := I.w i w hi
  obtain ⟨slice, hsl, Q⟩ := I.q i w hi
  have hnb : ∀ p ∈ w.todo, (o.perm (query p).elems).Nodup ∧ (o.perm (query p).elems).length ≤ N := fun p hp =>
    nbrs_ok (hN slice (List.mem_of_getElem? hsl) p (Q.todo p hp)) _
  have S := stepOk (k := k) (fun p => o.perm (query p).elems) hnb I.g I.l W
  have hlt : i < s.workers.length := (List.getElem?_eq_some_iff.mp hi).1
  refine ⟨prb_step _ W R, ?_⟩
  have htr : ∀ e ∈ s.shared.trace, e ∈ (pstep min (fun p => o.perm (query p).elems) k i s.shared w).1.trace := by
    intro e he
    obtain ⟨es, hes⟩ := S.e.trace
    rw [hes]
    exact List.mem_append_left _ he
  by_cases hl : PLost s.shared s.workers
  · left
    rcases hl with ⟨j, c, h⟩ | ⟨j, v, c, hj, hc⟩
    · exact Or.inl ⟨j, c, htr _ h⟩
    · by_cases e : i = j
      · subst e
        rw [hi] at hj
        injection hj with hj
        subst hj
        left
        obtain ⟨pc, todo, out⟩ := w
        subst hc
        have ho := W.own c rfl
        by_cases h0 : (s.shared.cell c).state = 0
        · refine ⟨i, c, ?_⟩
          simp only [pstep, h0, if_true, trace_setState]
          simp
        · have h1 := (I.g.state c ho.1 ho.2.1).resolve_left h0
          rcases R c ho.1 ho.2.1 h1 with ⟨j, h⟩ | ⟨j, h⟩
          · exact absurd h (ho.2.2.2.2 j)
          · exact ⟨j, c, htr _ h⟩
      · right
        exact ⟨j, v, c, by rw [List.getElem?_set_ne e]; exact hj, hc⟩
  · have T := T.resolve_left hl
    have h1 := pteam_step (k := k) o hmin I.g W R (fun j c h => hl (Or.inl ⟨j, c, h⟩))
      (fun c h => hl (Or.inr ⟨i, w, c, hi, h⟩)) T.past (T.team i w slice hi hsl)
    simp only at h1
    generalize pstep min (fun p => o.perm (query p).elems) k i s.shared w = r at *
    rcases h1 with h1 | ⟨c, h1⟩ | ⟨h1, h2, h3⟩
    · exact Or.inl (Or.inl h1)
    · exact Or.inl (Or.inr ⟨i, r.2, c, by rw [List.getElem?_set_self hlt], h1⟩)
    · refine Or.inr ⟨h3, ?_⟩
      intro j v slj hj hsj
      simp only [List.getElem?_set] at hj
      split_ifs at hj with e
      · subst e
        injection hj with hj
        subst hj
        rw [hsl] at hsj
        injection hsj with hsj
        subst hsj
        exact h1
      · exact (T.team j v slj hj hsj).frame h2

theorem pteams_start {query : P → HSet P} (h : sh0.Fresh) (slices : List (List P)) :
    PTeams min query slices (PState.start sh0 slices).shared (PState.start sh0 slices).workers := by
  refine ⟨?_, ?_⟩
  · intro p d hd
    change _ ∈ sh0.past p at hd
    rw [h.past] at hd
    cases hd
  · intro i w slice hw hs
    simp only [PState.start, List.getElem?_map, hs, Option.map_some, Option.some.injEq] at hw
    subst hw
    exact fun q hq => Or.inl hq

end Verif
