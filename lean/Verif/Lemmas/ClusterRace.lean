import Verif.Lemmas.ClusterIndep
import Verif.Spec.DataRace

/-!
# Accesses to the memory of clusters
-/
namespace Verif
open Spec
variable {P : Type} [DecidableEq P]
variable {min N i k : Nat} {query : P → HSet P} {slices : List (List P)} {sh sh0 : PShared P} {w : PWorker P} {s : PState P}

/-- A worker accesses its own cluster, or the state and the id of another one, which it does not write except atomically. -/
theorem touches_cases {t : Touch} (h : t ∈ touches min k sh w) :
    w.pc.own = some t.cluster ∨
    (t.cluster = sh.heap.length ∧ ∃ acc, w.pc = .filter [] acc ∧ min ≤ acc.length) ∨
    (w.pc.other = some t.cluster ∧ t.field ≠ .points ∧ (t.atomic = true ∨ t.write = false)) := by
  obtain ⟨pc, todo, out⟩ := w
  have hw : ∀ c, t ∈ wholeBox c → t.cluster = c := by
    intro c hc
    simp only [wholeBox, List.mem_cons, List.not_mem_nil, or_false] at hc
    rcases hc with rfl | rfl | rfl <;> rfl
  cases pc with
  | next => simp [touches] at h
  | filter qs acc =>
    cases qs with
    | cons q qs => simp [touches] at h
    | nil =>
      simp only [touches] at h
      split_ifs at h with h1
      · exact Or.inr (Or.inl ⟨hw _ h, acc, rfl, h1⟩)
      · simp at h
  | check c rest =>
    cases rest with
    | nil => simp [touches] at h
    | cons p rest =>
      simp only [touches, List.mem_cons, List.not_mem_nil, or_false] at h
      rcases h with rfl | rfl <;> exact Or.inl rfl
  | undo c l p rest =>
    simp only [touches, List.mem_cons, List.not_mem_nil, or_false] at h
    subst h
    exact Or.inl rfl
  | assign c p rest =>
    simp only [touches] at h
    split_ifs at h
    · simp only [List.mem_cons, List.not_mem_nil, or_false] at h
      subst h
      exact Or.inl rfl
    · simp at h
  | conflict1 c d p rest =>
    simp only [touches, List.mem_cons, List.not_mem_nil, or_false] at h
    subst h
    exact Or.inr (Or.inr ⟨rfl, by simp, Or.inl rfl⟩)
  | conflict2 c d p rest =>
    simp only [touches, List.mem_cons, List.not_mem_nil, or_false] at h
    subst h
    exact Or.inr (Or.inr ⟨rfl, by simp, Or.inl rfl⟩)
  | conflict3 c d p rest =>
    simp only [touches, List.mem_cons, List.not_mem_nil, or_false] at h
    rcases h with rfl | rfl
    · exact Or.inl rfl
    · exact Or.inr (Or.inr ⟨rfl, by simp, Or.inr rfl⟩)
  | conflict4 c d p rest =>
    simp only [touches, List.mem_cons, List.not_mem_nil, or_false] at h
    rcases h with rfl | rfl
    · exact Or.inr (Or.inr ⟨rfl, by simp, Or.inl rfl⟩)
    · exact Or.inl rfl
  | giveUp c =>
    simp only [touches, List.mem_cons, List.not_mem_nil, or_false] at h
    rcases h with rfl | rfl <;> exact Or.inl rfl
  | release c l =>
    cases l with
    | nil =>
      simp only [touches] at h
      left
      rw [hw _ h]
      rfl
    | cons q l =>
      simp only [touches, List.mem_cons, List.not_mem_nil, or_false] at h
      subst h
      exact Or.inl rfl
  | commit c =>
    simp only [touches, List.mem_cons, List.not_mem_nil, or_false] at h
    rcases h with rfl | rfl <;> exact Or.inl rfl
  | done => simp [touches] at h

/-- A step keeps the owners of clusters. -/
theorem step_owner (hN : ∀ slice ∈ slices, ∀ p ∈ slice, (query p).elems.length ≤ N) (ord : Nat → Order)
    (age : Nat → Nat) (I : PInv min N query slices sh0 s) (i : Nat) :
    s.shared.heap.length ≤ (s.step min query ord age i).shared.heap.length ∧
    ∀ c, c < s.shared.heap.length → ((s.step min query ord age i).shared.cell c).owner = (s.shared.cell c).owner := by
  unfold PState.step
  cases hi : s.workers[i]? with
  | none => exact ⟨Nat.le_refl _, fun _ _ => rfl⟩
  | some w =>
    have W := I.w i w hi
    obtain ⟨slice, hsl, Q⟩ := I.q i w hi
    have hnb : ∀ p ∈ w.todo, ((ord s.clock).perm (query p).elems).Nodup ∧
        ((ord s.clock).perm (query p).elems).length ≤ N := fun p hp =>
      nbrs_ok (hN slice (List.mem_of_getElem? hsl) p (Q.todo p hp)) _
    have S := stepOk (k := age s.clock) (fun p => (ord s.clock).perm (query p).elems) hnb I.g I.l W
    exact ⟨S.e.len, S.e.owner⟩

theorem run_owner (hN : ∀ slice ∈ slices, ∀ p ∈ slice, (query p).elems.length ≤ N) (ord : Nat → Order)
    (age : Nat → Nat) (I : PInv min N query slices sh0 s) (sched : List Nat) :
    s.shared.heap.length ≤ (s.run min query ord age sched).shared.heap.length ∧
    ∀ c, c < s.shared.heap.length → ((s.run min query ord age sched).shared.cell c).owner = (s.shared.cell c).owner := by
  induction sched generalizing s with
  | nil => exact ⟨Nat.le_refl _, fun _ _ => rfl⟩
  | cons i sched ih =>
    have h1 := step_owner hN ord age I i
    have h2 := ih (pinv_step hN ord age I i)
    change s.shared.heap.length ≤ ((s.step min query ord age i).run min query ord age sched).shared.heap.length ∧
      ∀ c, c < s.shared.heap.length →
        (((s.step min query ord age i).run min query ord age sched).shared.cell c).owner = (s.shared.cell c).owner
    refine ⟨Nat.le_trans h1.1 h2.1, fun c hc => ?_⟩
    rw [h2.2 c (by omega), h1.2 c hc]

/-- Every access in an execution is to a cluster of the worker itself, or it is one to the state or the id of another
cluster, made while resolving a conflict. -/
theorem history_owner (hN : ∀ slice ∈ slices, ∀ p ∈ slice, (query p).elems.length ≤ N) (ord : Nat → Order)
    (age : Nat → Nat) (I : PInv min N query slices sh0 s) (sched : List Nat) :
    ∀ x ∈ history min query ord age s sched, ∀ a ∈ x.2,
      ((s.run min query ord age sched).shared.cell a.cluster).owner = x.1 ∨
      (a.field ≠ .points ∧ (a.atomic = true ∨ a.write = false) ∧
        ∃ pre, pre <+: sched ∧ ∃ (w : PWorker P), (s.run min query ord age pre).workers[x.1]? = some w ∧
          w.pc.other = some a.cluster) := by
  induction sched generalizing s with
  | nil => simp [history]
  | cons i sched ih =>
    intro x hx a ha
    unfold history at hx
    have I' := pinv_step hN ord age I i
    have R := run_owner hN ord age I' sched
    have S := step_owner hN ord age I i
    change (((s.step min query ord age i).run min query ord age sched).shared.cell a.cluster).owner = x.1 ∨ _
    rcases List.mem_cons.mp hx with rfl | hx
    · simp only at ha ⊢
      cases hw : s.workers[i]? with
      | none => rw [hw] at ha; simp at ha
      | some w =>
        rw [hw] at ha
        rcases touches_cases ha with h | ⟨h, acc, hpc, hm⟩ | ⟨h1, h2, h3⟩
        · obtain ⟨_, o1, o2, _⟩ := (I.w i w hw).own _ h
          left
          rw [R.2 _ (by omega), S.2 _ o1, o2]
        · left
          have hs : (s.step min query ord age i).shared = s.shared.alloc i := by
            unfold PState.step
            rw [hw]
            obtain ⟨pc, todo, out⟩ := w
            simp only at hpc
            subst hpc
            simp only [pstep]
            rw [if_pos hm]
          rw [R.2 _ (by rw [hs, heap_alloc]; omega), hs, cell_alloc, if_pos h]
        · exact Or.inr ⟨h2, h3, [], List.nil_prefix, w, hw, h1⟩
    · rcases ih I' x hx a ha with h | ⟨h1, h2, pre, h3, w, h4, h5⟩
      · exact Or.inl h
      · refine Or.inr ⟨h1, h2, i :: pre, ?_, w, h4, h5⟩
        exact List.cons_prefix_cons.mpr ⟨rfl, h3⟩

theorem coherent_prefix (ord : Nat → Order) (age : Nat → Nat) (pre post : List Nat) (s : PState P)
    (view : Nat → Loc P → Nat) (h : coherent min query ord age s view (pre ++ post)) :
    coherent min query ord age s view pre := by
  induction pre generalizing s view with
  | nil => exact trivial
  | cons i pre ih =>
    rw [List.cons_append] at h
    unfold coherent at h ⊢
    simp only at h ⊢
    cases hx : s.workers[i]?.bind access with
    | none => rw [hx] at h; exact ih _ _ h
    | some x => rw [hx] at h; exact ⟨h.1, ih _ _ h.2⟩

theorem WIndep.other {t0 : P → Bool} {R : P → Prop} {slice : List P} (W : WIndep min query t0 R slice i sh w) :
    w.pc.other = none := by
  obtain ⟨L, _, hP⟩ := W.ex
  obtain ⟨pc, todo, out⟩ := w
  cases pc <;> first | rfl | exact hP.elim

/-! ### Current loads are coherent -/

omit [DecidableEq P] in
theorem past_modify (sh : PShared P) (heap : List (PCell P)) (c d : Nat) (f : PCell P → PCell P)
    (hf : ∀ x, x.past.length ≤ (f x).past.length) (hh : heap = sh.heap.modify c f) :
    (sh.cell d).past.length ≤ (heap.getD d ⟨0, 0, [], 0, true, []⟩).past.length := by
  subst hh
  unfold PShared.cell
  by_cases hc : c < sh.heap.length
  · rw [getD_modify _ _ _ _ _ hc]
    split_ifs with h
    · subst h; exact hf _
    · exact Nat.le_refl _
  · rw [List.modify_eq_self (by omega)]

theorem writes_push (sh : PShared P) (c : Nat) (p : P) (l : Loc P) : writes sh l ≤ writes (sh.push c p) l := by
  cases l with
  | ptr q => exact Nat.le_refl _
  | state d =>
    exact past_modify sh _ c d (fun cell => { cell with points := cell.points ++ [p] }) (fun _ => Nat.le_refl _) rfl

theorem writes_setState (sh : PShared P) (c v : Nat) (e : PEvent P) (l : Loc P) :
    writes sh l ≤ writes (sh.setState c v e) l := by
  cases l with
  | ptr q => exact Nat.le_refl _
  | state d => exact past_modify sh _ c d _ (fun _ => by simp) rfl

theorem writes_free (sh : PShared P) (me c : Nat) (l : Loc P) : writes sh l ≤ writes (sh.free me c) l := by
  cases l with
  | ptr q => exact Nat.le_refl _
  | state d => exact past_modify sh _ c d (fun cell => { cell with dropped := true }) (fun _ => Nat.le_refl _) rfl

omit [DecidableEq P] in
theorem writes_deref (sh : PShared P) (me d : Nat) (l : Loc P) : writes (sh.deref me d) l = writes sh l := by
  unfold PShared.deref
  split_ifs
  · cases l <;> rfl
  · rfl

omit [DecidableEq P] in
theorem writes_log (sh : PShared P) (e : PEvent P) (l : Loc P) : writes (sh.log e) l = writes sh l := by
  cases l <;> rfl

theorem writes_alloc (sh : PShared P) (me : Nat) (l : Loc P) : writes sh l ≤ writes (sh.alloc me) l := by
  cases l with
  | ptr q => exact Nat.le_refl _
  | state d =>
    simp only [writes]
    rw [cell_alloc]
    split_ifs with h
    · subst h
      have : (sh.cell sh.heap.length).past = [] := by
        unfold PShared.cell
        rw [List.getD_eq_getElem?_getD, List.getElem?_eq_none (Nat.le_refl _)]
        rfl
      rw [this]
    · exact Nat.le_refl _

theorem writes_unassign (sh : PShared P) (c : Nat) (p : P) (l : Loc P) : writes sh l ≤ writes (sh.unassign c p) l := by
  cases l with
  | ptr q =>
    simp only [writes]
    rw [past_unassign]
    split_ifs <;> simp
  | state d => simp only [writes]; rw [cell_unassign]

theorem writes_setPtr (sh : PShared P) (c : Nat) (p : P) (l : Loc P) : writes sh l ≤ writes (sh.setPtr p c) l := by
  cases l with
  | ptr q =>
    simp only [writes]
    rw [past_setPtr]
    split_ifs <;> simp
  | state d => exact Nat.le_refl _

theorem writes_pstep (nbrs : P → List P) (l : Loc P) : writes sh l ≤ writes (pstep min nbrs k i sh w).1 l := by
  obtain ⟨pc, todo, out⟩ := w
  cases pc with
  | next =>
    cases todo with
    | nil => exact Nat.le_refl _
    | cons p rest => simp only [pstep]; split_ifs <;> exact Nat.le_refl _
  | filter qs acc =>
    cases qs with
    | nil =>
      simp only [pstep]
      split_ifs
      · exact writes_alloc _ _ _
      · exact Nat.le_refl _
    | cons q qs => simp only [pstep]; split_ifs <;> exact Nat.le_refl _
  | check c rest =>
    cases rest with
    | nil => exact Nat.le_refl _
    | cons p rest => simp only [pstep]; split_ifs <;> exact Nat.le_refl _
  | undo c l' p rest =>
    cases l' with
    | nil => exact Nat.le_refl _
    | cons q l' => exact writes_unassign _ _ _ _
  | assign c p rest =>
    simp only [pstep]
    cases sh.readAssign k p with
    | none => exact Nat.le_trans (writes_setPtr _ _ _ _) (writes_push _ _ _ _)
    | some d => exact Nat.le_refl _
  | conflict1 c d p rest => simp only [pstep]; split_ifs <;> rw [writes_deref]
  | conflict2 c d p rest =>
    simp only [pstep]
    split_ifs
    · rw [writes_log, writes_deref]
    · rw [writes_deref]
  | conflict3 c d p rest => simp only [pstep]; split_ifs <;> rw [writes_deref]
  | conflict4 c d p rest =>
    simp only [pstep]
    split_ifs
    · refine Nat.le_trans ?_ (writes_push _ _ _ _)
      rw [writes_log]
      refine Nat.le_trans ?_ (writes_setState _ _ _ _ _)
      rw [writes_deref]
    · rw [writes_deref]
  | giveUp c =>
    simp only [pstep]
    split_ifs
    · exact writes_setState _ _ _ _ _
    · exact Nat.le_refl _
  | release c l' =>
    cases l' with
    | nil => exact writes_free _ _ _ _
    | cons q l' => exact writes_unassign _ _ _ _
  | commit c =>
    simp only [pstep]
    split_ifs
    · exact writes_setState _ _ _ _ _
    · exact Nat.le_refl _
  | done => exact Nat.le_refl _

theorem writes_step (ord : Nat → Order) (age : Nat → Nat) (s : PState P) (i : Nat) (l : Loc P) :
    writes s.shared l ≤ writes (s.step min query ord age i).shared l := by
  unfold PState.step
  cases s.workers[i]? with
  | none => exact Nat.le_refl _
  | some w => exact writes_pstep _ _

/-- Every execution in which all loads are current is coherent. -/
theorem coherent_latest (min : Nat) (query : P → HSet P) (ord : Nat → Order) (sched : List Nat) (s : PState P)
    (view : Nat → Loc P → Nat) (h : ∀ j l, view j l ≤ writes s.shared l) :
    coherent min query ord latest s view sched := by
  induction sched generalizing s view with
  | nil => exact trivial
  | cons i sched ih =>
    have hm := fun l => writes_step (min := min) (query := query) ord latest s i l
    unfold coherent
    simp only
    cases s.workers[i]?.bind access with
    | none => exact ih _ _ fun j l => Nat.le_trans (h j l) (hm l)
    | some x =>
      obtain ⟨l, load⟩ := x
      simp only
      have hp : writes s.shared l ≤ position (latest s.clock) s.shared (s.step min query ord latest i).shared l load ∧
          position (latest s.clock) s.shared (s.step min query ord latest i).shared l load ≤
            writes (s.step min query ord latest i).shared l := by
        have h0 : latest s.clock = 0 := rfl
        rw [h0]
        unfold position
        have := hm l
        split_ifs <;> omega
      refine ⟨Nat.le_trans (h i l) hp.1, ih _ _ ?_⟩
      intro j m
      split_ifs with e
      · rw [e.2]; exact hp.2
      · exact Nat.le_trans (h j m) (hm m)

end Verif
