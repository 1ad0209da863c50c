import Verif.Model.ClusterPar
import Verif.Lemmas.Prelude

/-! # Lemmas on parallel clustering: the invariant of all schedules -/
namespace Verif
variable {P : Type} [DecidableEq P]

/-! ### Parts of a program counter -/

/-- The cluster that the worker is building or tearing down. -/
def Pc.own : Pc P → Option Nat
  | .check c _ => some c
  | .undo c _ _ _ => some c
  | .assign c _ _ => some c
  | .conflict1 c _ _ _ => some c
  | .conflict2 c _ _ _ => some c
  | .conflict3 c _ _ _ => some c
  | .conflict4 c _ _ _ => some c
  | .giveUp c => some c
  | .release c _ => some c
  | .commit c => some c
  | _ => none

/-- The cluster that the worker is still building. -/
def Pc.building : Pc P → Option Nat
  | .check c _ => some c
  | .undo c _ _ _ => some c
  | .assign c _ _ => some c
  | .conflict1 c _ _ _ => some c
  | .conflict2 c _ _ _ => some c
  | .conflict3 c _ _ _ => some c
  | .conflict4 c _ _ _ => some c
  | .commit c => some c
  | _ => none

/-- The points still to assign. -/
def Pc.rest : Pc P → List P
  | .check _ rest => rest
  | .undo _ _ p rest => p :: rest
  | .assign _ p rest => p :: rest
  | .conflict1 _ _ p rest => p :: rest
  | .conflict2 _ _ p rest => p :: rest
  | .conflict3 _ _ p rest => p :: rest
  | .conflict4 _ _ p rest => p :: rest
  | .filter rest acc => acc ++ rest
  | _ => []

/-- The foreign cluster that the worker holds a pointer to. -/
def Pc.other : Pc P → Option Nat
  | .conflict1 _ d _ _ => some d
  | .conflict2 _ d _ _ => some d
  | .conflict3 _ d _ _ => some d
  | .conflict4 _ d _ _ => some d
  | _ => none

theorem Pc.own_of_building {pc : Pc P} {c : Nat} (h : pc.building = some c) : pc.own = some c := by
  cases pc <;> simp_all [Pc.building, Pc.own]

/-- How often the cluster lost a point by `i = i - 1`. -/
def skips (sh : PShared P) (c : Nat) : Nat :=
  sh.trace.countP fun e => match e with | .skipped _ c' _ => decide (c' = c) | _ => false

/-! ### Cells -/

theorem cell_lt {sh : PShared P} {c : Nat} (h : c < sh.heap.length) : sh.cell c = sh.heap[c] := by
  unfold PShared.cell
  rw [List.getD_eq_getElem?_getD, List.getElem?_eq_getElem h]
  rfl

theorem getD_modify {α : Type} (l : List α) (c d : Nat) (f : α → α) (x : α) (hc : c < l.length) :
    (l.modify c f).getD d x = if d = c then f (l.getD c x) else l.getD d x := by
  rw [List.getD_eq_getElem?_getD, List.getElem?_modify, List.getD_eq_getElem?_getD, List.getD_eq_getElem?_getD]
  by_cases h : d = c
  · subst h
    rw [List.getElem?_eq_getElem hc]
    simp
  · have : ¬ c = d := fun e => h e.symm
    simp [h, this]

theorem cell_push (sh : PShared P) (c d : Nat) (p : P) (hc : c < sh.heap.length) :
    (sh.push c p).cell d = if d = c then { sh.cell c with points := (sh.cell c).points ++ [p] } else sh.cell d :=
  getD_modify _ _ _ _ _ hc

theorem cell_setState (sh : PShared P) (c d v : Nat) (e : PEvent P) (hc : c < sh.heap.length) :
    (sh.setState c v e).cell d =
      if d = c then { sh.cell c with state := v, past := (sh.cell c).state :: (sh.cell c).past } else sh.cell d :=
  getD_modify _ _ _ _ _ hc

theorem cell_free (sh : PShared P) (me c d : Nat) (hc : c < sh.heap.length) :
    (sh.free me c).cell d = if d = c then { sh.cell c with dropped := true } else sh.cell d :=
  getD_modify _ _ _ _ _ hc

theorem cell_alloc (sh : PShared P) (me d : Nat) :
    (sh.alloc me).cell d = if d = sh.heap.length then
      { owner := me, clusterId := (sh.seq + 1) % 2 ^ 32, points := [], state := 0, dropped := false }
    else sh.cell d := by
  unfold PShared.cell PShared.alloc
  simp only [List.getD_eq_getElem?_getD]
  by_cases h : d = sh.heap.length
  · subst h; simp
  · by_cases h2 : d < sh.heap.length
    · rw [List.getElem?_append_left h2]; simp [h]
    · have e1 : ∀ x : PCell P, (sh.heap ++ [x])[d]? = none := by
        intro x
        rw [List.getElem?_eq_none_iff]; simp; omega
      have e2 : sh.heap[d]? = none := by rw [List.getElem?_eq_none_iff]; omega
      rw [e1, e2]; simp [h]

theorem cell_setPtr (sh : PShared P) (c d : Nat) (p : P) : (sh.setPtr p c).cell d = sh.cell d := rfl
theorem cell_log (sh : PShared P) (d : Nat) (e : PEvent P) : (sh.log e).cell d = sh.cell d := rfl
theorem cell_unassign (sh : PShared P) (c d : Nat) (p : P) : (sh.unassign c p).cell d = sh.cell d := by
  unfold PShared.unassign; split_ifs <;> rfl
theorem cell_deref (sh : PShared P) (me c d : Nat) : (sh.deref me c).cell d = sh.cell d := by
  unfold PShared.deref; split_ifs <;> rfl

@[simp] theorem heap_push (sh : PShared P) (c : Nat) (p : P) : (sh.push c p).heap.length = sh.heap.length := by
  simp [PShared.push]
@[simp] theorem heap_setState (sh : PShared P) (c v : Nat) (e : PEvent P) :
    (sh.setState c v e).heap.length = sh.heap.length := by simp [PShared.setState]
@[simp] theorem heap_free (sh : PShared P) (me c : Nat) : (sh.free me c).heap.length = sh.heap.length := by
  simp [PShared.free]
@[simp] theorem heap_alloc (sh : PShared P) (me : Nat) : (sh.alloc me).heap.length = sh.heap.length + 1 := by
  simp [PShared.alloc]
@[simp] theorem heap_setPtr (sh : PShared P) (c : Nat) (p : P) : (sh.setPtr p c).heap.length = sh.heap.length := rfl
@[simp] theorem heap_log (sh : PShared P) (e : PEvent P) : (sh.log e).heap.length = sh.heap.length := rfl
@[simp] theorem heap_unassign (sh : PShared P) (c : Nat) (p : P) :
    (sh.unassign c p).heap.length = sh.heap.length := by unfold PShared.unassign; split_ifs <;> rfl
@[simp] theorem heap_deref (sh : PShared P) (me c : Nat) : (sh.deref me c).heap.length = sh.heap.length := by
  unfold PShared.deref; split_ifs <;> rfl

@[simp] theorem ptr_push (sh : PShared P) (c : Nat) (p : P) : (sh.push c p).ptr = sh.ptr := rfl
@[simp] theorem ptr_setState (sh : PShared P) (c v : Nat) (e : PEvent P) : (sh.setState c v e).ptr = sh.ptr := rfl
@[simp] theorem ptr_free (sh : PShared P) (me c : Nat) : (sh.free me c).ptr = sh.ptr := rfl
@[simp] theorem ptr_alloc (sh : PShared P) (me : Nat) : (sh.alloc me).ptr = sh.ptr := rfl
@[simp] theorem ptr_log (sh : PShared P) (e : PEvent P) : (sh.log e).ptr = sh.ptr := rfl
@[simp] theorem ptr_deref (sh : PShared P) (me c : Nat) : (sh.deref me c).ptr = sh.ptr := by
  unfold PShared.deref; split_ifs <;> rfl
theorem ptr_setPtr (sh : PShared P) (c : Nat) (p q : P) :
    (sh.setPtr p c).ptr.get? q = if q = p then some c else sh.ptr.get? q := by
  unfold PShared.setPtr
  simp only
  rw [HMap.get?_insert]
theorem ptr_unassign (sh : PShared P) (c : Nat) (p q : P) :
    (sh.unassign c p).ptr.get? q = if q = p ∧ sh.ptr.get? p = some c then none else sh.ptr.get? q := by
  unfold PShared.unassign
  split_ifs with h1 h2 h2
  · simp only; rw [HMap.get?_erase]; simp [h2.1]
  · simp only; rw [HMap.get?_erase, if_neg]; intro e; exact h2 ⟨e, h1⟩
  · exact absurd h2.2 h1
  · rfl

@[simp] theorem past_push (sh : PShared P) (c : Nat) (p : P) : (sh.push c p).past = sh.past := rfl
@[simp] theorem past_setState (sh : PShared P) (c v : Nat) (e : PEvent P) : (sh.setState c v e).past = sh.past := rfl
@[simp] theorem past_free (sh : PShared P) (me c : Nat) : (sh.free me c).past = sh.past := rfl
@[simp] theorem past_alloc (sh : PShared P) (me : Nat) : (sh.alloc me).past = sh.past := rfl
@[simp] theorem past_log (sh : PShared P) (e : PEvent P) : (sh.log e).past = sh.past := rfl
theorem past_setPtr (sh : PShared P) (c : Nat) (p q : P) :
    (sh.setPtr p c).past q = if q = p then none :: sh.past q else sh.past q := rfl
theorem past_unassign (sh : PShared P) (c : Nat) (p q : P) :
    (sh.unassign c p).past q = if q = p ∧ sh.ptr.get? p = some c then some c :: sh.past q else sh.past q := by
  unfold PShared.unassign
  by_cases h : sh.ptr.get? p = some c <;> simp [h]

@[simp] theorem trace_push (sh : PShared P) (c : Nat) (p : P) : (sh.push c p).trace = sh.trace := rfl
@[simp] theorem trace_setState (sh : PShared P) (c v : Nat) (e : PEvent P) :
    (sh.setState c v e).trace = sh.trace ++ [e] := rfl
@[simp] theorem trace_free (sh : PShared P) (me c : Nat) : (sh.free me c).trace = sh.trace ++ [.freed me c] := rfl
@[simp] theorem trace_alloc (sh : PShared P) (me : Nat) : (sh.alloc me).trace = sh.trace := rfl
@[simp] theorem trace_log (sh : PShared P) (e : PEvent P) : (sh.log e).trace = sh.trace ++ [e] := rfl
@[simp] theorem trace_setPtr (sh : PShared P) (c : Nat) (p : P) : (sh.setPtr p c).trace = sh.trace := rfl
@[simp] theorem trace_unassign (sh : PShared P) (c : Nat) (p : P) : (sh.unassign c p).trace = sh.trace := by
  unfold PShared.unassign; split_ifs <;> rfl

@[simp] theorem seq_push (sh : PShared P) (c : Nat) (p : P) : (sh.push c p).seq = sh.seq := rfl
@[simp] theorem seq_setState (sh : PShared P) (c v : Nat) (e : PEvent P) : (sh.setState c v e).seq = sh.seq := rfl
@[simp] theorem seq_free (sh : PShared P) (me c : Nat) : (sh.free me c).seq = sh.seq := rfl
@[simp] theorem seq_alloc (sh : PShared P) (me : Nat) : (sh.alloc me).seq = sh.seq + 1 := rfl
@[simp] theorem seq_log (sh : PShared P) (e : PEvent P) : (sh.log e).seq = sh.seq := rfl
@[simp] theorem seq_setPtr (sh : PShared P) (c : Nat) (p : P) : (sh.setPtr p c).seq = sh.seq := rfl
@[simp] theorem seq_unassign (sh : PShared P) (c : Nat) (p : P) : (sh.unassign c p).seq = sh.seq := by
  unfold PShared.unassign; split_ifs <;> rfl

/-- `deref` is the identity or logs a use after free. -/
theorem deref_cases (sh : PShared P) (me d : Nat) :
    sh.deref me d = sh ∨ (sh.deref me d = sh.log (.useAfterFree me d) ∧ (sh.cell d).dropped = true) := by
  unfold PShared.deref
  split_ifs with h
  · exact Or.inr ⟨rfl, h⟩
  · exact Or.inl rfl

/-- An event that the invariant does not look at. -/
def PEvent.neutral : PEvent P → Prop
  | .stolen _ _ _ _ => True
  | .freed _ _ => True
  | .useAfterFree _ _ => True
  | _ => False

theorem skips_append (sh sh' : PShared P) (c : Nat) (es : List (PEvent P)) (h : sh'.trace = sh.trace ++ es) :
    skips sh' c = skips sh c + es.countP (fun e => match e with | .skipped _ c' _ => decide (c' = c) | _ => false) := by
  unfold skips
  rw [h, List.countP_append]

/-! ### The invariant of the shared memory -/

/-- Facts about the shared memory that hold in every reachable state: `sh0` is the memory before the call, `min` the
minimum size. Clusters below `sh0.heap.length` are from earlier calls; nothing is assumed about them (the caller may
have dropped them). -/
structure PG (min : Nat) (sh0 sh : PShared P) : Prop where
  len : sh0.heap.length ≤ sh.heap.length
  seq : sh.seq + sh0.heap.length = sh0.seq + sh.heap.length
  id : ∀ c, sh0.heap.length ≤ c → c < sh.heap.length →
    (sh.cell c).clusterId = (sh0.seq + (c - sh0.heap.length) + 1) % 2 ^ 32
  state : ∀ c, sh0.heap.length ≤ c → c < sh.heap.length → (sh.cell c).state = 0 ∨ (sh.cell c).state = 1
  old : ∀ c, c < sh0.heap.length → sh.cell c = sh0.cell c
  oldptr : ∀ p d, d < sh0.heap.length → (sh.ptr.get? p = some d ↔ sh0.ptr.get? p = some d)
  com : ∀ i c, .committed i c ∈ sh.trace → sh0.heap.length ≤ c ∧ c < sh.heap.length ∧ (sh.cell c).owner = i ∧
    (sh.cell c).state = 1 ∧ (sh.cell c).dropped = false ∧ ∀ j, .rolledBack j c ∉ sh.trace
  rb : ∀ i c, .rolledBack i c ∈ sh.trace → sh0.heap.length ≤ c ∧ c < sh.heap.length ∧ (sh.cell c).state = 1
  ptr : ∀ p d, sh.ptr.get? p = some d → sh0.heap.length ≤ d →
    d < sh.heap.length ∧ (sh.cell d).dropped = false ∧ p ∈ (sh.cell d).points
  nodup : ∀ c, sh0.heap.length ≤ c → c < sh.heap.length → (sh.cell c).points.Nodup
  size : ∀ i c, .committed i c ∈ sh.trace → min ≤ (sh.cell c).points.length + skips sh c
  past : ∀ p d, some d ∈ sh.past p → sh0.heap.length ≤ d ∧ d < sh.heap.length ∧ p ∈ (sh.cell d).points
  pastOld : ∀ p d, d < sh0.heap.length → sh0.ptr.get? p = some d → sh.past p = []
  pastState : ∀ c, sh0.heap.length ≤ c → c < sh.heap.length → ∀ v ∈ (sh.cell c).past, v = 0
  drop : ∀ c, sh0.heap.length ≤ c → c < sh.heap.length → (sh.cell c).dropped = true → (sh.cell c).state = 1

variable {min : Nat} {sh0 : PShared P}

theorem PG.of_same {sh sh' : PShared P} (G : PG min sh0 sh) (hh : sh'.heap = sh.heap) (hs : sh'.seq = sh.seq)
    (ht : ∃ es, sh'.trace = sh.trace ++ es ∧ ∀ e ∈ es, e.neutral ∨ ∃ i c p, e = .skipped i c p)
    (hp : ∀ p d, sh'.ptr.get? p = some d → sh.ptr.get? p = some d)
    (hq : ∀ p d, d < sh0.heap.length → sh.ptr.get? p = some d → sh'.ptr.get? p = some d)
    (hpast : ∀ p d, some d ∈ sh'.past p → some d ∈ sh.past p ∨ (sh0.heap.length ≤ d ∧ d < sh.heap.length ∧ p ∈ (sh.cell d).points))
    (hpo : ∀ p d, d < sh0.heap.length → sh0.ptr.get? p = some d → sh'.past p = sh.past p) : PG min sh0 sh' := by
  obtain ⟨es, ht, hn⟩ := ht
  have hc : ∀ c, sh'.cell c = sh.cell c := fun c => by unfold PShared.cell; rw [hh]
  have tc : ∀ i c, PEvent.committed i c ∈ sh'.trace ↔ PEvent.committed i c ∈ sh.trace := by
    intro i c
    rw [ht, List.mem_append]
    constructor
    · rintro (h | h)
      · exact h
      · rcases hn _ h with h | ⟨_, _, _, h⟩
        · exact absurd h (by simp [PEvent.neutral])
        · cases h
    · exact Or.inl
  have tr : ∀ i c, PEvent.rolledBack i c ∈ sh'.trace ↔ PEvent.rolledBack i c ∈ sh.trace := by
    intro i c
    rw [ht, List.mem_append]
    constructor
    · rintro (h | h)
      · exact h
      · rcases hn _ h with h | ⟨_, _, _, h⟩
        · exact absurd h (by simp [PEvent.neutral])
        · cases h
    · exact Or.inl
  refine ⟨by rw [hh]; exact G.len, by rw [hh, hs]; exact G.seq, ?_, ?_, ?_, ?_, ?_, ?_, ?_, ?_, ?_, ?_, ?_, ?_, ?_⟩
  · intro c; rw [hh, hc]; exact G.id c
  · intro c; rw [hh, hc]; exact G.state c
  · intro c; rw [hc]; exact G.old c
  · intro p d hd
    exact ⟨fun h => (G.oldptr p d hd).mp (hp p d h), fun h => hq p d hd ((G.oldptr p d hd).mpr h)⟩
  · intro i c; rw [tc, hh, hc]; simp only [tr]; exact G.com i c
  · intro i c; rw [tr, hh, hc]; exact G.rb i c
  · intro p d h; rw [hh, hc]; exact G.ptr p d (hp p d h)
  · intro c; rw [hh, hc]; exact G.nodup c
  · intro i c; rw [tc, hc, skips_append sh sh' c es ht]; intro h; have := G.size i c h; omega
  · intro p d h; rw [hh, hc]; exact (hpast p d h).elim (G.past p d) fun h => h
  · intro p d hd h; rw [hpo p d hd h]; exact G.pastOld p d hd h
  · intro c; rw [hh, hc]; exact G.pastState c
  · intro c; rw [hh, hc]; exact G.drop c

theorem PG.log {sh : PShared P} (G : PG min sh0 sh) (e : PEvent P)
    (he : e.neutral ∨ ∃ i c p, e = .skipped i c p) : PG min sh0 (sh.log e) :=
  G.of_same rfl rfl ⟨[e], rfl, by simpa using he⟩ (fun _ _ h => h) (fun _ _ _ h => h)
    (fun _ _ h => Or.inl h) fun _ _ _ _ => rfl

theorem PG.deref {sh : PShared P} (G : PG min sh0 sh) (me d : Nat) : PG min sh0 (sh.deref me d) := by
  rcases deref_cases sh me d with h | h
  · rw [h]; exact G
  · rw [h.1]; exact G.log _ (Or.inl trivial)

theorem PG.unassign {sh : PShared P} (G : PG min sh0 sh) (c : Nat) (p : P) (hc : sh0.heap.length ≤ c) :
    PG min sh0 (sh.unassign c p) := by
  refine G.of_same ?_ (by simp) ⟨[], by simp, by simp⟩ ?_ ?_ ?_ ?_
  · unfold PShared.unassign; split_ifs <;> rfl
  · intro q d h
    rw [ptr_unassign] at h
    split_ifs at h
    exact h
  · intro q d hd h
    rw [ptr_unassign, if_neg]
    · exact h
    · rintro ⟨rfl, e⟩
      rw [e] at h
      injection h with h
      omega
  · intro q d h
    rw [past_unassign] at h
    split_ifs at h with hq
    · rw [List.mem_cons] at h
      rcases h with h | h
      · injection h with h
        subst h
        exact Or.inr ⟨hc, (G.ptr p d hq.2 hc).1, by rw [hq.1]; exact (G.ptr p d hq.2 hc).2.2⟩
      · exact Or.inl h
    · exact Or.inl h
  · intro q d hd h
    rw [past_unassign, if_neg]
    rintro ⟨rfl, e⟩
    rw [← G.oldptr q d hd, e] at h
    injection h with h
    omega

theorem PG.alloc {sh : PShared P} (G : PG min sh0 sh) (me : Nat) : PG min sh0 (sh.alloc me) := by
  have hl := G.len
  have hs := G.seq
  refine ⟨by simp; omega, by simp; omega, ?_, ?_, ?_, ?_, ?_, ?_, ?_, ?_, ?_, ?_, G.pastOld, ?_, ?_⟩
  · intro c h1 h2
    rw [heap_alloc] at h2
    rw [cell_alloc]
    split_ifs with h
    · simp only; congr 1; omega
    · exact G.id c h1 (by omega)
  · intro c h1 h2
    rw [heap_alloc] at h2
    rw [cell_alloc]
    split_ifs with h
    · exact Or.inl rfl
    · exact G.state c h1 (by omega)
  · intro c h1
    rw [cell_alloc, if_neg (by omega)]
    exact G.old c h1
  · intro p d hd; exact G.oldptr p d hd
  · intro i c h
    obtain ⟨a, b, r⟩ := G.com i c h
    rw [cell_alloc, if_neg (by omega), heap_alloc]
    exact ⟨a, by omega, r⟩
  · intro i c h
    obtain ⟨a, b, r⟩ := G.rb i c h
    rw [cell_alloc, if_neg (by omega), heap_alloc]
    exact ⟨a, by omega, r⟩
  · intro p d h hd
    obtain ⟨a, r⟩ := G.ptr p d h hd
    rw [cell_alloc, if_neg (by omega), heap_alloc]
    exact ⟨by omega, r⟩
  · intro c h1 h2
    rw [heap_alloc] at h2
    rw [cell_alloc]
    split_ifs with h
    · exact List.nodup_nil
    · exact G.nodup c h1 (by omega)
  · intro i c h
    have hlt := (G.com i c h).2.1
    rw [cell_alloc, if_neg (by omega)]
    exact G.size i c h
  · intro p d h
    have := G.past p d h
    rw [heap_alloc, cell_alloc, if_neg (by omega)]
    exact ⟨this.1, by omega, this.2.2⟩
  · intro c h1 h2
    rw [heap_alloc] at h2
    rw [cell_alloc]
    split_ifs with h
    · simp
    · exact G.pastState c h1 (by omega)
  · intro c h1 h2
    rw [heap_alloc] at h2
    rw [cell_alloc]
    split_ifs with h
    · simp
    · exact G.drop c h1 (by omega)

theorem PG.push {sh : PShared P} (G : PG min sh0 sh) {c : Nat} {p : P} (h0 : sh0.heap.length ≤ c) (h1 : c < sh.heap.length)
    (h2 : p ∉ (sh.cell c).points) : PG min sh0 (sh.push c p) := by
  have hpts : ∀ d, ((sh.push c p).cell d).owner = (sh.cell d).owner ∧
      ((sh.push c p).cell d).clusterId = (sh.cell d).clusterId ∧ ((sh.push c p).cell d).state = (sh.cell d).state ∧
      ((sh.push c p).cell d).dropped = (sh.cell d).dropped ∧
      (∀ q ∈ (sh.cell d).points, q ∈ ((sh.push c p).cell d).points) ∧
      ((sh.push c p).cell d).past = (sh.cell d).past := by
    intro d
    rw [cell_push _ _ _ _ h1]
    split_ifs with h
    · subst h; exact ⟨rfl, rfl, rfl, rfl, fun q hq => by simp [hq], rfl⟩
    · exact ⟨rfl, rfl, rfl, rfl, fun q hq => hq, rfl⟩
  refine ⟨by simpa using G.len, by simpa using G.seq, ?_, ?_, ?_, ?_, ?_, ?_, ?_, ?_, ?_, ?_, G.pastOld, ?_, ?_⟩
  · intro d; rw [heap_push, (hpts d).2.1]; exact G.id d
  · intro d; rw [heap_push, (hpts d).2.2.1]; exact G.state d
  · intro d hd; rw [cell_push _ _ _ _ h1, if_neg (by omega)]; exact G.old d hd
  · exact G.oldptr
  · intro i d; rw [heap_push, (hpts d).1, (hpts d).2.2.1, (hpts d).2.2.2.1]; exact G.com i d
  · intro i d; rw [heap_push, (hpts d).2.2.1]; exact G.rb i d
  · intro q d h hd
    obtain ⟨a, b, r⟩ := G.ptr q d h hd
    rw [heap_push, (hpts d).2.2.2.1]
    exact ⟨a, b, (hpts d).2.2.2.2.1 q r⟩
  · intro d hd1 hd2
    rw [heap_push] at hd2
    rw [cell_push _ _ _ _ h1]
    split_ifs with h
    · subst h
      simp only
      rw [List.nodup_append]
      refine ⟨G.nodup d hd1 hd2, by simp, ?_⟩
      intro a ha b hb e
      rw [List.mem_singleton.mp hb] at e
      exact h2 (e ▸ ha)
    · exact G.nodup d hd1 hd2
  · intro i d h
    have := G.size i d h
    have e : skips (sh.push c p) d = skips sh d := rfl
    rw [e, cell_push _ _ _ _ h1]
    split_ifs with hh
    · subst hh; simp only [List.length_append, List.length_singleton]; omega
    · exact this
  · intro q d h
    obtain ⟨a, b, e⟩ := G.past q d h
    rw [heap_push]
    exact ⟨a, b, (hpts d).2.2.2.2.1 q e⟩
  · intro d; rw [heap_push, (hpts d).2.2.2.2.2]; exact G.pastState d
  · intro d; rw [heap_push, (hpts d).2.2.2.1, (hpts d).2.2.1]; exact G.drop d

/-- Assignment of a free point to a live cluster of the call. -/
theorem PG.assign {sh : PShared P} (G : PG min sh0 sh) {c : Nat} {p : P} (h0 : sh0.heap.length ≤ c)
    (h1 : c < sh.heap.length) (h2 : p ∉ (sh.cell c).points) (h3 : (sh.cell c).dropped = false)
    (h4 : sh.ptr.get? p = none) : PG min sh0 ((sh.setPtr p c).push c p) := by
  have G1 := G.push h0 h1 h2
  have hheap : ((sh.setPtr p c).push c p).heap = (sh.push c p).heap := rfl
  have hc : ∀ d, ((sh.setPtr p c).push c p).cell d = (sh.push c p).cell d := fun d => rfl
  refine ⟨G1.len, G1.seq, G1.id, G1.state, G1.old, ?_, G1.com, G1.rb, ?_, G1.nodup, G1.size, ?_, ?_, G1.pastState, G1.drop⟩
  · intro q d hd
    rw [ptr_push, ptr_setPtr]
    split_ifs with hq
    · subst hq
      constructor
      · intro h; injection h with h; omega
      · intro h
        rw [← G.oldptr q d hd, h4] at h
        cases h
    · exact G.oldptr q d hd
  · intro q d h hd
    rw [ptr_push, ptr_setPtr] at h
    split_ifs at h with hq
    · injection h with h
      subst h
      rw [hc, hheap, heap_push, cell_push _ _ _ _ h1, if_pos rfl]
      exact ⟨h1, h3, by simp [hq]⟩
    · exact G1.ptr q d h hd
  · intro q d h
    rw [past_push, past_setPtr] at h
    refine G1.past q d ?_
    split_ifs at h
    · simpa using h
    · exact h
  · intro q d hd h
    rw [past_push, past_setPtr, if_neg]
    · exact G.pastOld q d hd h
    · rintro rfl
      rw [← G.oldptr q d hd, h4] at h
      cases h

theorem PG.rollback {sh : PShared P} (G : PG min sh0 sh) {i c : Nat} (h1 : sh0.heap.length ≤ c) (h2 : c < sh.heap.length)
    (h3 : (sh.cell c).state = 0) : PG min sh0 (sh.setState c ROLLED_BACK (.rolledBack i c)) := by
  have hcell := fun d => cell_setState sh c d ROLLED_BACK (.rolledBack i c) h2
  have ho : ∀ d, ((sh.setState c ROLLED_BACK (.rolledBack i c)).cell d).owner = (sh.cell d).owner ∧
      ((sh.setState c ROLLED_BACK (.rolledBack i c)).cell d).clusterId = (sh.cell d).clusterId ∧
      ((sh.setState c ROLLED_BACK (.rolledBack i c)).cell d).points = (sh.cell d).points ∧
      ((sh.setState c ROLLED_BACK (.rolledBack i c)).cell d).dropped = (sh.cell d).dropped := by
    intro d
    rw [hcell]
    split_ifs with h
    · subst h; exact ⟨rfl, rfl, rfl, rfl⟩
    · exact ⟨rfl, rfl, rfl, rfl⟩
  refine ⟨by simpa using G.len, by simpa using G.seq, ?_, ?_, ?_, ?_, ?_, ?_, ?_, ?_, ?_, ?_, G.pastOld, ?_, ?_⟩
  · intro d; rw [heap_setState, (ho d).2.1]; exact G.id d
  · intro d hd0 hd
    rw [heap_setState] at hd
    rw [hcell]
    split_ifs
    · exact Or.inr rfl
    · exact G.state d hd0 hd
  · intro d hd
    rw [hcell, if_neg (by omega)]
    exact G.old d hd
  · exact G.oldptr
  · intro j d hm
    rw [trace_setState, List.mem_append] at hm
    rcases hm with hm | hm
    · obtain ⟨a, b, r, st, dr, nr⟩ := G.com j d hm
      have hne : d ≠ c := by rintro rfl; rw [st] at h3; cases h3
      rw [hcell, if_neg hne, heap_setState]
      refine ⟨a, b, r, st, dr, ?_⟩
      intro k hk
      rw [trace_setState, List.mem_append] at hk
      rcases hk with hk | hk
      · exact nr k hk
      · rw [List.mem_singleton] at hk
        injection hk with _ hk
        exact hne hk
    · rw [List.mem_singleton] at hm; cases hm
  · intro j d hm
    rw [trace_setState, List.mem_append] at hm
    rw [heap_setState, hcell]
    rcases hm with hm | hm
    · obtain ⟨a, b, r⟩ := G.rb j d hm
      refine ⟨a, b, ?_⟩
      split_ifs
      · rfl
      · exact r
    · rw [List.mem_singleton] at hm
      injection hm with _ hm
      subst hm
      exact ⟨h1, h2, by rw [if_pos rfl]; rfl⟩
  · intro q d h hd
    obtain ⟨a, b, r⟩ := G.ptr q d h hd
    rw [heap_setState, (ho d).2.2.2, (ho d).2.2.1]
    exact ⟨a, b, r⟩
  · intro d; rw [heap_setState, (ho d).2.2.1]; exact G.nodup d
  · intro j d hm
    rw [trace_setState, List.mem_append] at hm
    rcases hm with hm | hm
    · rw [(ho d).2.2.1, skips_append sh _ d _ (trace_setState _ _ _ _)]
      have := G.size j d hm
      omega
    · rw [List.mem_singleton] at hm; cases hm
  · intro q d h; rw [heap_setState, (ho d).2.2.1]; exact G.past q d h
  · intro d hd0 hd v hv
    rw [heap_setState] at hd
    rw [hcell] at hv
    split_ifs at hv with h
    · subst h
      simp only [List.mem_cons] at hv
      rcases hv with hv | hv
      · rw [hv, h3]
      · exact G.pastState d hd0 hd v hv
    · exact G.pastState d hd0 hd v hv
  · intro d hd0 hd hdr
    rw [heap_setState] at hd
    rw [(ho d).2.2.2] at hdr
    rw [hcell]
    split_ifs
    · rfl
    · exact G.drop d hd0 hd hdr

theorem PG.commit {sh : PShared P} (G : PG min sh0 sh) {i c : Nat} (h1 : sh0.heap.length ≤ c) (h2 : c < sh.heap.length)
    (h3 : (sh.cell c).state = 0) (h4 : (sh.cell c).owner = i) (h5 : (sh.cell c).dropped = false)
    (h6 : min ≤ (sh.cell c).points.length + skips sh c) :
    PG min sh0 (sh.setState c COMMITTED (.committed i c)) := by
  have hcell := fun d => cell_setState sh c d COMMITTED (.committed i c) h2
  have ho : ∀ d, ((sh.setState c COMMITTED (.committed i c)).cell d).owner = (sh.cell d).owner ∧
      ((sh.setState c COMMITTED (.committed i c)).cell d).clusterId = (sh.cell d).clusterId ∧
      ((sh.setState c COMMITTED (.committed i c)).cell d).points = (sh.cell d).points ∧
      ((sh.setState c COMMITTED (.committed i c)).cell d).dropped = (sh.cell d).dropped := by
    intro d
    rw [hcell]
    split_ifs with h
    · subst h; exact ⟨rfl, rfl, rfl, rfl⟩
    · exact ⟨rfl, rfl, rfl, rfl⟩
  have hst : ∀ d, (sh.cell d).state = 1 → ((sh.setState c COMMITTED (.committed i c)).cell d).state = 1 := by
    intro d hd
    rw [hcell]
    split_ifs
    · rfl
    · exact hd
  refine ⟨by simpa using G.len, by simpa using G.seq, ?_, ?_, ?_, ?_, ?_, ?_, ?_, ?_, ?_, ?_, G.pastOld, ?_, ?_⟩
  · intro d; rw [heap_setState, (ho d).2.1]; exact G.id d
  · intro d hd0 hd
    rw [heap_setState] at hd
    rw [hcell]
    split_ifs
    · exact Or.inr rfl
    · exact G.state d hd0 hd
  · intro d hd
    rw [hcell, if_neg (by omega)]
    exact G.old d hd
  · exact G.oldptr
  · intro j d hm
    have hr : ∀ k, PEvent.rolledBack k d ∈ (sh.setState c COMMITTED (.committed i c)).trace →
        PEvent.rolledBack k d ∈ sh.trace := by
      intro k hk
      rw [trace_setState, List.mem_append] at hk
      rcases hk with hk | hk
      · exact hk
      · rw [List.mem_singleton] at hk; cases hk
    rw [trace_setState, List.mem_append] at hm
    rw [heap_setState, (ho d).1, (ho d).2.2.2]
    rcases hm with hm | hm
    · obtain ⟨a, b, r, st, dr, nr⟩ := G.com j d hm
      exact ⟨a, b, r, hst d st, dr, fun k hk => nr k (hr k hk)⟩
    · rw [List.mem_singleton] at hm
      injection hm with hm1 hm2
      subst hm1; subst hm2
      refine ⟨h1, h2, h4, by rw [hcell, if_pos rfl]; rfl, h5, fun k hk => ?_⟩
      have := (G.rb k d (hr k hk)).2.2
      rw [this] at h3
      cases h3
  · intro j d hm
    rw [trace_setState, List.mem_append] at hm
    rcases hm with hm | hm
    · obtain ⟨a, b, r⟩ := G.rb j d hm
      exact ⟨a, by simpa using b, hst d r⟩
    · rw [List.mem_singleton] at hm; cases hm
  · intro q d h hd
    obtain ⟨a, b, r⟩ := G.ptr q d h hd
    rw [heap_setState, (ho d).2.2.2, (ho d).2.2.1]
    exact ⟨a, b, r⟩
  · intro d; rw [heap_setState, (ho d).2.2.1]; exact G.nodup d
  · intro j d hm
    rw [trace_setState, List.mem_append] at hm
    rw [(ho d).2.2.1, skips_append sh _ d _ (trace_setState _ _ _ _)]
    rcases hm with hm | hm
    · have := G.size j d hm; omega
    · rw [List.mem_singleton] at hm
      injection hm with hm1 hm2
      subst hm2
      omega
  · intro q d h; rw [heap_setState, (ho d).2.2.1]; exact G.past q d h
  · intro d hd0 hd v hv
    rw [heap_setState] at hd
    rw [hcell] at hv
    split_ifs at hv with h
    · subst h
      simp only [List.mem_cons] at hv
      rcases hv with hv | hv
      · rw [hv, h3]
      · exact G.pastState d hd0 hd v hv
    · exact G.pastState d hd0 hd v hv
  · intro d hd0 hd hdr
    rw [heap_setState] at hd
    rw [(ho d).2.2.2] at hdr
    rw [hcell]
    split_ifs
    · rfl
    · exact G.drop d hd0 hd hdr

theorem PG.free {sh : PShared P} (G : PG min sh0 sh) {me c : Nat} (h1 : sh0.heap.length ≤ c) (h2 : c < sh.heap.length)
    (h3 : ∀ p, sh.ptr.get? p ≠ some c) (h4 : ∀ i, .committed i c ∉ sh.trace) (h5 : (sh.cell c).state = 1) :
    PG min sh0 (sh.free me c) := by
  have hcell := fun d => cell_free sh me c d h2
  have ho : ∀ d, ((sh.free me c).cell d).owner = (sh.cell d).owner ∧
      ((sh.free me c).cell d).clusterId = (sh.cell d).clusterId ∧
      ((sh.free me c).cell d).points = (sh.cell d).points ∧
      ((sh.free me c).cell d).state = (sh.cell d).state := by
    intro d
    rw [hcell]
    split_ifs with h
    · subst h; exact ⟨rfl, rfl, rfl, rfl⟩
    · exact ⟨rfl, rfl, rfl, rfl⟩
  have tc : ∀ i d, PEvent.committed i d ∈ (sh.free me c).trace ↔ PEvent.committed i d ∈ sh.trace := by
    intro i d; simp
  have tr : ∀ i d, PEvent.rolledBack i d ∈ (sh.free me c).trace ↔ PEvent.rolledBack i d ∈ sh.trace := by
    intro i d; simp
  refine ⟨by simpa using G.len, by simpa using G.seq, ?_, ?_, ?_, ?_, ?_, ?_, ?_, ?_, ?_, ?_, G.pastOld, ?_, ?_⟩
  · intro d; rw [heap_free, (ho d).2.1]; exact G.id d
  · intro d; rw [heap_free, (ho d).2.2.2]; exact G.state d
  · intro d hd
    rw [hcell, if_neg (by omega)]
    exact G.old d hd
  · exact G.oldptr
  · intro j d hm
    rw [tc] at hm
    have hne : d ≠ c := by rintro rfl; exact h4 j hm
    rw [hcell, if_neg hne, heap_free]
    simp only [tr]
    exact G.com j d hm
  · intro j d; rw [tr, heap_free, (ho d).2.2.2]; exact G.rb j d
  · intro q d h hd
    rw [ptr_free] at h
    have hne : d ≠ c := by rintro rfl; exact h3 q h
    rw [hcell, if_neg hne, heap_free]
    exact G.ptr q d h hd
  · intro d; rw [heap_free, (ho d).2.2.1]; exact G.nodup d
  · intro j d hm
    rw [tc] at hm
    rw [(ho d).2.2.1, skips_append sh _ d _ (trace_free _ _ _)]
    have := G.size j d hm
    omega
  · intro q d h; rw [heap_free, (ho d).2.2.1]; exact G.past q d h
  · intro d hd0 hd
    rw [heap_free] at hd
    rw [hcell]
    split_ifs with h
    · subst h; exact G.pastState d hd0 hd
    · exact G.pastState d hd0 hd
  · intro d hd0 hd
    rw [heap_free] at hd
    rw [(ho d).2.2.2, hcell]
    split_ifs with h
    · subst h; exact fun _ => h5
    · exact G.drop d hd0 hd

/-! ### What a load can return -/

theorem readPtr_cases (sh : PShared P) (k : Nat) (p : P) :
    sh.readPtr k p = sh.ptr.get? p ∨ sh.readPtr k p ∈ sh.past p := by
  cases k with
  | zero => exact Or.inl rfl
  | succ k =>
    have e : sh.readPtr (k + 1) p = ((sh.past p)[k]?).getD (sh.ptr.get? p) := rfl
    rw [e]
    cases h : (sh.past p)[k]? with
    | none => exact Or.inl rfl
    | some v => exact Or.inr (List.mem_of_getElem? h)

/-- A point of an earlier cluster is seen to be assigned. -/
theorem PG.readPtr_old {sh : PShared P} (G : PG min sh0 sh) {k d : Nat} {p : P} (hd : d < sh0.heap.length)
    (h : sh0.ptr.get? p = some d) : sh.readPtr k p = some d := by
  rcases readPtr_cases sh k p with e | e
  · rw [e, G.oldptr p d hd, h]
  · rw [G.pastOld p d hd h] at e
    cases e

/-- A pointer that the exchange of `assign_cluster` finds. -/
theorem PG.readAssign_some {sh : PShared P} (G : PG min sh0 sh) {k d : Nat} {p : P}
    (hf : ∀ d, d < sh0.heap.length → sh0.ptr.get? p ≠ some d) (h : sh.readAssign k p = some d) :
    sh0.heap.length ≤ d ∧ d < sh.heap.length ∧ p ∈ (sh.cell d).points := by
  have key : sh.ptr.get? p = some d → sh0.heap.length ≤ d ∧ d < sh.heap.length ∧ p ∈ (sh.cell d).points := by
    intro h
    have hd : sh0.heap.length ≤ d := by
      by_contra hlt
      have hlt : d < sh0.heap.length := by omega
      exact hf d hlt ((G.oldptr p d hlt).mp h)
    exact ⟨hd, (G.ptr p d h hd).1, (G.ptr p d h hd).2.2⟩
  unfold PShared.readAssign at h
  rw [Option.or_eq_some_iff] at h
  rcases h with h | h
  · rcases readPtr_cases sh k p with e | e
    · rw [e] at h; exact key h
    · rw [h] at e; exact G.past p d e
  · exact key h.2

theorem readAssign_none {sh : PShared P} {k : Nat} {p : P} (h : sh.readAssign k p = none) : sh.ptr.get? p = none := by
  unfold PShared.readAssign at h
  rw [Option.or_eq_none_iff] at h
  exact h.2

/-- Whoever reads 1 knows that the state is 1. -/
theorem PG.readState_one {sh : PShared P} (G : PG min sh0 sh) {k c : Nat} (h1 : sh0.heap.length ≤ c)
    (h2 : c < sh.heap.length) (h : sh.readState k c = 1) : (sh.cell c).state = 1 := by
  cases k with
  | zero => exact h
  | succ k =>
    have e0 : sh.readState (k + 1) c = ((sh.cell c).past[k]?).getD (sh.cell c).state := rfl
    rw [e0] at h
    cases e : (sh.cell c).past[k]? with
    | none => rw [e] at h; exact h
    | some v =>
      rw [e, Option.getD_some, G.pastState c h1 h2 v (List.mem_of_getElem? e)] at h
      cases h

theorem readAssign_zero (sh : PShared P) (p : P) : sh.readAssign 0 p = sh.ptr.get? p := by
  have e : sh.readAssign 0 p = (sh.ptr.get? p).or (sh.ptr.get? p) := rfl
  rw [e]
  cases sh.ptr.get? p <;> rfl

end Verif
