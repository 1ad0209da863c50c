import Verif.Lemmas.ClusterParEnd
import Verif.Spec.Coherence
import Verif.Spec.Greedy

/-!
# Workers that share no point
-/
namespace Verif
open Spec
variable {P : Type} [DecidableEq P]

/-- The points that have a cluster. -/
def PShared.taken (sh : PShared P) (q : P) : Bool := (sh.ptr.get? q).isSome

theorem greedy_congr (min : Nat) (query : P → HSet P) (l : List P) (t t' : P → Bool)
    (h : ∀ p ∈ l, t p = t' p ∧ ∀ q ∈ (query p).elems, t q = t' q) :
    greedy min query t l = greedy min query t' l := by
  induction l generalizing t t' with
  | nil => rfl
  | cons p ps ih =>
    have hp := h p (by simp)
    have hf : ((query p).elems.filter fun q => !t q) = (query p).elems.filter fun q => !t' q :=
      List.filter_congr fun q hq => by rw [hp.2 q hq]
    unfold greedy
    simp only
    rw [hf, hp.1]
    split_ifs
    · exact ih _ _ fun q hq => h q (by simp [hq])
    · congr 1
      apply ih
      intro q hq
      have := h q (by simp [hq])
      exact ⟨by rw [this.1], fun r hr => by rw [this.2 r hr]⟩

/-- The worker `i` that has made the cells `out` and is making cell `c`, with the points `rest` still to assign. -/
structure WBuild (min : Nat) (query : P → HSet P) (t0 : P → Bool) (R : P → Prop) (slice : List P) (i : Nat)
    (sh : PShared P) (todo : List P) (out : List Nat) (L : List (List P)) (c : Nat) (rest : List P) : Prop where
  lt : c < sh.heap.length
  owner : (sh.cell c).owner = i
  nout : c ∉ out
  state : (sh.cell c).state = 0
  past : (sh.cell c).past = []
  nodup : rest.Nodup
  free : ∀ q ∈ rest, R q ∧ sh.ptr.get? q = none
  pts : ∀ q ∈ (sh.cell c).points, R q ∧ sh.ptr.get? q = some c
  ex : ∃ S, ((sh.cell c).points ++ rest).Perm S ∧
    greedy min query t0 slice = L ++ S :: greedy min query (fun q => sh.taken q || decide (q ∈ rest)) todo

/-- What worker `i` has done and has still to do, at each program counter. -/
def WPc (min : Nat) (query : P → HSet P) (t0 : P → Bool) (R : P → Prop) (slice : List P) (i : Nat)
    (sh : PShared P) (w : PWorker P) (L : List (List P)) : Prop :=
  match w.pc with
  | .next => greedy min query t0 slice = L ++ greedy min query sh.taken w.todo
  | .filter rest acc => ∃ p ∈ slice, sh.ptr.get? p = none ∧ ∃ l, (l ++ rest).Perm (query p).elems ∧
      acc = l.filter (fun q => !sh.taken q) ∧ greedy min query t0 slice = L ++ greedy min query sh.taken (p :: w.todo)
  | .check c rest => WBuild min query t0 R slice i sh w.todo w.out L c rest
  | .assign c p rest => WBuild min query t0 R slice i sh w.todo w.out L c (p :: rest)
  | .commit c => WBuild min query t0 R slice i sh w.todo w.out L c []
  | .done => greedy min query t0 slice = L
  | _ => False

structure WIndep (min : Nat) (query : P → HSet P) (t0 : P → Bool) (R : P → Prop) (slice : List P) (i : Nat)
    (sh : PShared P) (w : PWorker P) : Prop where
  out : ∀ c ∈ w.out, c < sh.heap.length ∧ (sh.cell c).owner = i ∧
    ∀ q ∈ (sh.cell c).points, R q ∧ sh.ptr.get? q = some c
  todo : ∀ p ∈ w.todo, p ∈ slice
  ex : ∃ L, List.Forall₂ List.Perm (w.out.map fun c => (sh.cell c).points) L ∧ WPc min query t0 R slice i sh w L

/-- What another worker leaves alone. -/
structure Untouched (R : P → Prop) (i : Nat) (sh sh' : PShared P) : Prop where
  ptr : ∀ p, R p → sh'.ptr.get? p = sh.ptr.get? p
  past : ∀ p, R p → sh'.past p = sh.past p
  cell : ∀ c, c < sh.heap.length → (sh.cell c).owner = i → sh'.cell c = sh.cell c
  len : sh.heap.length ≤ sh'.heap.length

variable {min : Nat} {query : P → HSet P} {t0 : P → Bool} {R : P → Prop} {slice : List P} {i k : Nat}
  {sh sh' : PShared P} {w : PWorker P}

theorem Untouched.taken (h : Untouched R i sh sh') {p : P} (hp : R p) : sh'.taken p = sh.taken p := by
  unfold PShared.taken
  rw [h.ptr p hp]

theorem Untouched.greedy (h : Untouched R i sh sh') (hR : ∀ p ∈ slice, R p ∧ ∀ q ∈ (query p).elems, R q) {l : List P}
    (hl : ∀ p ∈ l, p ∈ slice) (f : P → Bool) :
    Spec.greedy min query (fun q => sh'.taken q || f q) l = Spec.greedy min query (fun q => sh.taken q || f q) l := by
  apply greedy_congr
  intro p hp
  have := hR p (hl p hp)
  exact ⟨by rw [h.taken this.1], fun q hq => by rw [h.taken (this.2 q hq)]⟩

theorem Untouched.greedy' (h : Untouched R i sh sh') (hR : ∀ p ∈ slice, R p ∧ ∀ q ∈ (query p).elems, R q) {l : List P}
    (hl : ∀ p ∈ l, p ∈ slice) :
    Spec.greedy min query sh'.taken l = Spec.greedy min query sh.taken l := by
  have := h.greedy (min := min) hR hl (fun _ => false)
  simpa using this

theorem WBuild.frame {L : List (List P)} {c : Nat} {rest : List P}
    (W : WBuild min query t0 R slice i sh w.todo w.out L c rest) (h : Untouched R i sh sh')
    (hR : ∀ p ∈ slice, R p ∧ ∀ q ∈ (query p).elems, R q) (ht : ∀ p ∈ w.todo, p ∈ slice) :
    WBuild min query t0 R slice i sh' w.todo w.out L c rest := by
  have hc := h.cell c W.lt W.owner
  refine ⟨Nat.lt_of_lt_of_le W.lt h.len, by rw [hc, W.owner], W.nout, by rw [hc, W.state], by rw [hc, W.past], W.nodup,
    ?_, ?_, ?_⟩
  · intro q hq
    have := W.free q hq
    exact ⟨this.1, by rw [h.ptr q this.1, this.2]⟩
  · intro q hq
    rw [hc] at hq
    have := W.pts q hq
    exact ⟨this.1, by rw [h.ptr q this.1, this.2]⟩
  · obtain ⟨S, h1, h2⟩ := W.ex
    refine ⟨S, by rw [hc]; exact h1, ?_⟩
    rw [h.greedy hR ht]
    exact h2

theorem WIndep.frame (W : WIndep min query t0 R slice i sh w) (h : Untouched R i sh sh')
    (hR : ∀ p ∈ slice, R p ∧ ∀ q ∈ (query p).elems, R q) : WIndep min query t0 R slice i sh' w := by
  refine ⟨?_, W.todo, ?_⟩
  · intro c hc
    obtain ⟨h1, h2, h3⟩ := W.out c hc
    have e := h.cell c h1 h2
    refine ⟨Nat.lt_of_lt_of_le h1 h.len, by rw [e, h2], ?_⟩
    intro q hq
    rw [e] at hq
    have := h3 q hq
    exact ⟨this.1, by rw [h.ptr q this.1, this.2]⟩
  · obtain ⟨L, hL, hP⟩ := W.ex
    refine ⟨L, ?_, ?_⟩
    · have : (w.out.map fun c => (sh'.cell c).points) = w.out.map fun c => (sh.cell c).points :=
        List.map_congr_left fun c hc => by
          obtain ⟨h1, h2, _⟩ := W.out c hc
          rw [h.cell c h1 h2]
      rw [this]
      exact hL
    · unfold WPc at hP ⊢
      have ht := W.todo
      split at hP
      · rw [h.greedy' hR ht]; exact hP
      · obtain ⟨p, hp, hn, l, h1, h2, h3⟩ := hP
        have hRp := hR p hp
        refine ⟨p, hp, by rw [h.ptr p hRp.1, hn], l, h1, ?_, ?_⟩
        · rw [h2]
          refine List.filter_congr fun q hq => ?_
          rw [h.taken (hRp.2 q (h1.mem_iff.mp (List.mem_append_left _ hq)))]
        · rw [h.greedy' hR]
          · exact h3
          · intro q hq
            rcases List.mem_cons.mp hq with rfl | hq
            · exact hp
            · exact ht q hq
      · exact hP.frame h hR ht
      · exact hP.frame h hR ht
      · exact hP.frame h hR ht
      · exact hP
      · exact hP

theorem Untouched.refl (R : P → Prop) (i : Nat) (sh : PShared P) : Untouched R i sh sh :=
  ⟨fun _ _ => rfl, fun _ _ => rfl, fun _ _ _ => rfl, Nat.le_refl _⟩

/-- A step of a worker whose loads are current. -/
theorem windep_step (nbrs : P → List P) (hn : ∀ p, (nbrs p).Perm (query p).elems)
    (W : WIndep min query t0 R slice i sh w)
    (hR : ∀ p ∈ slice, R p ∧ ∀ q ∈ (query p).elems, R q)
    (hk : ∀ p, R p → access w = some (.ptr p, true) → sh.readPtr k p = sh.ptr.get? p) :
    WIndep min query t0 R slice i (pstep min nbrs k i sh w).1 (pstep min nbrs k i sh w).2 ∧
    (∀ (R' : P → Prop) (j : Nat), j ≠ i → (∀ p, R p → ¬ R' p) → Untouched R' j sh (pstep min nbrs k i sh w).1) ∧
    (∀ p, R p → ((pstep min nbrs k i sh w).1.past p = sh.past p ∨ access w = some (.ptr p, true))) ∧
    ∀ e ∈ (pstep min nbrs k i sh w).1.trace, e ∈ sh.trace ∨ ∃ c, e = .committed i c := by
  obtain ⟨pc, todo, out⟩ := w
  obtain ⟨L, hL, hP⟩ := W.ex
  have ht := W.todo
  have hO := W.out
  simp only at ht hO hL
  cases pc with
  | next =>
    cases todo with
    | nil =>
      refine ⟨⟨hO, by simp [pstep], L, hL, ?_⟩, fun R' j _ _ => .refl _ _ _, fun _ _ => Or.inl rfl, fun e he => Or.inl he⟩
      simp only [WPc, pstep] at hP ⊢
      rw [hP]
      simp [Spec.greedy]
    | cons p rest =>
      have hp := hR p (ht p (by simp))
      have hkp := hk p hp.1 (by simp [access])
      simp only [WPc] at hP
      have hrest : ∀ q ∈ rest, q ∈ slice := fun q hq => ht q (by simp [hq])
      simp only [pstep, hkp]
      split_ifs with hs
      · refine ⟨⟨hO, hrest, L, hL, ?_⟩, fun R' j _ _ => .refl _ _ _, fun _ _ => Or.inl rfl, fun e he => Or.inl he⟩
        simp only [WPc]
        rw [hP]
        conv_lhs => unfold Spec.greedy
        simp only
        rw [if_pos (Or.inl (show sh.taken p = true from hs))]
      · refine ⟨⟨hO, hrest, L, hL, ?_⟩, fun R' j _ _ => .refl _ _ _, fun _ _ => Or.inl rfl, fun e he => Or.inl he⟩
        simp only [WPc]
        refine ⟨p, ht p (by simp), by simpa using hs, [], by simpa using hn p, rfl, hP⟩
  | filter qs acc =>
    simp only [WPc] at hP
    obtain ⟨p, hp, hnone, l, h1, h2, h3⟩ := hP
    have hRp := hR p hp
    cases qs with
    | cons q qs =>
      have hq : R q := hRp.2 q (h1.mem_iff.mp (by simp))
      have hkq := hk q hq (by simp [access])
      have h1' : ((l ++ [q]) ++ qs).Perm (query p).elems := by simpa using h1
      simp only [pstep, hkq]
      split_ifs with hs
      · refine ⟨⟨hO, ht, L, hL, ?_⟩, fun R' j _ _ => .refl _ _ _, fun _ _ => Or.inl rfl, fun e he => Or.inl he⟩
        simp only [WPc]
        refine ⟨p, hp, hnone, l ++ [q], h1', ?_, h3⟩
        rw [List.filter_append, h2]
        congr 1
        have : sh.taken q = false := by unfold PShared.taken; simpa using hs
        simp [this]
      · refine ⟨⟨hO, ht, L, hL, ?_⟩, fun R' j _ _ => .refl _ _ _, fun _ _ => Or.inl rfl, fun e he => Or.inl he⟩
        simp only [WPc]
        refine ⟨p, hp, hnone, l ++ [q], h1', ?_, h3⟩
        rw [List.filter_append, h2]
        have : sh.taken q = true := by
          unfold PShared.taken
          cases hq : sh.ptr.get? q with
          | none => rw [hq] at hs; simp at hs
          | some d => rfl
        simp [this]
    | nil =>
      rw [List.append_nil] at h1
      have hacc : acc.Perm ((query p).elems.filter fun q => !sh.taken q) := by rw [h2]; exact h1.filter _
      have htp : sh.taken p = false := by unfold PShared.taken; rw [hnone]; rfl
      simp only [pstep]
      split_ifs with hm
      · refine ⟨⟨?_, ht, L, ?_, ?_⟩, ?_, fun _ _ => Or.inl rfl, fun e he => Or.inl he⟩
        · intro c hc
          obtain ⟨g1, g2, g3⟩ := hO c hc
          rw [cell_alloc, if_neg (by omega)]
          exact ⟨by rw [heap_alloc]; omega, g2, g3⟩
        · have : (out.map fun c => ((sh.alloc i).cell c).points) = out.map fun c => (sh.cell c).points :=
            List.map_congr_left fun c hc => by
              have := (hO c hc).1
              rw [cell_alloc, if_neg (by omega)]
          simp only
          rw [this]
          exact hL
        · simp only [WPc]
          have hcell : (sh.alloc i).cell sh.heap.length =
              { owner := i, clusterId := (sh.seq + 1) % 2 ^ 32, points := [], state := 0, dropped := false } := by
            rw [cell_alloc, if_pos rfl]
          refine ⟨by simp, by rw [hcell], ?_, by rw [hcell], by rw [hcell], ?_, ?_, ?_, ?_⟩
          · intro hc
            exact absurd (hO _ hc).1 (by simp)
          · exact hacc.nodup_iff.mpr ((query p).nodup.filter _)
          · intro q hq
            have hq' := hacc.mem_iff.mp hq
            rw [List.mem_filter] at hq'
            refine ⟨hRp.2 q hq'.1, ?_⟩
            have := hq'.2
            unfold PShared.taken at this
            simpa using this
          · rw [hcell]; simp
          · refine ⟨(query p).elems.filter fun q => !sh.taken q, by rw [hcell]; simpa using hacc, ?_⟩
            rw [h3]
            congr 1
            conv_lhs => unfold Spec.greedy
            simp only
            rw [if_neg]
            · congr 1
              apply greedy_congr
              have key : ∀ q, (sh.taken q || decide (q ∈ (query p).elems.filter fun q => !sh.taken q)) =
                  ((sh.alloc i).taken q || decide (q ∈ acc)) := by
                intro q
                rw [decide_eq_decide.mpr hacc.mem_iff]
                rfl
              exact fun q _ => ⟨key q, fun r _ => key r⟩
            · rw [htp, ← hacc.length_eq]
              simp only [Bool.false_eq_true, false_or, not_lt]
              exact hm
        · intro R' j hj hd
          refine ⟨fun _ _ => rfl, fun _ _ => rfl, ?_, by simp⟩
          intro c hc _
          rw [cell_alloc, if_neg (by omega)]
      · refine ⟨⟨hO, ht, L, hL, ?_⟩, fun R' j _ _ => .refl _ _ _, fun _ _ => Or.inl rfl, fun e he => Or.inl he⟩
        simp only [WPc]
        rw [h3]
        congr 1
        conv_lhs => unfold Spec.greedy
        simp only
        rw [if_pos]
        right
        rw [← hacc.length_eq]
        omega
  | check c rest =>
    simp only [WPc] at hP
    cases rest with
    | nil =>
      exact ⟨⟨hO, ht, L, hL, hP⟩, fun R' j _ _ => .refl _ _ _, fun _ _ => Or.inl rfl, fun e he => Or.inl he⟩
    | cons p rest =>
      have hs : sh.readState k c = 0 := by
        cases k with
        | zero => exact hP.state
        | succ k => simp [PShared.readState, hP.past, hP.state]
      simp only [pstep, hs]
      rw [if_neg (by decide)]
      exact ⟨⟨hO, ht, L, hL, hP⟩, fun R' j _ _ => .refl _ _ _, fun _ _ => Or.inl rfl, fun e he => Or.inl he⟩
  | assign c p rest =>
    simp only [WPc] at hP
    have hp := hP.free p (by simp)
    have hread : sh.readAssign k p = none := by
      unfold PShared.readAssign
      rw [hk p hp.1 (by simp [access]), hp.2]
      rfl
    have hlt : c < (sh.setPtr p c).heap.length := hP.lt
    have hnp : p ∉ rest := (List.nodup_cons.mp hP.nodup).1
    simp only [pstep, hread]
    have hcell : ∀ d, d ≠ c → ((sh.setPtr p c).push c p).cell d = sh.cell d := by
      intro d hd
      rw [cell_push _ _ _ _ hlt, if_neg hd]
      rfl
    have hcc : ((sh.setPtr p c).push c p).cell c = { sh.cell c with points := (sh.cell c).points ++ [p] } := by
      rw [cell_push _ _ _ _ hlt, if_pos rfl]
      rfl
    have hptr : ∀ q, ((sh.setPtr p c).push c p).ptr.get? q = if q = p then some c else sh.ptr.get? q := by
      intro q
      rw [ptr_push, ptr_setPtr]
    refine ⟨⟨?_, ht, L, ?_, ?_⟩, ?_, ?_, fun e he => Or.inl he⟩
    · intro d hd
      obtain ⟨g1, g2, g3⟩ := hO d hd
      have hdc : d ≠ c := by rintro rfl; exact hP.nout hd
      rw [hcell d hdc]
      refine ⟨by simpa using g1, g2, ?_⟩
      intro q hq
      refine ⟨(g3 q hq).1, ?_⟩
      rw [hptr, if_neg]
      · exact (g3 q hq).2
      · rintro rfl
        rw [(g3 q hq).2] at hp
        cases hp.2
    · have : (out.map fun d => (((sh.setPtr p c).push c p).cell d).points) = out.map fun d => (sh.cell d).points :=
        List.map_congr_left fun d hd => by
          rw [hcell d (by rintro rfl; exact hP.nout hd)]
      simp only
      rw [this]
      exact hL
    · simp only [WPc]
      refine ⟨by simpa using hP.lt, by rw [hcc]; exact hP.owner, hP.nout, by rw [hcc]; exact hP.state,
        by rw [hcc]; exact hP.past, (List.nodup_cons.mp hP.nodup).2, ?_, ?_, ?_⟩
      · intro q hq
        have := hP.free q (by simp [hq])
        refine ⟨this.1, ?_⟩
        rw [hptr, if_neg]
        · exact this.2
        · rintro rfl; exact hnp hq
      · intro q hq
        rw [hcc] at hq
        simp only [List.mem_append, List.mem_singleton] at hq
        rw [hptr]
        rcases hq with hq | rfl
        · have := hP.pts q hq
          refine ⟨this.1, ?_⟩
          split_ifs
          · rfl
          · exact this.2
        · exact ⟨hp.1, if_pos rfl⟩
      · obtain ⟨S, h1, h2⟩ := hP.ex
        refine ⟨S, by rw [hcc]; simpa using h1, ?_⟩
        rw [h2]
        congr 2
        apply greedy_congr
        have key : ∀ q, (sh.taken q || decide (q ∈ p :: rest)) =
            (((sh.setPtr p c).push c p).taken q || decide (q ∈ rest)) := by
          intro q
          unfold PShared.taken
          rw [hptr]
          by_cases e : q = p
          · simp [e]
          · simp [e]
        exact fun q _ => ⟨key q, fun r _ => key r⟩
    · intro R' j hj hd
      refine ⟨?_, ?_, ?_, by simp⟩
      · intro q hq
        rw [hptr, if_neg]
        rintro rfl
        exact hd q hp.1 hq
      · intro q hq
        rw [past_push, past_setPtr, if_neg]
        rintro rfl
        exact hd q hp.1 hq
      · intro d _ hdo
        refine hcell d ?_
        rintro rfl
        exact hj (hdo.symm.trans hP.owner)
    · intro q _
      by_cases e : q = p
      · right; simp [access, e]
      · left; rw [past_push, past_setPtr, if_neg e]
  | commit c =>
    simp only [WPc] at hP
    simp only [pstep, hP.state, if_true]
    have hcell : ∀ d, d ≠ c → (sh.setState c COMMITTED (.committed i c)).cell d = sh.cell d := by
      intro d hd
      rw [cell_setState _ _ _ _ _ hP.lt, if_neg hd]
    have hpts : ∀ d, ((sh.setState c COMMITTED (.committed i c)).cell d).points = (sh.cell d).points :=
      fun d => points_setState
    have hown : ∀ d, ((sh.setState c COMMITTED (.committed i c)).cell d).owner = (sh.cell d).owner := by
      intro d
      rw [cell_setState _ _ _ _ _ hP.lt]
      split_ifs with h
      · rw [h]
      · rfl
    refine ⟨⟨?_, ht, ?_⟩, ?_, fun _ _ => Or.inl rfl, ?_⟩
    · intro d hd
      rw [hpts, hown, heap_setState, ptr_setState]
      simp only [List.mem_append, List.mem_singleton] at hd
      rcases hd with hd | rfl
      · exact hO d hd
      · exact ⟨hP.lt, hP.owner, hP.pts⟩
    · obtain ⟨S, h1, h2⟩ := hP.ex
      refine ⟨L ++ [S], ?_, ?_⟩
      · simp only [hpts, List.map_append, List.map_cons, List.map_nil]
        refine List.rel_append hL ?_
        exact List.Forall₂.cons (by simpa using h1) List.Forall₂.nil
      · simp only [WPc]
        rw [h2]
        simp only [List.append_assoc, List.singleton_append, List.not_mem_nil, decide_false, Bool.or_false]
        rfl
    · intro R' j hj _
      refine ⟨fun _ _ => rfl, fun _ _ => rfl, ?_, by simp⟩
      intro d _ hdo
      refine hcell d ?_
      rintro rfl
      exact hj (hdo.symm.trans hP.owner)
    · intro e he
      rw [trace_setState, List.mem_append, List.mem_singleton] at he
      rcases he with he | rfl
      · exact Or.inl he
      · exact Or.inr ⟨c, rfl⟩
  | done =>
    exact ⟨⟨hO, ht, L, hL, hP⟩, fun R' j _ _ => .refl _ _ _, fun _ _ => Or.inl rfl, fun e he => Or.inl he⟩
  | undo c l p rest => exact absurd hP (by simp [WPc])
  | conflict1 c d p rest => exact absurd hP (by simp [WPc])
  | conflict2 c d p rest => exact absurd hP (by simp [WPc])
  | conflict3 c d p rest => exact absurd hP (by simp [WPc])
  | conflict4 c d p rest => exact absurd hP (by simp [WPc])
  | giveUp c => exact absurd hP (by simp [WPc])
  | release c l => exact absurd hP (by simp [WPc])

theorem readPtr_latest {k : Nat} {p : P} (h : k = 0 ∨ (sh.past p).length < k) : sh.readPtr k p = sh.ptr.get? p := by
  cases k with
  | zero => rfl
  | succ k =>
    have : (sh.past p)[k]? = none := List.getElem?_eq_none (by omega)
    simp [PShared.readPtr, this]

/-- A load that writes (the compare-exchange of `assign_cluster` succeeded) has read the latest value. -/
theorem read_of_write (nbrs : P → List P) {p : P} (ha : access w = some (.ptr p, true))
    (h : (sh.past p).length ≠ ((pstep min nbrs k i sh w).1.past p).length) : sh.readPtr k p = sh.ptr.get? p := by
  obtain ⟨pc, todo, out⟩ := w
  cases pc with
  | next =>
    exfalso
    apply h
    cases todo with
    | nil => rfl
    | cons q rest => simp only [pstep]; split_ifs <;> rfl
  | filter qs acc =>
    exfalso
    apply h
    cases qs with
    | nil => simp [access] at ha
    | cons q rest => simp only [pstep]; split_ifs <;> rfl
  | assign c q rest =>
    simp only [access, Option.some.injEq, Prod.mk.injEq, Loc.ptr.injEq, and_true] at ha
    subst ha
    simp only [pstep] at h
    cases hr : sh.readAssign k q with
    | some d => rw [hr] at h; exact absurd rfl h
    | none =>
      have h1 := readAssign_none hr
      unfold PShared.readAssign at hr
      rw [h1] at hr ⊢
      cases h2 : sh.readPtr k q with
      | none => rfl
      | some d => rw [h2] at hr; cases hr
  | check c rest => cases rest <;> simp [access] at ha
  | undo c l p rest => cases l <;> simp [access] at ha
  | conflict1 c d p rest => simp [access] at ha
  | conflict2 c d p rest => simp [access] at ha
  | conflict3 c d p rest => simp [access] at ha
  | conflict4 c d p rest => simp [access] at ha
  | giveUp c => simp [access] at ha
  | release c l => cases l <;> simp [access] at ha
  | commit c => simp [access] at ha
  | done => simp [access] at ha

/-- The points that the worker of chunk `i` looks at. -/
def region (query : P → HSet P) (slices : List (List P)) (i : Nat) (p : P) : Prop :=
  ∃ slice, slices[i]? = some slice ∧ ∃ a ∈ slice, p = a ∨ p ∈ (query a).elems

/-- Workers that share no point: each is where it would be alone. -/
structure IndepInv (min : Nat) (query : P → HSet P) (t0 : P → Bool) (slices : List (List P)) (s : PState P)
    (view : Nat → Loc P → Nat) : Prop where
  q : ∀ i w, s.workers[i]? = some w → ∃ slice, slices[i]? = some slice ∧
    WIndep min query t0 (region query slices i) slice i s.shared w
  v : ∀ i w, s.workers[i]? = some w → ∀ p, region query slices i p → view i (.ptr p) = (s.shared.past p).length
  t : ∀ e ∈ s.shared.trace, ∃ i c, e = .committed i c

variable {slices : List (List P)} {s : PState P} {view : Nat → Loc P → Nat}

theorem region_of (hi : slices[i]? = some slice) :
    ∀ p ∈ slice, region query slices i p ∧ ∀ q ∈ (query p).elems, region query slices i q :=
  fun p hp => ⟨⟨slice, hi, p, hp, Or.inl rfl⟩, fun _ hq => ⟨slice, hi, p, hp, Or.inr hq⟩⟩

/-- A step of worker `i` that reads the latest values. -/
theorem indep_step (ord : Nat → Order) (age : Nat → Nat)
    (hd : ∀ i j, i ≠ j → ∀ p, region query slices i p → ¬ region query slices j p)
    (I : IndepInv min query t0 slices s view) (hw : s.workers[i]? = some w)
    (hk : ∀ p, region query slices i p → access w = some (.ptr p, true) →
      s.shared.readPtr (age s.clock) p = s.shared.ptr.get? p)
    {view' : Nat → Loc P → Nat}
    (hv : ∀ j p, j ≠ i → view' j (.ptr p) = view j (.ptr p))
    (hvi : ∀ p, access w ≠ some (.ptr p, true) → view' i (.ptr p) = view i (.ptr p))
    (hva : ∀ p, region query slices i p → access w = some (.ptr p, true) →
      view' i (.ptr p) = ((s.step min query ord age i).shared.past p).length) :
    IndepInv min query t0 slices (s.step min query ord age i) view' := by
  obtain ⟨slice, hi, W⟩ := I.q i w hw
  have hR := region_of (query := query) hi
  obtain ⟨h1, h2, h3, h4⟩ := windep_step (fun p => (ord s.clock).perm (query p).elems)
    (fun p => (ord s.clock).isPerm _) W hR hk
  have hlt : i < s.workers.length := (List.getElem?_eq_some_iff.mp hw).1
  have hstep : s.step min query ord age i =
      { shared := (pstep min (fun p => (ord s.clock).perm (query p).elems) (age s.clock) i s.shared w).1
        workers := s.workers.set i (pstep min (fun p => (ord s.clock).perm (query p).elems) (age s.clock) i s.shared w).2
        clock := s.clock + 1 } := by
    unfold PState.step
    rw [hw]
  rw [hstep] at hva ⊢
  generalize pstep min (fun p => (ord s.clock).perm (query p).elems) (age s.clock) i s.shared w = r at *
  refine ⟨?_, ?_, ?_⟩
  · intro j v hj
    simp only [List.getElem?_set] at hj
    by_cases e : i = j
    · subst e
      simp only [if_true, hlt] at hj
      injection hj with hj
      subst hj
      exact ⟨slice, hi, h1⟩
    · simp only [if_neg e] at hj
      obtain ⟨slj, hj', Wj⟩ := I.q j v hj
      exact ⟨slj, hj', Wj.frame (h2 _ j (fun h => e h.symm) (hd i j e)) (region_of hj')⟩
  · intro j v hj p hp
    simp only [List.getElem?_set] at hj
    by_cases e : i = j
    · subst e
      by_cases ha : access w = some (.ptr p, true)
      · exact hva p hp ha
      · rw [hvi p ha, I.v i w hw p hp]
        rcases h3 p hp with h | h
        · simp only; rw [h]
        · exact absurd h ha
    · simp only [if_neg e] at hj
      rw [hv j p (fun h => e h.symm), I.v j v hj p hp]
      simp only
      rw [(h2 _ j (fun h => e h.symm) (hd i j e)).past p hp]
  · intro e he
    rcases h4 e he with h | ⟨c, h⟩
    · exact I.t e h
    · exact ⟨i, c, h⟩

/-- Coherent runs of workers that share no point. -/
theorem indep_run (ord : Nat → Order) (age : Nat → Nat)
    (hd : ∀ i j, i ≠ j → ∀ p, region query slices i p → ¬ region query slices j p) (sched : List Nat) (s : PState P)
    (view : Nat → Loc P → Nat) (I : IndepInv min query t0 slices s view)
    (hc : coherent min query ord age s view sched) :
    ∃ view', IndepInv min query t0 slices (s.run min query ord age sched) view' := by
  induction sched generalizing s view with
  | nil => exact ⟨view, I⟩
  | cons i sched ih =>
    unfold coherent at hc
    change ∃ view', IndepInv min query t0 slices ((s.step min query ord age i).run min query ord age sched) view'
    cases hw : s.workers[i]? with
    | none =>
      rw [hw] at hc
      have hs : s.step min query ord age i = { s with clock := s.clock + 1 } := by
        unfold PState.step
        rw [hw]
      refine ih _ view ?_ hc
      rw [hs]
      exact ⟨I.q, I.v, I.t⟩
    | some w =>
      rw [hw] at hc
      simp only [Option.bind_some] at hc
      cases ha : access w with
      | none =>
        rw [ha] at hc
        refine ih _ view ?_ hc
        exact indep_step ord age hd I hw (fun p _ h => by rw [ha] at h; cases h) (fun _ _ _ => rfl) (fun _ _ => rfl)
          (fun p _ h => by rw [ha] at h; cases h)
      | some x =>
        obtain ⟨l, load⟩ := x
        rw [ha] at hc
        simp only at hc
        obtain ⟨hle, hc⟩ := hc
        refine ih _ _ ?_ hc
        have hstep : (s.step min query ord age i).shared =
            (pstep min (fun p => (ord s.clock).perm (query p).elems) (age s.clock) i s.shared w).1 := by
          unfold PState.step
          rw [hw]
        -- a load of the pointer of a point of this worker
        have key : ∀ p, region query slices i p → access w = some (.ptr p, true) →
            s.shared.readPtr (age s.clock) p = s.shared.ptr.get? p ∧
            position (age s.clock) s.shared (s.step min query ord age i).shared l load =
              ((s.step min query ord age i).shared.past p).length := by
          intro p hp h
          rw [ha] at h
          simp only [Option.some.injEq, Prod.mk.injEq] at h
          obtain ⟨rfl, rfl⟩ := h
          have hv : view i (.ptr p) = writes s.shared (.ptr p) := I.v i w hw p hp
          have h0 : writes s.shared (.ptr p) = (s.shared.past p).length := rfl
          change _ ∧ _ = writes (s.step min query ord age i).shared (.ptr p)
          rw [hv] at hle
          unfold position at hle ⊢
          simp only [true_and] at hle ⊢
          by_cases e : writes s.shared (.ptr p) = writes (s.step min query ord age i).shared (.ptr p)
          · rw [if_pos e] at hle ⊢
            by_cases h1 : age s.clock ≤ writes s.shared (.ptr p)
            · rw [if_pos h1] at hle ⊢
              exact ⟨readPtr_latest (by omega), by omega⟩
            · rw [if_neg h1]
              exact ⟨readPtr_latest (by omega), e⟩
          · rw [if_neg e]
            refine ⟨?_, rfl⟩
            rw [hstep] at e
            exact read_of_write _ ha e
        refine indep_step ord age hd I hw (fun p hp h => (key p hp h).1) ?_ ?_ ?_
        · intro j p hj
          rw [if_neg (fun h => hj h.1)]
        · intro p h
          simp only
          by_cases e : Loc.ptr p = l
          · subst e
            have hl : load = false := by
              cases load with
              | false => rfl
              | true => exact absurd ha h
            subst hl
            exfalso
            obtain ⟨slice, hi, W⟩ := I.q i w hw
            obtain ⟨L, _, hP⟩ := W.ex
            obtain ⟨pc, todo, out⟩ := w
            cases pc with
            | undo c l q rest => exact hP
            | release c l => exact hP
            | next => cases todo <;> simp [access] at ha
            | filter qs acc => cases qs <;> simp [access] at ha
            | check c rest => cases rest <;> simp [access] at ha
            | _ => simp [access] at ha
          · rw [if_neg (fun h => e h.2)]
        · intro p hp h
          simp only
          rw [(key p hp h).2, if_pos]
          rw [ha] at h
          simp only [Option.some.injEq, Prod.mk.injEq] at h
          exact ⟨trivial, h.1.symm⟩

theorem indep_start {sh0 : PShared P} (h0 : sh0.Fresh) (slices : List (List P)) :
    IndepInv min query sh0.taken slices (PState.start sh0 slices) (fun _ _ => 0) := by
  refine ⟨?_, ?_, ?_⟩
  · intro i w hw
    simp only [PState.start, List.getElem?_map, Option.map_eq_some_iff] at hw
    obtain ⟨slice, hs, rfl⟩ := hw
    exact ⟨slice, hs, by simp, fun p h => h, [], List.Forall₂.nil, rfl⟩
  · intro i w _ p _
    simp [PState.start, h0.past p]
  · intro e he
    simp [PState.start, h0.trace] at he

end Verif
