import Verif.Model.Centroid
import Verif.Spec.Centroid
import Verif.Lemmas.Prelude

/-! Lemmas on the counting loops of the centroids. -/
set_option linter.unusedSectionVars false
namespace Verif
open Spec

section
variable {α : Type} [DecidableEq α]

theorem votes_cons (x : α) (l : List α) (v : α) : votes (x :: l) v = (if x = v then 1 else 0) + votes l v := by
  unfold votes
  by_cases h : x = v <;> simp [h, Nat.add_comm]

theorem votes_pos {l : List α} {v : α} : 0 < votes l v ↔ v ∈ l := by
  unfold votes
  rw [List.length_pos_iff_exists_mem]
  simp

/-- A counter after counting the values `l`. -/
theorem get?_bumps (l : List α) (m : HMap α Nat) (v : α) :
    (l.foldl bump m).get? v =
      if votes l v = 0 then m.get? v else some ((m.get? v).getD 1 + votes l v) := by
  induction l generalizing m with
  | nil => simp [votes]
  | cons x l ih =>
    rw [List.foldl_cons, ih, votes_cons]
    unfold bump
    rw [HMap.get?_upsert]
    by_cases hx : x = v
    · subst hx
      by_cases h0 : votes l x = 0
      · simp [h0]
      · simp [h0]; omega
    · have hx' : ¬ v = x := fun e => hx e.symm
      simp [hx, hx']

/-- The chosen value is a most frequent one. -/
theorem mostFrequent_spec (o : Order) (l : List α) (hl : l ≠ []) :
    ∃ v, mostFrequent o (l.foldl bump HMap.empty) = .ok v ∧ v ∈ l ∧ ∀ w, votes l w ≤ votes l v := by
  set m := l.foldl bump HMap.empty with hm
  have hget : ∀ v, m.get? v = if votes l v = 0 then none else some (1 + votes l v) := by
    intro v; rw [hm, get?_bumps]; simp
  have hspec := maxBy_spec (fun x : α × Nat => x.2) (o.perm m.entries)
  cases hmx : maxBy (fun x y : α × Nat => compare x.2 y.2) (o.perm m.entries) with
  | none =>
    exfalso
    have h1 : o.perm m.entries = [] := hspec.1.mp hmx
    obtain ⟨x, hx⟩ := List.exists_mem_of_ne_nil l hl
    have h2 := hget x
    rw [if_neg (by have := votes_pos.mpr hx; omega), HMap.get?_eq_some_iff, ← o.mem_perm, h1] at h2
    cases h2
  | some p =>
    obtain ⟨h1, h2⟩ := hspec.2 p hmx
    rw [o.mem_perm, ← HMap.get?_eq_some_iff, hget] at h1
    refine ⟨p.1, by unfold mostFrequent; rw [hmx]; rfl, ?_, ?_⟩
    · by_cases h0 : votes l p.1 = 0
      · rw [if_pos h0] at h1; cases h1
      · exact votes_pos.mp (by omega)
    · intro w
      by_cases h0 : votes l p.1 = 0
      · rw [if_pos h0] at h1; cases h1
      · rw [if_neg h0] at h1
        injection h1 with h1
        by_cases hw : votes l w = 0
        · omega
        · have h3 := hget w
          rw [if_neg hw, HMap.get?_eq_some_iff, ← o.mem_perm] at h3
          have := h2 _ h3
          simp only at this
          omega

theorem mostFrequent_empty (o : Order) : mostFrequent o (HMap.empty : HMap α Nat) = .error .unwrap := by
  unfold mostFrequent
  have : o.perm (HMap.empty : HMap α Nat).entries = [] := List.Perm.eq_nil (o.isPerm _)
  rw [this]; rfl

/-- One pass over the counters `0..n`. -/
theorem bumpAll (key : Nat → α) (n : Nat) (cs : List (HMap α Nat)) (hcs : n ≤ cs.length) :
    ∃ cs', (List.range n).foldlM (fun cs i => bumpAt cs i (key i)) cs = .ok cs' ∧ cs'.length = cs.length ∧
      ∀ j, cs'[j]? = if j < n then cs[j]?.map (fun c => bump c (key j)) else cs[j]? := by
  induction n with
  | zero => exact ⟨cs, rfl, rfl, by simp⟩
  | succ n ih =>
    obtain ⟨cs', h1, h2, h3⟩ := ih (by omega)
    have hn : n < cs'.length := by omega
    refine ⟨cs'.set n (bump cs'[n] (key n)), ?_, by simp [h2], ?_⟩
    · rw [List.range_succ, List.foldlM_append, h1]
      show ([n].foldlM (fun cs i => bumpAt cs i (key i)) cs') = _
      rw [List.foldlM_cons]
      unfold bumpAt
      rw [List.getElem?_eq_getElem hn]
      rfl
    · intro j
      rw [List.getElem?_set]
      by_cases hj : n = j
      · subst hj
        have h4 := h3 n
        rw [if_neg (by omega), List.getElem?_eq_getElem hn] at h4
        simp [hn, ← h4]
      · rw [if_neg hj, h3]
        by_cases hj' : j < n
        · simp [hj', show j < n + 1 by omega]
        · simp [hj', show ¬ j < n + 1 by omega]

/-- The whole counting phase. -/
theorem count_loop {σ : Type} (n : Nat) (key : σ → Nat → α)
    (f : List (HMap α Nat) → σ → Except Panic (List (HMap α Nat))) (sigs : List σ)
    (hf : ∀ cs : List (HMap α Nat), cs.length = n → ∀ s ∈ sigs, ∃ cs', f cs s = .ok cs' ∧ cs'.length = n ∧
      ∀ j, cs'[j]? = cs[j]?.map (fun c => bump c (key s j)))
    (cs : List (HMap α Nat)) (hcs : cs.length = n) :
    ∃ cs', sigs.foldlM f cs = .ok cs' ∧ cs'.length = n ∧
      ∀ j, cs'[j]? = cs[j]?.map (fun c => (sigs.map (key · j)).foldl bump c) := by
  induction sigs generalizing cs with
  | nil => exact ⟨cs, rfl, hcs, by simp⟩
  | cons s sigs ih =>
    obtain ⟨cs1, h1, h2, h3⟩ := hf cs hcs s (by simp)
    obtain ⟨cs2, g1, g2, g3⟩ := ih (fun cs hcs s hs => hf cs hcs s (by simp [hs])) cs1 h2
    refine ⟨cs2, ?_, g2, ?_⟩
    · rw [List.foldlM_cons, h1]; exact g1
    · intro j
      rw [g3, h3, Option.map_map]
      rfl

/-- The choice phase. -/
theorem choose_loop {σ : Type} (o : Nat → Order) (n : Nat) (key : σ → Nat → α) (sigs : List σ) (hs : sigs ≠ [])
    (cs : List (HMap α Nat)) (hcs : cs.length = n)
    (hj : ∀ j, j < n → cs[j]? = some ((sigs.map (key · j)).foldl bump HMap.empty)) :
    ∃ vs, (cs.zipIdx.mapM fun p => mostFrequent (o p.2) p.1) = .ok vs ∧ vs.length = n ∧
      ∀ j, j < n → ∃ v, vs[j]? = some v ∧ v ∈ sigs.map (key · j) ∧
        ∀ w, votes (sigs.map (key · j)) w ≤ votes (sigs.map (key · j)) v := by
  have hm : ∀ j, sigs.map (key · j) ≠ [] := by intro j; simpa using hs
  have hex : ∃ vs, (cs.zipIdx.mapM fun p => mostFrequent (o p.2) p.1) = .ok vs := by
    apply mapM_isOk
    intro p hp
    obtain ⟨h1, h2⟩ := List.mem_zipIdx' hp
    have h3 := hj p.2 (by omega)
    rw [List.getElem?_eq_getElem h1] at h3
    injection h3 with h3
    rw [h2, h3]
    obtain ⟨v, hv, _⟩ := mostFrequent_spec (o p.2) _ (hm p.2)
    exact ⟨v, hv⟩
  obtain ⟨vs, hvs⟩ := hex
  have hF := (mapM_ok_iff _ _ _).mp hvs
  have hlen : vs.length = n := by rw [← hF.length_eq]; simpa using hcs
  refine ⟨vs, hvs, hlen, ?_⟩
  intro j hjn
  have hjv : j < vs.length := by omega
  have hjc : j < cs.zipIdx.length := by simpa using (by omega : j < cs.length)
  have h1 := List.forall₂_iff_get.mp hF
  have h2 := h1.2 j hjc hjv
  simp only [List.get_eq_getElem, List.getElem_zipIdx, Nat.zero_add] at h2
  have h3 := hj j hjn
  rw [List.getElem?_eq_getElem (by omega)] at h3
  injection h3 with h3
  obtain ⟨v, g1, g2, g3⟩ := mostFrequent_spec (o j) _ (hm j)
  rw [h3, g1] at h2
  injection h2 with h2
  refine ⟨v, ?_, g2, g3⟩
  rw [List.getElem?_eq_getElem hjv, h2]

/-- Plurality in each of `n` columns gives the largest number of agreeing (row, column) pairs. -/
theorem plurality_optimal {σ : Type} (n : Nat) (key : σ → Nat → α) (sigs : List σ) (c c' : Nat → α)
    (h : ∀ j, j < n → votes (sigs.map (key · j)) (c' j) ≤ votes (sigs.map (key · j)) (c j)) :
    (sigs.map fun s => ((List.range n).filter fun i => key s i = c' i).length).sum ≤
      (sigs.map fun s => ((List.range n).filter fun i => key s i = c i).length).sum := by
  have swap : ∀ c : Nat → α, (sigs.map fun s => ((List.range n).filter fun i => key s i = c i).length).sum =
      ((List.range n).map fun j => votes (sigs.map (key · j)) (c j)).sum := by
    intro c
    clear h
    induction sigs with
    | nil => simp [votes]
    | cons s sigs ih =>
      simp only [List.map_cons, List.sum_cons, votes_cons]
      rw [ih]
      have : ∀ (F : Nat → Nat) (l : List Nat), (l.filter fun i => key s i = c i).length + (l.map F).sum =
          (l.map fun j => (if key s j = c j then 1 else 0) + F j).sum := by
        intro F l
        induction l with
        | nil => rfl
        | cons i l ih =>
          by_cases hi : key s i = c i <;> simp [hi] at ih ⊢ <;> omega
      exact this (fun j => votes (sigs.map (key · j)) (c j)) (List.range n)
  rw [swap, swap]
  have mono : ∀ (F G : Nat → Nat) (l : List Nat), (∀ j ∈ l, F j ≤ G j) → (l.map F).sum ≤ (l.map G).sum := by
    intro F G l hl
    induction l with
    | nil => simp
    | cons i l ih =>
      simp only [List.map_cons, List.sum_cons]
      have := ih fun j hj => hl j (by simp [hj])
      have := hl i (by simp)
      omega
  exact mono _ _ _ fun j hj => h j (List.mem_range.mp hj)

end
end Verif
