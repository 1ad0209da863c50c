import Verif.Lemmas.SimHash
import Mathlib.Data.Nat.Choose.Basic
import Mathlib.Tactic.IntervalCases

/-! # Lemmas on blocks and permutations -/
namespace Verif
open Verif.Spec

/-! ### Blocks -/

/-- First bit of block `k`. -/
def st (w nb k : Nat) : Nat := k * w / nb

theorem st_mono {w nb k k' : Nat} (h : k ≤ k') : st w nb k ≤ st w nb k' :=
  Nat.div_le_div_right (Nat.mul_le_mul_right w h)

theorem st_zero (w nb : Nat) : st w nb 0 = 0 := by simp [st]

theorem st_last {w nb : Nat} (h : 1 ≤ nb) : st w nb nb = w := by
  unfold st; exact Nat.mul_div_cancel_left w (by omega)

theorem st_le {w nb k : Nat} (h : k ≤ nb) (hn : 1 ≤ nb) : st w nb k ≤ w := by
  have := st_mono (w := w) (nb := nb) h
  rwa [st_last hn] at this

theorem st_lt {w nb : Nat} (k : Nat) (hn : 1 ≤ nb) (hw : nb ≤ w) : st w nb k < st w nb (k + 1) := by
  unfold st
  have h1 : (k + 1) * w ≥ k * w + nb := by
    have : (k + 1) * w = k * w + w := by ring
    omega
  calc k * w / nb < k * w / nb + 1 := Nat.lt_succ_self _
    _ = (k * w + nb) / nb := by rw [Nat.add_div_right _ (by omega)]
    _ ≤ (k + 1) * w / nb := Nat.div_le_div_right h1

/-- The block of bit `j`. -/
def blockOf (w nb j : Nat) : Nat := ((j + 1) * nb - 1) / w

theorem in_block_iff {w nb k j : Nat} (hn : 1 ≤ nb) (hw : 1 ≤ w) :
    (st w nb k ≤ j ∧ j < st w nb (k + 1)) ↔ blockOf w nb j = k := by
  have hpos : 1 ≤ (j + 1) * nb := Nat.mul_pos (by omega) hn
  have h1 : st w nb k ≤ j ↔ k * w < (j + 1) * nb := by
    unfold st
    rw [← Nat.lt_succ_iff, Nat.div_lt_iff_lt_mul (by omega)]
  have h2 : j < st w nb (k + 1) ↔ (j + 1) * nb ≤ (k + 1) * w := by
    unfold st
    rw [← Nat.succ_le_iff, Nat.le_div_iff_mul_le (by omega)]
  unfold blockOf
  rw [h1, h2, Nat.div_eq_iff (by omega)]
  have e : (k + 1) * w = k * w + w := by ring
  constructor
  · rintro ⟨a, b⟩; omega
  · rintro ⟨a, b⟩; omega

theorem blockOf_lt {w nb j : Nat} (hn : 1 ≤ nb) (hj : j < w) : blockOf w nb j < nb := by
  unfold blockOf
  rw [Nat.div_lt_iff_lt_mul (by omega)]
  have : (j + 1) * nb ≤ w * nb := Nat.mul_le_mul_right nb (by omega)
  have hpos : 1 ≤ (j + 1) * nb := Nat.mul_pos (by omega) hn
  rw [Nat.mul_comm nb w]
  omega

theorem blockMask_bit {w nb k : Nat} (hk : k < nb) (j : Nat) :
    (blockMask w nb k).getLsbD j = decide (st w nb k ≤ j ∧ j < st w nb (k + 1)) := by
  have hle : st w nb (k + 1) ≤ w := st_le (by omega) (by omega)
  unfold blockMask
  simp only
  rw [foldl_or_bit' (fun j => shl 1#w j), BitVec.getLsbD_zero, Bool.false_or, Bool.eq_iff_iff, List.any_eq_true,
    decide_eq_true_eq]
  change (∃ x ∈ List.range' (st w nb k) (st w nb (k + 1) - st w nb k), _) ↔ _
  constructor
  · rintro ⟨x, hx, hb⟩
    rw [List.mem_range'_1] at hx
    rw [shl_one_bit j x (by omega), decide_eq_true_eq] at hb
    omega
  · rintro ⟨h1, h2⟩
    exact ⟨j, List.mem_range'_1.mpr (by omega), by rw [shl_one_bit j j (by omega)]; simp⟩

theorem blockMask_bit' {w nb k j : Nat} (hk : k < nb) (hw : 1 ≤ w) :
    (blockMask w nb k).getLsbD j = decide (blockOf w nb j = k) := by
  rw [blockMask_bit hk]
  congr 1
  exact propext (in_block_iff (by omega) hw)

theorem blockMask_inj {w nb k k' : Nat} (hn : nb ≤ w) (hk : k < nb) (hk' : k' < nb)
    (h : blockMask w nb k = blockMask w nb k') : k = k' := by
  have := congrArg (fun x : BitVec w => x.getLsbD (st w nb k)) h
  rw [blockMask_bit hk, blockMask_bit' hk' (by omega)] at this
  have h1 := st_lt (w := w) k (by omega : 1 ≤ nb) hn
  have h2 : blockOf w nb (st w nb k) = k := (in_block_iff (by omega) (by omega)).mp ⟨Nat.le_refl _, h1⟩
  rw [h2] at this
  simpa [h1] using this

/-! ### Choices -/

theorem combinations_map {α β : Type} (f : α → β) (k : Nat) (l : List α) :
    combinations k (l.map f) = (combinations k l).map (List.map f) := by
  induction l generalizing k with
  | nil => cases k <;> rfl
  | cons x l ih =>
    cases k with
    | zero => rfl
    | succ k =>
      rw [List.map_cons, combinations, combinations, ih, ih, List.map_append, List.map_map, List.map_map]
      rfl

theorem mem_combinations {α : Type} (k : Nat) (l c : List α) :
    c ∈ combinations k l ↔ List.Sublist c l ∧ c.length = k := by
  induction l generalizing k c with
  | nil =>
    cases k with
    | zero =>
      simp [combinations]
    | succ k =>
      simp [combinations]
      rintro rfl
      simp
  | cons x l ih =>
    cases k with
    | zero =>
      simp only [combinations, List.mem_singleton, List.length_eq_zero_iff]
      constructor
      · rintro rfl; simp
      · rintro ⟨_, h⟩; exact h
    | succ k =>
      rw [combinations, List.mem_append, List.mem_map, ih]
      constructor
      · rintro (⟨c', h, rfl⟩ | ⟨h1, h2⟩)
        · rw [ih] at h
          exact ⟨h.1.cons_cons x, by simp [h.2]⟩
        · exact ⟨h1.cons x, h2⟩
      · rintro ⟨h1, h2⟩
        rcases List.sublist_cons_iff.mp h1 with h3 | ⟨r, rfl, h3⟩
        · exact Or.inr ⟨h3, h2⟩
        · exact Or.inl ⟨r, (ih k r).mpr ⟨h3, by simpa using h2⟩, rfl⟩

theorem combinations_length {α : Type} (k : Nat) (l : List α) :
    (combinations k l).length = l.length.choose k := by
  induction l generalizing k with
  | nil => cases k <;> rfl
  | cons x l ih =>
    cases k with
    | zero => simp [combinations]
    | succ k =>
      rw [combinations, List.length_append, List.length_map, ih, ih, List.length_cons, Nat.choose_succ_succ]

theorem combinations_nodup {α : Type} (k : Nat) (l : List α) (h : l.Nodup) : (combinations k l).Nodup := by
  induction l generalizing k with
  | nil => cases k <;> simp [combinations]
  | cons x l ih =>
    rw [List.nodup_cons] at h
    cases k with
    | zero => simp [combinations]
    | succ k =>
      rw [combinations, List.nodup_append]
      refine ⟨(ih k h.2).map (fun a b e => by injection e), ih (k + 1) h.2, ?_⟩
      intro a ha b hb e
      obtain ⟨c, _, rfl⟩ := List.mem_map.mp ha
      have := ((mem_combinations _ _ _).mp hb).1
      exact h.1 (this.subset (by rw [← e]; simp))

/-! ### The search loops of `Permutation::new` -/

theorem one_and_mask {w : Nat} (mask : BitVec w) (j : Nat) (hj : j < w) :
    shl 1#w j &&& mask = 0#w ↔ mask.getLsbD j = false := by
  constructor
  · intro e
    have := congrArg (fun x : BitVec w => x.getLsbD j) e
    simp only [BitVec.getLsbD_and, BitVec.getLsbD_zero] at this
    rw [shl_one_bit j j hj] at this
    simpa using this
  · intro e
    apply BitVec.eq_of_getLsbD_eq
    intro i hi
    rw [BitVec.getLsbD_and, BitVec.getLsbD_zero, shl_one_bit i j hj]
    by_cases h : i = j
    · rw [h, e]; simp
    · simp [h]

theorem lowLoop_spec {w : Nat} (mask : BitVec w) (s : Nat) (hs : s < w) (h1 : ∀ j < s, mask.getLsbD j = false)
    (h2 : mask.getLsbD s = true) (fuel i : Nat) (hi : i ≤ s) (hf : s - i < fuel) :
    lowLoop mask fuel i = .ok s := by
  induction fuel generalizing i with
  | zero => omega
  | succ fuel ih =>
    unfold lowLoop
    by_cases e : i = s
    · rw [if_neg]
      · rw [e]
      · rw [one_and_mask mask i (by omega), e, h2]; simp
    · rw [if_pos ((one_and_mask mask i (by omega)).mpr (h1 i (by omega)))]
      exact ih (i + 1) (by omega) (by omega)

theorem lowLoop_zero {w : Nat} (fuel i : Nat) : lowLoop (0#w) fuel i = .error .outOfFuel := by
  induction fuel generalizing i with
  | zero => rfl
  | succ fuel ih =>
    unfold lowLoop
    rw [if_pos (by simp)]
    exact ih (i + 1)

theorem highLoop_spec {w : Nat} (mask : BitVec w) (e : Nat) (he : e ≤ w) (n j : Nat) (hj : j ≤ e) (hn : n = w - j)
    (h1 : ∀ i, j ≤ i → i < e → mask.getLsbD i = true) (h2 : e < w → mask.getLsbD e = false) :
    highLoop mask n j = e := by
  induction n generalizing j with
  | zero => unfold highLoop; omega
  | succ n ih =>
    unfold highLoop
    by_cases hje : j = e
    · rw [if_neg]
      · exact hje
      · rw [not_not, one_and_mask mask j (by omega), hje]
        exact h2 (by omega)
    · rw [if_pos]
      · exact ih (j + 1) (by omega) (by omega) fun i hi hi' => h1 i (by omega) hi'
      · rw [ne_eq, one_and_mask mask j (by omega), h1 j (Nat.le_refl _) (by omega)]
        simp

/-- Widths and offsets for a list of blocks. -/
def blockOffsets (w nb : Nat) : Nat → List Nat → List (Nat × Int)
  | _, [] => []
  | W, k :: ks =>
    let len := st w nb (k + 1) - st w nb k
    (len, (w : Int) - ((W + len : Nat) : Int) - (st w nb k : Int)) :: blockOffsets w nb (W + len) ks

theorem measure_blocks {w nb fuel : Nat} (hn : nb ≤ w) (hf : w ≤ fuel) (ks : List Nat) (hks : ∀ k ∈ ks, k < nb)
    (W : Nat) : measure fuel W (ks.map (blockMask w nb)) = .ok (blockOffsets w nb W ks) := by
  induction ks generalizing W with
  | nil => rfl
  | cons k ks ih =>
    have hk := hks k (by simp)
    have hlt := st_lt (w := w) (nb := nb) k (by omega) hn
    have hle : st w nb (k + 1) ≤ w := st_le (by omega) (by omega)
    have e1 : lowLoop (blockMask w nb k) fuel 0 = .ok (st w nb k) := by
      apply lowLoop_spec _ _ (by omega)
      · intro j hj; rw [blockMask_bit hk]; simp; omega
      · rw [blockMask_bit hk]; simp; omega
      · omega
      · omega
    have e2 : highLoop (blockMask w nb k) (w - st w nb k) (st w nb k) = st w nb (k + 1) := by
      apply highLoop_spec _ _ hle _ _ (by omega) rfl
      · intro i h1 h2; rw [blockMask_bit hk]; simp; omega
      · intro h; rw [blockMask_bit hk]; simp
    rw [List.map_cons, measure, e1]
    simp only [bind, Except.bind]
    rw [e2, ih (fun k hk => hks k (by simp [hk])) _]
    rfl

theorem blockOffsets_length (w nb W : Nat) (ks : List Nat) : (blockOffsets w nb W ks).length = ks.length := by
  induction ks generalizing W with
  | nil => rfl
  | cons k ks ih => simp [blockOffsets, ih]

theorem blockOffsets_take (w nb W n : Nat) (ks : List Nat) :
    (blockOffsets w nb W ks).take n = blockOffsets w nb W (ks.take n) := by
  induction ks generalizing W n with
  | nil => simp [blockOffsets]
  | cons k ks ih =>
    cases n with
    | zero => rfl
    | succ n => simp [blockOffsets, ih]

/-- Total width of blocks. -/
def totalWidth (w nb : Nat) (ks : List Nat) : Nat := (ks.map fun k => st w nb (k + 1) - st w nb k).sum

theorem blockOffsets_widths (w nb W : Nat) (ks : List Nat) :
    (blockOffsets w nb W ks).map Prod.fst = ks.map fun k => st w nb (k + 1) - st w nb k := by
  induction ks generalizing W with
  | nil => rfl
  | cons k ks ih => simp [blockOffsets, ih]

theorem totalWidth_range {w nb : Nat} (n : Nat) : totalWidth w nb (List.range n) = st w nb n := by
  induction n with
  | zero => simp [totalWidth, st]
  | succ n ih =>
    have := st_mono (w := w) (nb := nb) (show n ≤ n + 1 by omega)
    unfold totalWidth at *
    rw [List.range_succ, List.map_append, List.sum_append, ih]
    simp
    omega

theorem totalWidth_sublist {w nb : Nat} {a b : List Nat} (h : List.Sublist a b) :
    totalWidth w nb a ≤ totalWidth w nb b := by
  unfold totalWidth
  exact (h.map _).sum_le_sum (fun _ _ => Nat.zero_le _)

theorem totalWidth_le {w nb : Nat} (hn : 1 ≤ nb) {ks : List Nat} (h : List.Sublist ks (List.range nb)) :
    totalWidth w nb ks ≤ w := by
  have := totalWidth_sublist (w := w) (nb := nb) h
  rwa [totalWidth_range, st_last hn] at this

/-! ### The created permutations -/

theorem allBlocks_eq {w : Nat} (blocks acc : List (BitVec w)) (hnd : blocks.Nodup) :
    allBlocks blocks acc = acc ++ blocks.filter fun v => decide (v ∉ acc) := by
  unfold allBlocks
  induction blocks generalizing acc with
  | nil => simp
  | cons v blocks ih =>
    rw [List.nodup_cons] at hnd
    rw [List.foldl_cons]
    by_cases hv : v ∈ acc
    · rw [if_pos hv, ih acc hnd.2, List.filter_cons_of_neg (by simp [hv])]
    · rw [if_neg hv, ih (acc ++ [v]) hnd.2, List.filter_cons_of_pos (by simp [hv]), List.append_assoc]
      congr 1
      rw [List.singleton_append]
      congr 1
      apply List.filter_congr
      intro x hx
      have : x ≠ v := fun e => hnd.1 (e ▸ hx)
      simp [this]

theorem blocks_nodup {w nb : Nat} (hn : nb ≤ w) : ((List.range nb).map (blockMask w nb)).Nodup := by
  rw [List.nodup_map_iff_inj_on List.nodup_range]
  intro x hx y hy e
  exact blockMask_inj hn (List.mem_range.mp hx) (List.mem_range.mp hy) e

theorem length_filter_mem {α : Type} [DecidableEq α] {c l : List α} (hl : l.Nodup) (h : List.Sublist c l) :
    c.length + (l.filter fun v => decide (v ∉ c)).length = l.length := by
  have h1 : (l.filter fun v => decide (v ∈ c)).Perm c := by
    rw [List.perm_ext_iff_of_nodup (hl.filter _) (h.nodup hl)]
    intro a
    simp only [List.mem_filter, decide_eq_true_eq]
    exact ⟨fun h => h.2, fun ha => ⟨h.subset ha, ha⟩⟩
  rw [← h1.length_eq]
  have := List.length_eq_countP_add_countP (l := l) (fun v => decide (v ∈ c))
  rw [List.countP_eq_length_filter, List.countP_eq_length_filter] at this
  rw [this]
  congr 3
  funext a
  simp

/-- The permutation of a choice of blocks. -/
def permOf (w nb : Nat) (ks : List Nat) : Permutation w where
  offsetsMasks := (ks.map (blockMask w nb)).zip ((blockOffsets w nb 0 ks).map Prod.snd)
  searchMask := topMask w (totalWidth w nb ks)
  simpleMask := (ks.map (blockMask w nb)).foldl (fun m c => m ||| c) 0#w
  width := totalWidth w nb ks

theorem new_eq {w nb d fuel : Nat} (hn : nb ≤ w) (hd : d ≤ nb) (hf : w ≤ fuel) (ks : List Nat)
    (hks : List.Sublist ks (List.range nb)) (hlen : ks.length = nb - d) :
    Permutation.new fuel d (allBlocks ((List.range nb).map (blockMask w nb)) (ks.map (blockMask w nb)))
      (ks.map (blockMask w nb)) = .ok (permOf w nb ks) := by
  rw [allBlocks_eq _ _ (blocks_nodup hn)]
  -- the blocks that are not chosen
  obtain ⟨rest, hrest, hrl⟩ : ∃ rest : List Nat, (∀ k ∈ rest, k < nb) ∧
      ((List.range nb).map (blockMask w nb)).filter (fun v => decide (v ∉ ks.map (blockMask w nb))) =
        rest.map (blockMask w nb) := by
    refine ⟨(List.range nb).filter fun k => decide (blockMask w nb k ∉ ks.map (blockMask w nb)), ?_, ?_⟩
    · intro k hk
      exact List.mem_range.mp (List.mem_filter.mp hk).1
    · rw [List.filter_map]
      rfl
  have hl := length_filter_mem (blocks_nodup (w := w) hn) (hks.map (blockMask w nb))
  rw [hrl, ← List.map_append]
  rw [hrl] at hl
  simp only [List.length_map, List.length_range] at hl
  have hall : ∀ k ∈ ks ++ rest, k < nb := by
    intro k hk
    rcases List.mem_append.mp hk with hk | hk
    · exact List.mem_range.mp (hks.subset hk)
    · exact hrest k hk
  unfold Permutation.new
  rw [measure_blocks hn hf _ hall 0]
  simp only [bind, Except.bind]
  rw [if_neg (by rw [blockOffsets_length, List.length_append]; omega)]
  have e : (blockOffsets w nb 0 (ks ++ rest)).length - d = ks.length := by
    rw [blockOffsets_length, List.length_append]; omega
  have tl : (ks ++ rest).take ks.length = ks := List.take_left
  rw [e, blockOffsets_take, tl, blockOffsets_widths, List.zip, List.take_zipWith, ← List.map_take, ← List.map_take,
    blockOffsets_take, tl]
  rfl

theorem mapM_ok {α β : Type} (f : α → Except Panic β) (g : α → β) (l : List α) (h : ∀ a ∈ l, f a = .ok (g a)) :
    l.mapM f = .ok (l.map g) := by
  induction l with
  | nil => rfl
  | cons a l ih =>
    rw [List.mapM_cons, h a (by simp), ih fun b hb => h b (by simp [hb])]
    rfl

/-- `create` for valid parameters. -/
theorem create_eq {w nb d fuel : Nat} (hn : nb ≤ w) (hd : d ≤ nb) (hf : w ≤ fuel) :
    Permutation.create fuel w nb d = .ok ((combinations (nb - d) (List.range nb)).map (permOf w nb)) := by
  unfold Permutation.create
  simp only
  rw [if_neg (by omega), combinations_map, List.mapM_map]
  apply mapM_ok
  intro ks hks
  obtain ⟨h1, h2⟩ := (mem_combinations _ _ _).mp hks
  exact new_eq hn hd hf ks h1 h2

theorem measure_error {w fuel : Nat} (masks : List (BitVec w)) (h : 0#w ∈ masks) (W : Nat) :
    measure fuel W masks = .error .outOfFuel := by
  have low : ∀ (mask : BitVec w) (fuel i : Nat), (∃ x, lowLoop mask fuel i = .ok x) ∨ lowLoop mask fuel i = .error .outOfFuel := by
    intro mask fuel
    induction fuel with
    | zero => intro i; exact Or.inr rfl
    | succ fuel ih =>
      intro i
      unfold lowLoop
      split_ifs
      · exact ih (i + 1)
      · exact Or.inl ⟨i, rfl⟩
  induction masks generalizing W with
  | nil => cases h
  | cons m masks ih =>
    rw [measure]
    rcases low m fuel 0 with ⟨x, hx⟩ | hx
    · rw [hx]
      simp only [bind, Except.bind]
      have : m ≠ 0#w := by
        rintro rfl
        rw [lowLoop_zero] at hx
        cases hx
      rcases List.mem_cons.mp h with h | h
      · exact absurd h.symm this
      · rw [ih h]
    · rw [hx]; rfl

theorem zero_block {w nb : Nat} (h : w < nb) : ∃ k < nb, blockMask w nb k = 0#w := by
  -- otherwise the starts would be strictly increasing
  by_contra hc
  push Not at hc
  have hlt : ∀ k < nb, st w nb k < st w nb (k + 1) := by
    intro k hk
    by_contra hle
    apply hc k hk
    apply BitVec.eq_of_getLsbD_eq
    intro i hi
    rw [blockMask_bit hk, BitVec.getLsbD_zero]
    simp
    omega
  have hge : ∀ k ≤ nb, k ≤ st w nb k := by
    intro k
    induction k with
    | zero => intro _; omega
    | succ k ih =>
      intro hk
      have := ih (by omega)
      have := hlt k (by omega)
      omega
  have := hge nb (Nat.le_refl _)
  rw [st_last (by omega)] at this
  omega

theorem mem_allBlocks {w : Nat} (blocks acc : List (BitVec w)) (v : BitVec w) (hv : v ∈ blocks ∨ v ∈ acc) :
    v ∈ allBlocks blocks acc := by
  unfold allBlocks
  induction blocks generalizing acc with
  | nil => simpa using hv
  | cons x blocks ih =>
    rw [List.foldl_cons]
    apply ih
    rcases hv with hv | hv
    · rcases List.mem_cons.mp hv with rfl | hv
      · right; split_ifs with h
        · exact h
        · simp
      · exact Or.inl hv
    · right; split_ifs with h
      · exact hv
      · simp [hv]

theorem create_diverges {w nb d : Nat} (hn : w < nb) (hd : d ≤ nb) (fuel : Nat) :
    Permutation.create fuel w nb d = .error .outOfFuel := by
  unfold Permutation.create
  simp only
  rw [if_neg (by omega)]
  obtain ⟨k, hk, hz⟩ := zero_block hn
  have hne : combinations (nb - d) ((List.range nb).map (blockMask w nb)) ≠ [] := by
    intro e
    have := combinations_length (nb - d) ((List.range nb).map (blockMask w nb))
    rw [e] at this
    simp only [List.length_nil, List.length_map, List.length_range] at this
    have := Nat.choose_pos (show nb - d ≤ nb by omega)
    omega
  obtain ⟨c, cs, e⟩ := List.exists_cons_of_ne_nil hne
  rw [e, List.mapM_cons]
  have : Permutation.new fuel d (allBlocks ((List.range nb).map (blockMask w nb)) c) c = .error .outOfFuel := by
    unfold Permutation.new
    rw [measure_error _ (mem_allBlocks _ _ _ (Or.inl (List.mem_map.mpr ⟨k, List.mem_range.mpr hk, hz⟩)))]
    rfl
  rw [this]
  rfl

/-! ### Keys -/

theorem simpleMask_bit {w nb : Nat} {ks : List Nat} (hks : ∀ k ∈ ks, k < nb) (hw : 1 ≤ w) (j : Nat) :
    (permOf w nb ks).simpleMask.getLsbD j = decide (blockOf w nb j ∈ ks) := by
  unfold permOf
  simp only
  rw [foldl_or_bit' (fun c => c), BitVec.getLsbD_zero, Bool.false_or, Bool.eq_iff_iff, List.any_eq_true,
    decide_eq_true_eq]
  constructor
  · rintro ⟨x, hx, hb⟩
    obtain ⟨k, hk, rfl⟩ := List.mem_map.mp hx
    rw [blockMask_bit' (hks k hk) hw, decide_eq_true_eq] at hb
    rwa [hb]
  · intro h
    exact ⟨_, List.mem_map.mpr ⟨_, h, rfl⟩, by rw [blockMask_bit' (hks _ h) hw]; simp⟩

/-- Masked keys agree iff the values agree on the chosen blocks. -/
theorem key_eq_iff {w nb : Nat} {ks : List Nat} (hks : ∀ k ∈ ks, k < nb) (hw : 1 ≤ w) (x y : BitVec w) :
    x &&& (permOf w nb ks).simpleMask = y &&& (permOf w nb ks).simpleMask ↔
      ∀ j < w, blockOf w nb j ∈ ks → x.getLsbD j = y.getLsbD j := by
  constructor
  · intro e j hj hb
    have := congrArg (fun x : BitVec w => x.getLsbD j) e
    simp only [BitVec.getLsbD_and] at this
    rw [simpleMask_bit hks hw] at this
    simpa [hb] using this
  · intro h
    apply BitVec.eq_of_getLsbD_eq
    intro j hj
    rw [BitVec.getLsbD_and, BitVec.getLsbD_and, simpleMask_bit hks hw]
    by_cases hb : blockOf w nb j ∈ ks
    · rw [h j hj hb]
    · simp [hb]

/-- Pigeonhole: two values that differ in at most `d` bits agree on some choice of `nb - d` blocks. -/
theorem pigeonhole {w nb d : Nat} (x y : BitVec w) (h : hammingDistance x y ≤ d) :
    ∃ ks ∈ combinations (nb - d) (List.range nb), ∀ j < w, blockOf w nb j ∈ ks → x.getLsbD j = y.getLsbD j := by
  classical
  rw [hamming_card] at h
  set touched : Finset Nat := (diffBits x y).image fun i => blockOf w nb i.val with ht
  have hcard : touched.card ≤ d := (Finset.card_image_le).trans h
  set good := (List.range nb).filter fun k => decide (k ∉ touched) with hg
  have hlen : nb - d ≤ good.length := by
    have h1 := List.length_eq_countP_add_countP (l := List.range nb) (fun k => decide (k ∈ touched))
    rw [List.length_range] at h1
    have h2 : (List.range nb).countP (fun k => decide (k ∈ touched)) ≤ touched.card := by
      rw [List.countP_eq_length_filter]
      have hnd : ((List.range nb).filter fun k => decide (k ∈ touched)).Nodup := List.nodup_range.filter _
      rw [← List.toFinset_card_of_nodup hnd]
      apply Finset.card_le_card
      intro a ha
      simpa using (by simpa using ha : a < nb ∧ a ∈ touched).2
    have h3 : good.length = (List.range nb).countP fun k => decide ¬(decide (k ∈ touched) = true) := by
      rw [hg, List.countP_eq_length_filter]
      congr 2
      funext k
      simp
    omega
  refine ⟨good.take (nb - d), (mem_combinations _ _ _).mpr ⟨?_, by rw [List.length_take]; omega⟩, ?_⟩
  · exact (List.take_sublist _ _).trans List.filter_sublist
  · intro j hj hb
    have hb := List.mem_of_mem_take hb
    rw [hg, List.mem_filter, decide_eq_true_eq] at hb
    by_contra hne
    apply hb.2
    rw [ht, Finset.mem_image]
    exact ⟨⟨j, hj⟩, Finset.mem_filter.mpr ⟨Finset.mem_univ _, hne⟩, rfl⟩

/-! ### `permute` -/

theorem topMask_bit {w width : Nat} (hw : 2 ≤ w) (hle : width ≤ w) (p : Nat) :
    (topMask w width).getLsbD p = decide (w - width ≤ p ∧ p < w) := by
  have h1 : ∀ n ≤ w, ∀ p, ((List.range n).foldl (fun m _ => shl m 1 ||| 1#w) 0#w).getLsbD p = decide (p < n) := by
    intro n
    induction n with
    | zero => intro _ p; simp
    | succ n ih =>
      intro hn p
      rw [List.range_succ, List.foldl_append, List.foldl_cons, List.foldl_nil, BitVec.getLsbD_or,
        shl_bit _ _ _ (by omega), ih (by omega), BitVec.getLsbD_one, Bool.eq_iff_iff]
      simp
      omega
  have h2 : ∀ n ≤ w, ∀ (m : BitVec w) (p : Nat), ((List.range n).foldl (fun m _ => shl m 1) m).getLsbD p =
      (decide (p < w) && decide (n ≤ p) && m.getLsbD (p - n)) := by
    intro n
    induction n with
    | zero =>
      intro _ m p
      simp only [List.range_zero, List.foldl_nil, Nat.zero_le, decide_true, Bool.and_true, Nat.sub_zero]
      by_cases hp : p < w
      · simp [hp]
      · simp [hp, BitVec.getLsbD_of_ge m p (by omega)]
    | succ n ih =>
      intro hn m p
      rw [List.range_succ, List.foldl_append, List.foldl_cons, List.foldl_nil, shl_bit _ _ _ (by omega), ih (by omega)]
      have : p - 1 - n = p - (n + 1) := by omega
      rw [this, Bool.eq_iff_iff]
      simp
      constructor
      · rintro ⟨h1, ⟨h3, h4⟩, h5⟩; exact ⟨⟨h1.1, by omega⟩, h5⟩
      · rintro ⟨⟨h1, h2⟩, h5⟩; exact ⟨⟨h1, by omega⟩, ⟨by omega, by omega⟩, h5⟩
  unfold topMask
  simp only
  rw [h2 _ (by omega), h1 _ hle, Bool.eq_iff_iff]
  simp
  omega

/-- What one block contributes to the permuted value. -/
def contribution {w : Nat} (h : BitVec w) (pair : BitVec w × Int) : BitVec w :=
  if pair.2 > 0 then shl (h &&& pair.1) pair.2.toNat else shr (h &&& pair.1) (0 - pair.2).toNat

theorem permute_eq {w : Nat} (p : Permutation w) (h : BitVec w) :
    p.permute h = (p.offsetsMasks.foldl (fun r pair => r ||| contribution h pair) 0#w) &&& p.searchMask := by
  unfold Permutation.permute contribution
  simp only
  congr 2
  funext r pair
  split_ifs <;> rfl

theorem contribution_bit {w nb k W : Nat} (hn : nb ≤ w) (hk : k < nb) (h : BitVec w)
    (hW : W + (st w nb (k + 1) - st w nb k) ≤ w) (p : Nat) :
    (contribution h (blockMask w nb k,
      (w : Int) - ((W + (st w nb (k + 1) - st w nb k) : Nat) : Int) - (st w nb k : Int))).getLsbD p =
      (decide (w - (W + (st w nb (k + 1) - st w nb k)) ≤ p ∧ p < w - W) &&
        h.getLsbD (p + (W + (st w nb (k + 1) - st w nb k)) + st w nb k - w)) := by
  have hlt := st_lt (w := w) (nb := nb) k (by omega) hn
  have hle : st w nb (k + 1) ≤ w := st_le (by omega) (by omega)
  set len := st w nb (k + 1) - st w nb k with hlen
  unfold contribution
  simp only
  split_ifs with ho
  · have et : ((w : Int) - ((W + len : Nat) : Int) - (st w nb k : Int)).toNat = w - (W + len) - st w nb k := by omega
    rw [et, shl_bit _ _ _ (by omega), BitVec.getLsbD_and, blockMask_bit hk]
    have hpos : 0 < w - (W + len) - st w nb k := by omega
    by_cases hp : w - (W + len) ≤ p ∧ p < w - W
    · have e : p - (w - (W + len) - st w nb k) = p + (W + len) + st w nb k - w := by omega
      have h1 : p < w := by omega
      have h2 : w - (W + len) - st w nb k ≤ p := by omega
      have h3 : st w nb k ≤ p + (W + len) + st w nb k - w ∧ p + (W + len) + st w nb k - w < st w nb (k + 1) := by
        omega
      rw [e]
      simp only [h1, h2, h3, hp, and_self, decide_true, Bool.true_and, Bool.and_true]
    · have : ¬ (p < w ∧ (w - (W + len) - st w nb k ≤ p ∧ (st w nb k ≤ p - (w - (W + len) - st w nb k) ∧
          p - (w - (W + len) - st w nb k) < st w nb (k + 1)))) := by omega
      rw [decide_eq_false hp, Bool.false_and]
      by_contra hne
      rw [Bool.not_eq_false] at hne
      simp only [Bool.and_eq_true, decide_eq_true_eq] at hne
      exact this ⟨hne.1.1, hne.1.2, hne.2.2⟩
  · have et : (0 - ((w : Int) - ((W + len : Nat) : Int) - (st w nb k : Int))).toNat = W + len + st w nb k - w := by omega
    have hge : w ≤ W + len + st w nb k := by omega
    rw [et, shr_bit _ _ _ (by omega), BitVec.getLsbD_and, blockMask_bit hk]
    have e : W + len + st w nb k - w + p = p + (W + len) + st w nb k - w := by omega
    rw [e]
    by_cases hp : w - (W + len) ≤ p ∧ p < w - W
    · have h3 : st w nb k ≤ p + (W + len) + st w nb k - w ∧ p + (W + len) + st w nb k - w < st w nb (k + 1) := by
        omega
      simp only [h3, hp, and_self, decide_true, Bool.true_and, Bool.and_true]
    · have : ¬ (st w nb k ≤ p + (W + len) + st w nb k - w ∧ p + (W + len) + st w nb k - w < st w nb (k + 1)) := by
        omega
      rw [decide_eq_false hp, decide_eq_false this]
      simp

/-- The pairs of a list of blocks starting at width `W`. -/
def pairsFrom (w nb W : Nat) (ks : List Nat) : List (BitVec w × Int) :=
  (ks.map (blockMask w nb)).zip ((blockOffsets w nb W ks).map Prod.snd)

theorem totalWidth_cons (w nb k : Nat) (ks : List Nat) :
    totalWidth w nb (k :: ks) = (st w nb (k + 1) - st w nb k) + totalWidth w nb ks := by
  simp [totalWidth]

theorem pairsFrom_cons (w nb W k : Nat) (ks : List Nat) :
    pairsFrom w nb W (k :: ks) = (blockMask w nb k,
      (w : Int) - ((W + (st w nb (k + 1) - st w nb k) : Nat) : Int) - (st w nb k : Int)) ::
      pairsFrom w nb (W + (st w nb (k + 1) - st w nb k)) ks := rfl

/-- The blocks are stacked below `w - W`. -/
theorem contributions_range {w nb : Nat} (hn : nb ≤ w) (ks : List Nat) (hks : ∀ k ∈ ks, k < nb) (h : BitVec w)
    (W : Nat) (hW : W + totalWidth w nb ks ≤ w) (p : Nat)
    (hp : ((pairsFrom w nb W ks).any fun pair => (contribution h pair).getLsbD p) = true) :
    w - (W + totalWidth w nb ks) ≤ p ∧ p < w - W := by
  induction ks generalizing W with
  | nil => simp [pairsFrom, blockOffsets] at hp
  | cons k ks ih =>
    have hlt := st_lt (w := w) (nb := nb) k (by have := hks k (by simp); omega) hn
    rw [totalWidth_cons] at hW ⊢
    rw [pairsFrom_cons, List.any_cons, Bool.or_eq_true] at hp
    rcases hp with hp | hp
    · rw [contribution_bit hn (hks k (by simp)) h (by omega), Bool.and_eq_true, decide_eq_true_eq] at hp
      omega
    · have := ih (fun k hk => hks k (by simp [hk])) _ (by omega) hp
      omega

/-- Equal contributions everywhere mean equal bits in the blocks. -/
theorem contributions_inj {w nb : Nat} (hn : nb ≤ w) (ks : List Nat) (hks : ∀ k ∈ ks, k < nb) (x y : BitVec w)
    (W : Nat) (hW : W + totalWidth w nb ks ≤ w)
    (h : ∀ p, ((pairsFrom w nb W ks).any fun pair => (contribution x pair).getLsbD p) =
      ((pairsFrom w nb W ks).any fun pair => (contribution y pair).getLsbD p)) :
    ∀ k ∈ ks, ∀ j, st w nb k ≤ j → j < st w nb (k + 1) → x.getLsbD j = y.getLsbD j := by
  induction ks generalizing W with
  | nil => intro k hk; cases hk
  | cons k ks ih =>
    have hk := hks k (by simp)
    have hks' : ∀ k ∈ ks, k < nb := fun k hk => hks k (by simp [hk])
    have hlt := st_lt (w := w) (nb := nb) k (by omega) hn
    rw [totalWidth_cons] at hW
    simp only [pairsFrom_cons, List.any_cons] at h
    set len := st w nb (k + 1) - st w nb k with hlen
    -- the tail does not reach the head's interval
    have tail : ∀ (z : BitVec w) (p : Nat), w - (W + len) ≤ p →
        ((pairsFrom w nb (W + len) ks).any fun pair => (contribution z pair).getLsbD p) = false := by
      intro z p hp
      rw [← Bool.not_eq_true]
      intro hc
      have := contributions_range hn ks hks' z (W + len) (by omega) p hc
      omega
    intro k' hk' j h1 h2
    rcases List.mem_cons.mp hk' with rfl | hk'
    · have hp := h (j + (w - (W + len)) - st w nb k')
      rw [contribution_bit hn hk x (by omega), contribution_bit hn hk y (by omega), tail x _ (by omega),
        tail y _ (by omega), Bool.or_false, Bool.or_false] at hp
      have hin : w - (W + len) ≤ j + (w - (W + len)) - st w nb k' ∧ j + (w - (W + len)) - st w nb k' < w - W := by
        omega
      rw [decide_eq_true hin, Bool.true_and, Bool.true_and] at hp
      have e : j + (w - (W + len)) - st w nb k' + (W + len) + st w nb k' - w = j := by omega
      rwa [e] at hp
    · refine ih hks' (W + len) (by omega) ?_ k' hk' j h1 h2
      intro p
      by_cases hp : w - (W + len) ≤ p
      · rw [tail x p hp, tail y p hp]
      · have := h p
        rw [contribution_bit hn hk x (by omega), contribution_bit hn hk y (by omega)] at this
        have hout : ¬ (w - (W + len) ≤ p ∧ p < w - W) := by omega
        rw [decide_eq_false hout, Bool.false_and, Bool.false_and, Bool.false_or, Bool.false_or] at this
        exact this

end Verif
