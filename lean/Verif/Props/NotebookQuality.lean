import Verif.Model.Notebook
import Verif.Props.Similarity

/-! # C132: the quality measures of the deduplication notebook -/
namespace Verif.Props

theorem rowCorrect_iff (l d : List Int64) : rowCorrect l d = true ↔ l.toFinset = d.toFinset := by
  unfold rowCorrect
  simp only [Bool.and_eq_true, List.all_eq_true, HSet.contains, HSet.mem_extend, HSet.mem_empty, false_or,
    decide_eq_true_eq, Finset.ext_iff, List.mem_toFinset]
  exact ⟨fun h x => ⟨h.1 x, h.2 x⟩, fun h => ⟨fun x => (h x).1, fun x => (h x).2⟩⟩

theorem ratio_rnd {m n : ℕ} (h : m ≤ n) : rnd b64 ((m : ℚ) / n) = .fin (rndQ b64 ((m : ℚ) / n)) := by
  have hu := ratio_unit h
  exact rnd_of_bounds b64_ok hu.1 (k := 0) (by simp [b64]) (by simp [b64]) (by simpa using hu.2)

theorem ratio_one_iff {m n : ℕ} (h : m ≤ n) (h0 : 0 < n) (hn : n ≤ 2 ^ 53) : rnd b64 ((m : ℚ) / n) = .fin 1 ↔ m = n := by
  rw [ratio_rnd h]
  have hnq : (0 : ℚ) < n := by exact_mod_cast h0
  constructor
  · intro he
    simp only [Fl.fin.injEq] at he
    by_contra hne
    have hlt : m < n := lt_of_le_of_ne h hne
    have hq : ((m : ℚ) / n) ≤ 1 - 1 / 2 ^ b64.prec := by
      rw [div_le_iff₀ hnq]
      have h1 : (m : ℚ) + 1 ≤ n := by exact_mod_cast hlt
      have h2 : (n : ℚ) ≤ 2 ^ 53 := by exact_mod_cast hn
      have h3 : (1 : ℚ) / 2 ^ 53 * n ≤ 1 := by
        rw [one_div_mul_eq_div, div_le_one (by positivity)]; exact h2
      simp only [b64]
      linarith
    have := rndQ_lt_one b64_ok (ratio_unit h).1 hq
    rw [he] at this
    exact lt_irrefl _ this
  · rintro rfl
    rw [div_self hnq.ne', rndQ_one b64_ok]

theorem rowRecall_eq (l d : List Int64) : rowRecall l d =
    if l = [] then .fin 1 else rnd b64 (((d.toFinset ∩ l.toFinset).card : ℚ) / l.toFinset.card) := by
  unfold rowRecall
  simp only
  rw [extend_len, jaccard_inter]
  by_cases h : l = []
  · subst h; simp
  · rw [if_neg h, if_neg]
    rw [Finset.card_eq_zero, List.toFinset_eq_empty_iff]
    exact h

theorem rowPrecision_eq (l d : List Int64) : rowPrecision l d =
    if d = [] then .fin 0 else rnd b64 (((d.toFinset ∩ l.toFinset).card : ℚ) / d.toFinset.card) := by
  unfold rowPrecision
  simp only
  rw [extend_len, jaccard_inter]
  by_cases h : d = []
  · subst h; simp
  · rw [if_neg h, if_neg]
    rw [Finset.card_eq_zero, List.toFinset_eq_empty_iff]
    exact h

theorem card_pos_of_ne {l : List Int64} (h : l ≠ []) : 0 < l.toFinset.card := by
  rw [Finset.card_pos, List.toFinset_nonempty_iff]; exact h

theorem card_int64 (l : List Int64) (hl : l.length ≤ 2 ^ 53) : l.toFinset.card ≤ 2 ^ 53 :=
  (List.toFinset_card_le l).trans hl

/-- C132: the recall of a row is 1 exactly when every labelled duplicate is found. -/
theorem C132_recall_one_iff (l d : List Int64) (hl : l.length ≤ 2 ^ 53) : rowRecall l d = .fin 1 ↔ ∀ x ∈ l, x ∈ d := by
  rw [rowRecall_eq]
  split_ifs with h
  · subst h; simp
  · rw [ratio_one_iff (Finset.card_le_card Finset.inter_subset_right) (card_pos_of_ne h) (card_int64 l hl)]
    constructor
    · intro he x hx
      have := Finset.eq_of_subset_of_card_le (Finset.inter_subset_right (s₁ := d.toFinset) (s₂ := l.toFinset)) he.ge
      have hx' : x ∈ d.toFinset ∩ l.toFinset := by rw [this]; exact List.mem_toFinset.mpr hx
      exact List.mem_toFinset.mp (Finset.mem_inter.mp hx').1
    · intro hs
      rw [Finset.inter_eq_right.mpr]
      intro x hx
      exact List.mem_toFinset.mpr (hs x (List.mem_toFinset.mp hx))

/-- C132: the precision of a row is 1 exactly when something is found and all that is found is labelled. -/
theorem C132_precision_one_iff (l d : List Int64) (hd : d.length ≤ 2 ^ 53) :
    rowPrecision l d = .fin 1 ↔ d ≠ [] ∧ ∀ x ∈ d, x ∈ l := by
  rw [rowPrecision_eq]
  split_ifs with h
  · subst h; simp
  · rw [ratio_one_iff (Finset.card_le_card Finset.inter_subset_left) (card_pos_of_ne h) (card_int64 d hd)]
    constructor
    · intro he
      refine ⟨h, fun x hx => ?_⟩
      have := Finset.eq_of_subset_of_card_le (Finset.inter_subset_left (s₁ := d.toFinset) (s₂ := l.toFinset)) he.ge
      have hx' : x ∈ d.toFinset ∩ l.toFinset := by rw [this]; exact List.mem_toFinset.mpr hx
      exact List.mem_toFinset.mp (Finset.mem_inter.mp hx').2
    · rintro ⟨_, hs⟩
      rw [Finset.inter_eq_left.mpr]
      intro x hx
      exact List.mem_toFinset.mpr (hs x (List.mem_toFinset.mp hx))

/-- C132: both measures lie between 0 and 1, and are the doubles nearest to the ratios. -/
theorem C132_range (l d : List Int64) : ∃ x y : ℚ, rowRecall l d = .fin x ∧ rowPrecision l d = .fin y ∧
    0 ≤ x ∧ x ≤ 1 ∧ 0 ≤ y ∧ y ≤ 1 ∧
    (l ≠ [] → Spec.NearestEven Spec.Double (((d.toFinset ∩ l.toFinset).card : ℚ) / l.toFinset.card) x) ∧
    (d ≠ [] → Spec.NearestEven Spec.Double (((d.toFinset ∩ l.toFinset).card : ℚ) / d.toFinset.card) y) := by
  have h1 : ∃ x : ℚ, rowRecall l d = .fin x ∧ 0 ≤ x ∧ x ≤ 1 ∧
      (l ≠ [] → Spec.NearestEven Spec.Double (((d.toFinset ∩ l.toFinset).card : ℚ) / l.toFinset.card) x) := by
    rw [rowRecall_eq]
    split_ifs with h
    · exact ⟨1, rfl, by norm_num, le_refl _, fun hn => absurd h hn⟩
    · have hc := Finset.card_le_card (Finset.inter_subset_right (s₁ := d.toFinset) (s₂ := l.toFinset))
      have hu := ratio_unit hc
      refine ⟨_, ratio_rnd hc, rndQ_nonneg hu.1, rndQ_le_one b64_ok hu.1 hu.2, fun _ => rnd_double (ratio_rnd hc)⟩
  have h2 : ∃ x : ℚ, rowPrecision l d = .fin x ∧ 0 ≤ x ∧ x ≤ 1 ∧
      (d ≠ [] → Spec.NearestEven Spec.Double (((d.toFinset ∩ l.toFinset).card : ℚ) / d.toFinset.card) x) := by
    rw [rowPrecision_eq]
    split_ifs with h
    · exact ⟨0, rfl, le_refl _, by norm_num, fun hn => absurd h hn⟩
    · have hc := Finset.card_le_card (Finset.inter_subset_left (s₁ := d.toFinset) (s₂ := l.toFinset))
      have hu := ratio_unit hc
      refine ⟨_, ratio_rnd hc, rndQ_nonneg hu.1, rndQ_le_one b64_ok hu.1 hu.2, fun _ => rnd_double (ratio_rnd hc)⟩
  obtain ⟨x, hx, hx0, hx1, hx2⟩ := h1
  obtain ⟨y, hy, hy0, hy1, hy2⟩ := h2
  exact ⟨x, y, hx, hy, hx0, hx1, hy0, hy1, hx2, hy2⟩

/-- C132 is false for a row without duplicates: found and labelled duplicates agree, and the precision is 0. -/
theorem C132_correct_iff_false :
    ¬ ∀ l d : List Int64, rowCorrect l d = true ↔ rowRecall l d = .fin 1 ∧ rowPrecision l d = .fin 1 := by
  intro h
  have := ((h [] []).mp (by decide)).2
  rw [rowPrecision_eq] at this
  simp at this

/-- C132, what holds: for rows with labelled duplicates. What is missing is rows without. -/
theorem C132_correct_iff_partial (l d : List Int64) (h : l ≠ []) (hl : l.length ≤ 2 ^ 53) (hd : d.length ≤ 2 ^ 53) :
    rowCorrect l d = true ↔ rowRecall l d = .fin 1 ∧ rowPrecision l d = .fin 1 := by
  rw [rowCorrect_iff, C132_recall_one_iff l d hl, C132_precision_one_iff l d hd]
  constructor
  · intro e
    have hm : ∀ x, x ∈ l ↔ x ∈ d := fun x => by rw [← List.mem_toFinset, e, List.mem_toFinset]
    refine ⟨fun x => (hm x).mp, ?_, fun x => (hm x).mpr⟩
    rintro rfl
    cases l with
    | nil => exact h rfl
    | cons x l => exact absurd ((hm x).mp (by simp)) (by simp)
  · rintro ⟨h1, _, h2⟩
    ext x
    rw [List.mem_toFinset, List.mem_toFinset]
    exact ⟨h1 x, h2 x⟩

/-- C132: without labelled duplicates the recall is 1 and the precision 0, whatever is found. -/
theorem C132_no_labels (d : List Int64) : rowRecall [] d = .fin 1 ∧ rowPrecision [] d = .fin 0 := by
  rw [rowRecall_eq, rowPrecision_eq]
  refine ⟨by simp, ?_⟩
  split_ifs
  · rfl
  · have := ratio_rnd (m := 0) (n := d.toFinset.card) (Nat.zero_le _)
    simp only [Nat.cast_zero, zero_div] at this
    simp [this, rndQ_zero]

example : ([5] : List Int64) ≠ [] ∧ rowCorrect [5] [5, 5] = true ∧ rowCorrect [5, 6] [5] = false := by decide

theorem foldl_addFinite (l : List Bool) (k : Nat) (h : k + l.length ≤ 2 ^ 53) :
    (l.map fun b => if b then (.fin 1 : Fl) else .fin 0).foldl addFinite (.fin k) = .fin ((k + l.countP id : Nat) : ℚ) := by
  induction l generalizing k with
  | nil => simp
  | cons b l ih =>
    simp only [List.length_cons] at h
    rw [List.map_cons, List.foldl_cons]
    have hk : ∀ n : Nat, n ≤ 2 ^ 53 → rnd b64 (n : ℚ) = .fin n := fun n hn =>
      ofNat_exact b64_ok (by simpa [b64] using hn)
    cases b
    · have e : addFinite (.fin k) (if false = true then .fin 1 else .fin 0) = .fin (k : ℚ) := by
        simp only [addFinite, Bool.false_eq_true, if_false, add_zero]
        exact hk k (by omega)
      rw [e, ih k (by omega)]
      simp
    · have e : addFinite (.fin k) (if true = true then .fin 1 else .fin 0) = .fin ((k + 1 : Nat) : ℚ) := by
        simp only [addFinite, if_true]
        have := hk (k + 1) (by omega)
        push_cast at this ⊢
        exact this
      rw [e, ih (k + 1) (by omega)]
      rw [List.countP_cons_of_pos rfl]
      congr 2
      omega

/-- C132: when every row is right, the accuracy and the mean recall are 1, and the mean precision is the share of the rows
that have labelled duplicates. -/
theorem C132_perfect (rows : List (List Int64 × List Int64)) (h0 : rows ≠ []) (hn : rows.length ≤ 2 ^ 53)
    (hs : ∀ r ∈ rows, r.1.length ≤ 2 ^ 53 ∧ r.2.length ≤ 2 ^ 53)
    (h : ∀ r ∈ rows, ∀ x, x ∈ r.1 ↔ x ∈ r.2) :
    notebookAccuracy (rows.map fun r => rowCorrect r.1 r.2) = .fin 1 ∧
    columnMean (rows.map fun r => rowRecall r.1 r.2) = .fin 1 ∧
    columnMean (rows.map fun r => rowPrecision r.1 r.2) =
      .fin (rndQ b64 ((rows.countP fun r => decide (r.1 ≠ []) : ℚ) / rows.length)) := by
  have hpos : 0 < rows.length := List.length_pos_iff.mpr h0
  have hq : (rows.length : ℚ) ≠ 0 := by exact_mod_cast hpos.ne'
  have key : ∀ (f : List Int64 × List Int64 → Bool) (g : List Int64 × List Int64 → Fl),
      (∀ r ∈ rows, g r = if f r then .fin 1 else .fin 0) →
      columnMean (rows.map g) = .fin (rndQ b64 ((rows.countP f : ℚ) / rows.length)) := by
    intro f g hg
    have e : rows.map g = (rows.map f).map fun b => if b then (.fin 1 : Fl) else .fin 0 := by
      rw [List.map_map]
      exact List.map_congr_left hg
    have hc : rows.countP f ≤ rows.length := List.countP_le_length
    unfold columnMean
    rw [e]
    have := foldl_addFinite (rows.map f) 0 (by simpa using hn)
    simp only [Nat.cast_zero, Nat.zero_add, List.countP_map] at this
    rw [this]
    have hd := div_ofNat b64_ok hc hpos (by simpa [b64] using hn)
    rw [ofNat_exact b64_ok (show rows.countP f ≤ 2 ^ b64.prec by simp only [b64]; omega)] at hd
    simp only [List.length_map]
    exact hd
  have hcor : ∀ r ∈ rows, rowCorrect r.1 r.2 = true := by
    intro r hr
    rw [rowCorrect_iff]
    ext x
    simp [h r hr]
  refine ⟨?_, ?_, ?_⟩
  · unfold notebookAccuracy
    have : (rows.map fun r => rowCorrect r.1 r.2).countP id = rows.length := by
      rw [List.countP_map, List.countP_eq_length]
      exact hcor
    rw [this, List.length_map, div_ofNat b64_ok (le_refl _) hpos (by simpa [b64] using hn), div_self hq, rndQ_one b64_ok]
  · rw [key (fun _ => true) _ fun r hr => ?_]
    · simp only [List.countP_true]
      rw [div_self hq, rndQ_one b64_ok]
    · rw [if_pos rfl]
      exact (C132_recall_one_iff _ _ (hs r hr).1).mpr fun x => (h r hr x).mp
  · refine key _ _ fun r hr => ?_
    by_cases hl : r.1 = []
    · have hd : r.2 = [] := by
        cases e : r.2 with
        | nil => rfl
        | cons x l =>
          have := (h r hr x).mpr (by rw [e]; simp)
          rw [hl] at this
          cases this
      rw [hl, hd, (C132_no_labels []).2]
      simp
    · rw [if_pos (by simpa using hl)]
      refine (C132_precision_one_iff _ _ (hs r hr).2).mpr ⟨?_, fun x => (h r hr x).mpr⟩
      intro e
      cases e' : r.1 with
      | nil => exact hl e'
      | cons x l =>
        have := (h r hr x).mp (by rw [e']; simp)
        rw [e] at this
        exact absurd this (by simp)

/-- A table of two rows, both right; the mean precision is one half. -/
example : columnMean (([([], []), ([7], [7])] : List (List Int64 × List Int64)).map fun r => rowPrecision r.1 r.2) =
    .fin (1 / 2) := by
  rw [(C132_perfect _ (by simp) (by simp) (by simp) (by simp)).2.2]
  have : ((([([], []), ([7], [7])] : List (List Int64 × List Int64)).countP fun r => decide (r.1 ≠ []) : ℚ) /
      ([([], []), ([7], [7])] : List (List Int64 × List Int64)).length) = 1 / 2 := by norm_num
  rw [this]
  decide +kernel

end Verif.Props
