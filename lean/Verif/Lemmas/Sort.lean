import Verif.Lemmas.Prelude
import Verif.Lemmas.Ratio
import Verif.Model.MinHashIndex
import Mathlib.Data.Prod.Lex

/-! Sorting and maxima with floating point keys. -/
namespace Verif

/-- Position of a float in the order used by sorts. -/
def Fl.rank : Fl → ℕ ×ₗ ℚ
  | .nan => toLex (0, 0)
  | .ninf => toLex (1, 0)
  | .fin q => toLex (2, q)
  | .pinf => toLex (3, 0)

theorem Fl.tcmp_eq (a b : Fl) : Fl.tcmp a b = compare a.rank b.rank := by
  have key : ∀ {α : Type} [LinearOrder α] (x y : α) (o : Ordering),
      (o = .lt → x < y) → (o = .eq → x = y) → (o = .gt → y < x) → o = compare x y := by
    intro α _ x y o h1 h2 h3
    cases o with
    | lt => exact (compare_lt_iff_lt.mpr (h1 rfl)).symm
    | eq => exact (compare_eq_iff_eq.mpr (h2 rfl)).symm
    | gt => exact (compare_gt_iff_gt.mpr (h3 rfl)).symm
  apply key
  · intro h
    cases a <;> cases b <;> simp_all [Fl.tcmp, Fl.cmp, Fl.rank, compare_lt_iff_lt, Prod.Lex.toLex_lt_toLex]
  · intro h
    cases a <;> cases b <;> simp_all [Fl.tcmp, Fl.cmp, Fl.rank]
  · intro h
    cases a <;> cases b <;> simp_all [Fl.tcmp, Fl.cmp, Fl.rank, compare_gt_iff_gt, Prod.Lex.toLex_lt_toLex]

theorem Fl.ge_iff_rank {a b : Fl} (ha : a ≠ .nan) (hb : b ≠ .nan) :
    Fl.ge a b = true ↔ b.rank ≤ a.rank := by
  have h : Fl.ge a b = true ↔ Fl.tcmp a b ≠ .lt := by
    cases a <;> cases b <;> simp_all [Fl.tcmp, Fl.cmp, Fl.ge]
    rename_i x y
    rw [← compare_eq_iff_eq (a := x) (b := y)]
    cases compare x y <;> simp
  rw [h, Fl.tcmp_eq, Ne, compare_lt_iff_lt, not_lt]

theorem Fl.gt_ge {a b : Fl} (h : Fl.gt a b = true) : Fl.ge a b = true := by
  unfold Fl.gt at h; unfold Fl.ge; simp_all

theorem Fl.ge_ne_nan {a b : Fl} (h : Fl.ge a b = true) : a ≠ .nan ∧ b ≠ .nan := by
  constructor
  · rintro rfl; simp [Fl.ge, Fl.cmp] at h
  · rintro rfl; cases a <;> simp [Fl.ge, Fl.cmp] at h

theorem Fl.ge_trans {a b c : Fl} (h1 : Fl.ge a b = true) (h2 : Fl.ge b c = true) : Fl.ge a c = true := by
  have n1 := Fl.ge_ne_nan h1
  have n2 := Fl.ge_ne_nan h2
  rw [Fl.ge_iff_rank n1.1 n1.2] at h1
  rw [Fl.ge_iff_rank n2.1 n2.2] at h2
  rw [Fl.ge_iff_rank n1.1 n2.2]
  exact h2.trans h1

theorem Fl.gt_or_of_ge {a b : Fl} (h : Fl.ge a b = true) : Fl.gt a b = true ∨ Fl.ge b a = true := by
  have n := Fl.ge_ne_nan h
  cases a <;> cases b <;> simp_all [Fl.ge, Fl.gt, Fl.cmp]
  rename_i x y
  rcases h with h | h
  · exact .inl h
  · exact .inr (.inr h.symm)

variable {α : Type}

theorem maxByKeyE_spec (key : α → Fl) (l : List α) (hn : ∀ x ∈ l, key x ≠ .nan) :
    ∃ res, maxByKeyE key l = .ok res ∧ (res = none ↔ l = []) ∧
      ∀ m, res = some m → m ∈ l ∧ ∀ x ∈ l, Fl.ge (key m) (key x) = true := by
  unfold maxByKeyE
  rw [if_neg (by
    rintro ⟨_, h⟩
    rw [List.any_eq_true] at h
    obtain ⟨x, hx, he⟩ := h
    exact hn x hx (by simpa using he))]
  refine ⟨_, rfl, ?_⟩
  have e : (fun x y : α => Fl.tcmp (key x) (key y)) = fun x y => compare (key x).rank (key y).rank := by
    funext x y; exact Fl.tcmp_eq _ _
  rw [e]
  obtain ⟨h1, h2⟩ := maxBy_spec (fun x => (key x).rank) l
  refine ⟨h1, fun m hm => ?_⟩
  obtain ⟨h3, h4⟩ := h2 m hm
  exact ⟨h3, fun x hx => (Fl.ge_iff_rank (hn m h3) (hn x hx)).mpr (h4 x hx)⟩

/-- When the sort panics. -/
theorem sortByKeyE_ok_iff (o : Order) (le : Fl → Fl → Bool) (key : α → Fl) (l : List α) :
    (∃ r, sortByKeyE o le key l = .ok r) ↔ (2 ≤ l.length → ∀ x ∈ l, key x ≠ .nan) := by
  unfold sortByKeyE
  constructor
  · rintro ⟨r, hr⟩ h2 x hx he
    rw [if_pos ⟨h2, List.any_eq_true.mpr ⟨x, hx, by simpa using he⟩⟩] at hr
    cases hr
  · intro h
    rw [if_neg (by
      rintro ⟨h2, h3⟩
      rw [List.any_eq_true] at h3
      obtain ⟨x, hx, he⟩ := h3
      exact h h2 x hx (by simpa using he))]
    exact ⟨_, rfl⟩

theorem pairwise_of_length_lt_two {R : α → α → Prop} {l : List α} (h : l.length < 2) : l.Pairwise R := by
  match l, h with
  | [], _ => exact .nil
  | [x], _ => simp
  | _ :: _ :: _, h => simp at h; omega

theorem sortByKeyE_desc {o : Order} {key : α → Fl} {l r : List α}
    (h : sortByKeyE o (fun x y => Fl.tcmp y x != .gt) key l = .ok r) :
    r.Perm l ∧ r.Pairwise fun a b => Fl.ge (key a) (key b) = true := by
  have hok := (sortByKeyE_ok_iff o (fun x y => Fl.tcmp y x != .gt) key l).mp ⟨r, h⟩
  unfold sortByKeyE at h
  split_ifs at h with hc
  injection h with h
  subst h
  have hp := sortUnstable_perm o (fun x y => Fl.tcmp (key y) (key x) != .gt) l
  refine ⟨hp, ?_⟩
  have hle : ∀ x y : α, (Fl.tcmp (key y) (key x) != .gt) = true ↔ (key y).rank ≤ (key x).rank := by
    intro x y
    rw [Fl.tcmp_eq, bne_iff_ne, Ne, compare_gt_iff_gt, not_lt]
  have hs := sortUnstable_sorted o (fun x y => Fl.tcmp (key y) (key x) != .gt) l
    (fun a b c h1 h2 => by rw [hle] at *; exact h2.trans h1)
    (fun a b => by rw [Bool.or_eq_true, hle, hle]; exact le_total _ _)
  by_cases h2 : 2 ≤ l.length
  · refine hs.imp_of_mem ?_
    intro a b ha hb hab
    rw [hle] at hab
    exact (Fl.ge_iff_rank (hok h2 a (hp.mem_iff.mp ha)) (hok h2 b (hp.mem_iff.mp hb))).mpr hab
  · exact pairwise_of_length_lt_two (by rw [hp.length_eq]; omega)

theorem sortByKeyE_asc {o : Order} {key : α → Fl} {l r : List α}
    (h : sortByKeyE o (fun x y => Fl.tcmp x y != .gt) key l = .ok r) :
    r.Perm l ∧ r.Pairwise fun a b => Fl.ge (key b) (key a) = true := by
  have hok := (sortByKeyE_ok_iff o (fun x y => Fl.tcmp x y != .gt) key l).mp ⟨r, h⟩
  unfold sortByKeyE at h
  split_ifs at h with hc
  injection h with h
  subst h
  have hp := sortUnstable_perm o (fun x y => Fl.tcmp (key x) (key y) != .gt) l
  refine ⟨hp, ?_⟩
  have hle : ∀ x y : α, (Fl.tcmp (key x) (key y) != .gt) = true ↔ (key x).rank ≤ (key y).rank := by
    intro x y
    rw [Fl.tcmp_eq, bne_iff_ne, Ne, compare_gt_iff_gt, not_lt]
  have hs := sortUnstable_sorted o (fun x y => Fl.tcmp (key x) (key y) != .gt) l
    (fun a b c h1 h2 => by rw [hle] at *; exact h1.trans h2)
    (fun a b => by rw [Bool.or_eq_true, hle, hle]; exact le_total _ _)
  by_cases h2 : 2 ≤ l.length
  · refine hs.imp_of_mem ?_
    intro a b ha hb hab
    rw [hle] at hab
    exact (Fl.ge_iff_rank (hok h2 b (hp.mem_iff.mp hb)) (hok h2 a (hp.mem_iff.mp ha))).mpr hab
  · exact pairwise_of_length_lt_two (by rw [hp.length_eq]; omega)

end Verif
