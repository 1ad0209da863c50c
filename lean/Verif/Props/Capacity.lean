import Verif.Props.Index

/-!
# Property C102: an index made with a capacity
-/
set_option linter.unusedSectionVars false
namespace Verif.Props
open Verif.Spec

variable {T Id C : Type} [DecidableEq T] [DecidableEq Id] [IdContainer C Id] [LawfulIdContainer C Id]

theorem mapM_guard {α β : Type} (g : Except Panic Unit) (f : α → β) (l : List α) (res : List β)
    (h : (l.mapM fun i => do g; pure (f i)) = .ok res) : res = l.map f := by
  induction l generalizing res with
  | nil => cases h; rfl
  | cons a l ih =>
    rw [List.mapM_cons] at h
    cases g with
    | error e => cases h
    | ok u =>
      cases hx : l.mapM (fun i => do (Except.ok u : Except Panic Unit); pure (f i)) with
      | error e => rw [hx] at h; cases h
      | ok rest => rw [hx] at h; cases h; rw [ih rest hx]; rfl

theorem mapM_guard_ok {α β : Type} (f : α → β) (l : List α) :
    (l.mapM fun i => do (Except.ok () : Except Panic Unit); pure (f i)) = .ok (l.map f) := by
  induction l with
  | nil => rfl
  | cons a l ih => rw [List.mapM_cons, ih]; rfl

/-- C102: whatever is reserved, the index goes through every history as one made by `new_index` does, so that all theorems
about `After` are about it, too. -/
theorem C102_same (accepts : Nat → Bool) (b r : Nat) (t : Fl) (capacity : Nat) (ratio : Fl) (h : List T → UInt64)
    (idx : MinHashIndex T Id C) (hi : MinHashIndex.newWithCapacity accepts b r t capacity ratio h = .ok idx)
    (ops : List (Op T Id)) : idx.run ops = After C b r t h ops := by
  unfold MinHashIndex.newWithCapacity at hi
  cases hb : (List.range b).mapM (fun i => do
      MinHashIndex.reserve accepts (MinHashIndex.bandCapacity capacity ratio)
      pure (Band.new (C := C) (i * r) ((i + 1) * r) h)) with
  | error e => rw [hb] at hi; cases hi
  | ok bands =>
    rw [hb] at hi
    cases hr : MinHashIndex.reserve accepts capacity with
    | error e => rw [hr] at hi; cases hi
    | ok u =>
      rw [hr] at hi
      cases hi
      rw [mapM_guard _ _ _ _ hb]
      rfl

theorem newWithCapacity_ok (accepts : Nat → Bool) (b r : Nat) (t : Fl) (capacity : Nat) (ratio : Fl) (h : List T → UInt64)
    (h1 : accepts (MinHashIndex.bandCapacity capacity ratio) = true) (h2 : accepts capacity = true) :
    ∃ idx : MinHashIndex T Id C, MinHashIndex.newWithCapacity accepts b r t capacity ratio h = .ok idx := by
  unfold MinHashIndex.newWithCapacity MinHashIndex.reserve
  rw [h1, h2]
  simp only [if_true]
  rw [mapM_guard_ok]
  exact ⟨_, rfl⟩

/-- The value before the cast, for a ratio in the unit interval. -/
theorem bandCapacity_eq {capacity : Nat} (hc : capacity ≤ 2 ^ 53) {q : ℚ} (h0 : 0 ≤ q) (h1 : q ≤ 1) :
    MinHashIndex.bandCapacity capacity (.fin q) = ⌊rndQ b64 (capacity * rndQ b64 (1 - q))⌋.toNat ∧
      rndQ b64 (capacity * rndQ b64 (1 - q)) ≤ capacity := by
  have e1 : rnd b64 (1 - q) = .fin (rndQ b64 (1 - q)) :=
    rnd_of_bounds b64_ok (by linarith) (k := 0) (by simp [b64]) (by simp [b64]) (by rw [zpow_zero]; linarith)
  have u0 : 0 ≤ rndQ b64 (1 - q) := rndQ_nonneg (by linarith)
  have u1 : rndQ b64 (1 - q) ≤ 1 := rndQ_le_one b64_ok (by linarith) (by linarith)
  have c0 : (0 : ℚ) ≤ capacity := by positivity
  have c1 : (capacity : ℚ) ≤ 2 ^ 53 := by exact_mod_cast hc
  have p0 : 0 ≤ (capacity : ℚ) * rndQ b64 (1 - q) := by positivity
  have p1 : (capacity : ℚ) * rndQ b64 (1 - q) ≤ capacity := by nlinarith
  have e2 : rnd b64 (capacity * rndQ b64 (1 - q)) = .fin (rndQ b64 (capacity * rndQ b64 (1 - q))) :=
    rnd_of_bounds b64_ok p0 (k := 53) (by simp [b64]) (by simp [b64]) (p1.trans (c1.trans (by norm_num)))
  have le : rndQ b64 (capacity * rndQ b64 (1 - q)) ≤ capacity := by
    have := rndQ_mono (f := b64) (by simp [b64]) p0 p1
    rwa [rndQ_of_repr (f := b64) (by simp [b64]) (repr_nat b64_ok (by simpa [b64] using hc))] at this
  refine ⟨?_, le⟩
  unfold MinHashIndex.bandCapacity
  rw [ofNat_exact b64_ok (by simpa [b64] using hc)]
  change Fl.toUnsigned _ (Fl.mul b64 _ (rnd b64 (1 - q))) = _
  rw [e1]
  change Fl.toUnsigned _ (rnd b64 _) = _
  rw [e2]
  refine min_eq_left ?_
  have hf : (⌊rndQ b64 (capacity * rndQ b64 (1 - q))⌋ : ℤ) ≤ capacity :=
    Int.floor_le_iff.mpr (by push_cast; linarith)
  have : (capacity : ℤ) ≤ 2 ^ 53 := by exact_mod_cast hc
  omega

/-- C102: for a ratio in the unit interval the bands reserve at most the capacity asked for, so that the constructor
succeeds whenever that many entries can be reserved. -/
theorem C102_succeeds (accepts : Nat → Bool) (hdown : ∀ m n, m ≤ n → accepts n = true → accepts m = true) (b r : Nat)
    (t : Fl) (capacity : Nat) (hc : capacity ≤ 2 ^ 53) (ha : accepts capacity = true) (q : ℚ) (h0 : 0 ≤ q) (h1 : q ≤ 1)
    (h : List T → UInt64) :
    ∃ idx : MinHashIndex T Id C, MinHashIndex.newWithCapacity accepts b r t capacity (.fin q) h = .ok idx := by
  refine newWithCapacity_ok accepts b r t capacity _ h (hdown _ capacity ?_ ha) ha
  obtain ⟨e, le⟩ := bandCapacity_eq hc h0 h1
  rw [e]
  have hf : (⌊rndQ b64 (capacity * rndQ b64 (1 - q))⌋ : ℤ) ≤ capacity :=
    Int.floor_le_iff.mpr (by push_cast; linarith)
  omega

/-- C102: the documented size, `1 - ratio` times the capacity, up to rounding. -/
theorem C102_documented (capacity : Nat) (hc : capacity ≤ 2 ^ 53) (q : ℚ) (h0 : 0 ≤ q) (h1 : q ≤ 1) :
    capacity * (1 - q) - capacity * 3 / 2 ^ 54 - 1 < MinHashIndex.bandCapacity capacity (.fin q) ∧
      MinHashIndex.bandCapacity capacity (.fin q) ≤ capacity * (1 - q) + capacity * 3 / 2 ^ 54 := by
  obtain ⟨e, -⟩ := bandCapacity_eq hc h0 h1
  have u0 : 0 ≤ rndQ b64 (1 - q) := rndQ_nonneg (by linarith)
  have u1 : rndQ b64 (1 - q) ≤ 1 := rndQ_le_one b64_ok (by linarith) (by linarith)
  have c0 : (0 : ℚ) ≤ capacity := by positivity
  have er := rndQ_err_unit b64_ok (q := 1 - q) (by linarith) (by linarith)
  have d : (1 : ℚ) / 2 ^ (b64.prec + 1) = 1 / 2 ^ 54 := rfl
  rw [d] at er
  generalize rndQ b64 (1 - q) = u at *
  have p0 : 0 ≤ (capacity : ℚ) * u := by positivity
  have hpe : |rndQ b64 (capacity * u) - capacity * u| ≤ capacity * 2 / 2 ^ 54 := by
    rcases eq_or_lt_of_le p0 with hz | hpos
    · rw [← hz, rndQ_zero]; simp; positivity
    have cpos : (1 : ℚ) ≤ capacity := by
      have : capacity ≠ 0 := by rintro rfl; simp at hpos
      exact_mod_cast Nat.one_le_iff_ne_zero.mpr this
    by_cases hk : (2 : ℚ) ^ (0 : ℤ) ≤ capacity * u
    · refine (rndQ_err_rel b64_ok (q := capacity * u) (k := 0) (by simp [b64]) hk).trans ?_
      have e53 : ((2 : ℚ) ^ b64.prec) = 2 ^ 53 := rfl
      rw [e53]
      have : (capacity : ℚ) * u ≤ capacity := by nlinarith
      calc (capacity : ℚ) * u / 2 ^ 53 ≤ (capacity : ℚ) / 2 ^ 53 := by gcongr
        _ = (capacity : ℚ) * 2 / 2 ^ 54 := by ring
    · rw [zpow_zero, not_le] at hk
      have := rndQ_err_unit b64_ok p0 hk.le
      rw [d] at this
      refine this.trans ?_
      gcongr
      linarith
  have hn : 0 ≤ rndQ b64 (capacity * u) := rndQ_nonneg p0
  have hfl : ((⌊rndQ b64 (capacity * u)⌋.toNat : ℕ) : ℚ) = (⌊rndQ b64 (capacity * u)⌋ : ℤ) := by
    have := Int.toNat_of_nonneg (Int.floor_nonneg.mpr hn)
    exact_mod_cast this
  have l1 := Int.floor_le (rndQ b64 (capacity * u))
  have l2 := Int.lt_floor_add_one (rndQ b64 (capacity * u))
  rw [e, hfl]
  obtain ⟨a1, a2⟩ := abs_le.mp hpe
  obtain ⟨b1, b2⟩ := abs_le.mp er
  constructor <;> nlinarith

/-- C102: a ratio above one, or NaN, reserves nothing in the bands. -/
theorem C102_ratio_above (capacity : Nat) (hc : capacity < 2 ^ 64) (ratio : Fl) (hr : Fl.lt ratio (.fin 1) = false) :
    MinHashIndex.bandCapacity capacity ratio = 0 := by
  unfold MinHashIndex.bandCapacity
  rw [ofNat_b64 hc]
  have c0 : 0 ≤ rndQ b64 capacity := rndQ_nonneg (by positivity)
  generalize rndQ b64 capacity = c at *
  have key : ∀ d : ℚ, d ≤ 0 → Fl.toUnsigned (2 ^ 64 - 1) (rnd b64 d) = 0 := by
    intro d hd
    have h1 := rndQ_nonpos (f := b64) hd
    have h2 := two_zpow_pos b64.emax
    unfold rnd
    rw [if_neg (by linarith)]
    split_ifs
    · rfl
    · have : ⌊rndQ b64 d⌋ ≤ 0 := Int.floor_nonpos h1
      simp only [Fl.toUnsigned]
      rw [Int.toNat_of_nonpos this]
      rfl
  have inf : Fl.toUnsigned (2 ^ 64 - 1) (Fl.mul b64 (.fin c) .ninf) = 0 := by
    simp only [Fl.mul]
    split_ifs
    · rfl
    · rfl
    · exfalso; rename_i h1 h2; exact h2 (lt_of_le_of_ne c0 (Ne.symm h1))
  cases ratio with
  | nan => rfl
  | pinf => exact inf
  | ninf => cases hr
  | fin q =>
    have hq : 1 ≤ q := by
      by_contra hlt
      simp [Fl.lt, Fl.cmp, compare_lt_iff_lt.mpr (not_le.mp hlt)] at hr
    have h1 := rndQ_nonpos (f := b64) (q := 1 - q) (by linarith)
    have h2 := two_zpow_pos b64.emax
    simp only [Fl.sub, rnd]
    rw [if_neg (by linarith)]
    split_ifs
    · exact inf
    · exact key _ (mul_nonpos_of_nonneg_of_nonpos c0 h1)

/-- Half of the capacity for each band; the constructor succeeds, and refuses more than the allocator has. -/
example : MinHashIndex.bandCapacity 1000 (.fin (1 / 2)) = 500 ∧
    (MinHashIndex.newWithCapacity (fun n => n ≤ 1000) 2 1 (.fin 0) 1000 (.fin (1 / 2)) exHash :
      Except Panic (MinHashIndex Nat Nat (HSet Nat))).isOk = true ∧
    (MinHashIndex.newWithCapacity (fun n => n ≤ 1000) 2 1 (.fin 0) 1001 (.fin (1 / 2)) exHash :
      Except Panic (MinHashIndex Nat Nat (HSet Nat))).isOk = false := by
  refine ⟨by decide +kernel, by decide +kernel, by decide +kernel⟩

/-- A negative ratio is not rejected and reserves more than the capacity. -/
example : MinHashIndex.bandCapacity 1000 (.fin (-1)) = 2000 ∧ MinHashIndex.bandCapacity 1000 .ninf = 2 ^ 64 - 1 ∧
    MinHashIndex.bandCapacity 1000 .nan = 0 := by
  refine ⟨by decide +kernel, by decide +kernel, by decide +kernel⟩

end Verif.Props
