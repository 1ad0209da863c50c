import Verif.Lemmas.Fl

/-! Rounding facts for ratios of counts. -/
namespace Verif

/-- What the lemmas below need of a format (both `b64` and `b32` have it). -/
structure Fmt.Ok (f : Fmt) : Prop where
  p1 : 2 ≤ f.prec
  lo : f.emin ≤ -100 - f.prec
  hi : (f.prec : ℤ) < f.emax
  hi64 : 100 < f.emax

theorem b64_ok : b64.Ok := ⟨by simp [b64], by simp [b64], by simp [b64], by simp [b64]⟩
theorem b32_ok : b32.Ok := ⟨by simp [b32], by simp [b32], by simp [b32], by simp [b32]⟩

variable {f : Fmt}

theorem repr_zpow (h : f.Ok) {k : ℤ} (hk : f.emin ≤ k) : Repr f (2 ^ k) :=
  ⟨1, k, by simp, by simp; exact one_le_pow₀ (by norm_num), hk⟩

theorem repr_nat (h : f.Ok) {n : ℕ} (hn : n ≤ 2 ^ f.prec) : Repr f n :=
  ⟨n, 0, by simp, by simpa using (by exact_mod_cast hn), by have := h.lo; omega⟩

theorem rnd_of_bounds (h : f.Ok) {q : ℚ} (h0 : 0 ≤ q) {k : ℤ} (hk0 : f.emin ≤ k)
    (hk : k < f.emax) (hq : q ≤ 2 ^ k) : rnd f q = .fin (rndQ f q) := by
  have h1 : rndQ f q ≤ 2 ^ k := by
    have := rndQ_mono (f := f) (by have := h.p1; omega) h0 hq
    rwa [rndQ_of_repr (by have := h.p1; omega) (repr_zpow h hk0)] at this
  have h2 : (2 : ℚ) ^ k < 2 ^ f.emax := zpow_lt_zpow_right₀ (by norm_num) hk
  have h3 : 0 ≤ rndQ f q := rndQ_nonneg h0
  have h4 := two_zpow_pos f.emax
  unfold rnd
  rw [if_neg (by linarith), if_neg (by linarith)]

theorem ofNat_exact (h : f.Ok) {n : ℕ} (hn : n ≤ 2 ^ f.prec) : Fl.ofNat f n = .fin n := by
  unfold Fl.ofNat
  rw [rnd_of_bounds h (k := f.prec) (by positivity) (by have := h.lo; omega) h.hi
    (by rw [zpow_natCast]; exact_mod_cast hn)]
  rw [rndQ_of_repr (by have := h.p1; omega) (repr_nat h hn)]

/-- Floating point division of two counts. -/
theorem div_ofNat (h : f.Ok) {m n : ℕ} (hmn : m ≤ n) (hn0 : 0 < n) (hn : n ≤ 2 ^ f.prec) :
    Fl.div f (.ofNat f m) (.ofNat f n) = .fin (rndQ f ((m : ℚ) / n)) := by
  rw [ofNat_exact h hn, ofNat_exact h (hmn.trans hn)]
  have hnq : (0 : ℚ) < n := by exact_mod_cast hn0
  simp only [Fl.div, if_neg hnq.ne']
  refine rnd_of_bounds h (by positivity) (k := 0) (by have := h.lo; omega)
    (by have := h.hi64; omega) ?_
  rw [zpow_zero, div_le_one hnq]
  exact_mod_cast hmn

theorem rndQ_le_one (h : f.Ok) {q : ℚ} (h0 : 0 ≤ q) (h1 : q ≤ 1) : rndQ f q ≤ 1 := by
  have := rndQ_mono (f := f) (by have := h.p1; omega) h0 h1
  have h2 : Repr f 1 := by simpa using repr_zpow h (k := 0) (by have := h.lo; omega)
  rwa [rndQ_of_repr (by have := h.p1; omega) h2] at this

theorem rndQ_one (h : f.Ok) : rndQ f 1 = 1 := by
  have h2 : Repr f 1 := by simpa using repr_zpow h (k := 0) (by have := h.lo; omega)
  exact rndQ_of_repr (by have := h.p1; omega) h2

/-- A ratio below one by at least one unit stays below one. -/
theorem rndQ_lt_one (h : f.Ok) {q : ℚ} (h0 : 0 ≤ q) (h1 : q ≤ 1 - 1 / 2 ^ f.prec) :
    rndQ f q < 1 := by
  have hp := h.p1
  have hP : (0 : ℚ) < 2 ^ f.prec := by positivity
  have hR : Repr f (1 - 1 / 2 ^ f.prec) := by
    refine ⟨2 ^ f.prec - 1, -f.prec, ?_, ?_, by have := h.lo; omega⟩
    · push_cast
      rw [zpow_neg, zpow_natCast]
      field_simp
    · have : (1 : ℤ) ≤ 2 ^ f.prec := one_le_pow₀ (by norm_num)
      rw [abs_of_nonneg (by omega)]; omega
  have := rndQ_mono (f := f) (by omega) h0 h1
  rw [rndQ_of_repr (by omega) hR] at this
  have : (0 : ℚ) < 1 / 2 ^ f.prec := by positivity
  linarith

theorem rndQ_pos (h : f.Ok) {q : ℚ} {k : ℤ} (hk : f.emin ≤ k) (hq : 2 ^ k ≤ q) :
    2 ^ k ≤ rndQ f q := by
  have := rndQ_mono (f := f) (by have := h.p1; omega) (two_zpow_pos k).le hq
  rwa [rndQ_of_repr (by have := h.p1; omega) (repr_zpow h hk)] at this

/-- Absolute error on `[0,1]`. -/
theorem rndQ_err_unit (h : f.Ok) {q : ℚ} (h0 : 0 ≤ q) (h1 : q ≤ 1) :
    |rndQ f q - q| ≤ 1 / 2 ^ (f.prec + 1) := by
  rcases eq_or_lt_of_le h0 with hz | hpos
  · subst hz
    rw [rndQ_zero]; simp
  rcases eq_or_lt_of_le h1 with he | hlt
  · subst he
    rw [rndQ_one h]; simp
  refine (rndQ_err f hpos.ne').trans ?_
  have hlog : Int.log 2 |q| < 0 := by
    rw [abs_of_pos hpos]
    exact log_le_of_lt hpos (by simpa using hlt)
  have hu : ulpExp f q ≤ -f.prec := by
    unfold ulpExp
    have := h.lo
    exact max_le (by omega) (by omega)
  have : (2 : ℚ) ^ ulpExp f q ≤ 2 ^ (-(f.prec : ℤ)) := zpow_le_zpow_right₀ (by norm_num) hu
  rw [zpow_neg, zpow_natCast] at this
  rw [pow_succ]
  have e : (1 : ℚ) / (2 ^ f.prec * 2) = (2 ^ f.prec)⁻¹ / 2 := by field_simp
  rw [e]
  linarith

/-- Relative error in the normal range. -/
theorem rndQ_err_rel (h : f.Ok) {q : ℚ} {k : ℤ} (hk : f.emin + f.prec ≤ k) (hq : 2 ^ k ≤ q) :
    |rndQ f q - q| ≤ q / 2 ^ f.prec := by
  have hpos : 0 < q := lt_of_lt_of_le (two_zpow_pos k) hq
  refine (rndQ_err f hpos.ne').trans ?_
  have hlog : k ≤ Int.log 2 |q| := by
    rw [abs_of_pos hpos]
    by_contra hc
    push Not at hc
    have h1 := lt_two_zpow_log q
    have h2 : (2 : ℚ) ^ (Int.log 2 q + 1) ≤ 2 ^ k := zpow_le_zpow_right₀ (by norm_num) (by omega)
    linarith
  have hu : ulpExp f q = Int.log 2 |q| - (f.prec - 1) := by
    unfold ulpExp
    exact max_eq_left (by omega)
  rw [hu]
  have h1 : (2 : ℚ) ^ (Int.log 2 |q|) ≤ q := by
    rw [abs_of_pos hpos]; exact two_zpow_log_le hpos
  have e : (2 : ℚ) ^ (Int.log 2 |q| - ((f.prec : ℤ) - 1)) / 2 = 2 ^ Int.log 2 |q| / 2 ^ f.prec := by
    rw [show Int.log 2 |q| - ((f.prec : ℤ) - 1) = Int.log 2 |q| + 1 - f.prec by ring,
      zpow_sub₀ (by norm_num), zpow_add₀ (by norm_num), zpow_natCast, zpow_one]
    field_simp
  rw [e]
  exact div_le_div_of_nonneg_right h1 (by positivity)

/-- Ratios with different numerators round to different values when `n` is small enough. -/
theorem ratio_gap (h : f.Ok) {m m' n : ℕ} (hmm : m < m') (hmn : m' ≤ n) (hn : n < 2 ^ (f.prec - 1)) :
    rndQ f ((m : ℚ) / n) + 1 / 2 ^ f.prec < rndQ f ((m' : ℚ) / n) := by
  have hp := h.p1
  have hn0 : (0 : ℚ) < n := by exact_mod_cast (show 0 < n by omega)
  have h1 := rndQ_err_unit h (q := (m : ℚ) / n) (by positivity)
    (by rw [div_le_one hn0]; exact_mod_cast (by omega))
  have h2 := rndQ_err_unit h (q := (m' : ℚ) / n) (by positivity)
    (by rw [div_le_one hn0]; exact_mod_cast hmn)
  rw [abs_le] at h1 h2
  have h3 : (m : ℚ) / n + 1 / n ≤ m' / n := by
    rw [← add_div]
    exact div_le_div_of_nonneg_right (by exact_mod_cast hmm) hn0.le
  have h4 : 2 / 2 ^ f.prec < (1 : ℚ) / n := by
    rw [lt_div_iff₀ hn0]
    have : (n : ℚ) < 2 ^ (f.prec - 1) := by exact_mod_cast hn
    have e : (2 : ℚ) ^ f.prec = 2 ^ (f.prec - 1) * 2 := by
      rw [← pow_succ]; congr 1; omega
    rw [e]
    field_simp
    linarith
  have e : (1 : ℚ) / 2 ^ (f.prec + 1) = 1 / 2 ^ f.prec / 2 := by
    rw [pow_succ]; field_simp
  have e2 : (2 : ℚ) / 2 ^ f.prec = 1 / 2 ^ f.prec + 1 / 2 ^ f.prec := by ring
  rw [e] at h1 h2
  rw [e2] at h4
  linarith [h1.1, h1.2, h2.1, h2.2]

/-- Floating point `1 - x` for `x` in `[0,1]`. -/
theorem one_sub_fl (h : f.Ok) {x : ℚ} (h0 : 0 ≤ x) (h1 : x ≤ 1) :
    Fl.sub f (.fin 1) (.fin x) = .fin (rndQ f (1 - x)) := by
  simp only [Fl.sub]
  exact rnd_of_bounds h (k := 0) (by linarith) (by have := h.lo; omega)
    (by have := h.hi64; omega) (by simp; linarith)

theorem one_sub_gap (h : f.Ok) {x y : ℚ} (h0 : 0 ≤ x) (h1 : y ≤ 1)
    (hxy : x + 1 / 2 ^ f.prec < y) : rndQ f (1 - y) < rndQ f (1 - x) := by
  have hP : (0 : ℚ) < 1 / 2 ^ f.prec := by positivity
  have h2 := rndQ_err_unit h (q := 1 - y) (by linarith) (by linarith)
  have h3 := rndQ_err_unit h (q := 1 - x) (by linarith) (by linarith)
  rw [abs_le] at h2 h3
  have e : (1 : ℚ) / 2 ^ (f.prec + 1) = 1 / 2 ^ f.prec / 2 := by
    rw [pow_succ]; field_simp
  rw [e] at h2 h3
  linarith [h2.1, h2.2, h3.1, h3.2]

/-! ### Comparisons of finite values -/

theorem ge_fin {a b : ℚ} : Fl.ge (.fin a) (.fin b) = true ↔ b ≤ a := by
  unfold Fl.ge Fl.cmp
  rcases lt_trichotomy a b with h | h | h
  · simp [compare_lt_iff_lt.mpr h, h]
  · simp [h]
  · simp [compare_gt_iff_gt.mpr h, h.le]

theorem gt_fin {a b : ℚ} : Fl.gt (.fin a) (.fin b) = true ↔ b < a := by
  unfold Fl.gt Fl.cmp
  rcases lt_trichotomy a b with h | h | h
  · simp [compare_lt_iff_lt.mpr h, h.le]
  · simp [h]
  · simp [compare_gt_iff_gt.mpr h, h]

theorem lt_fin {a b : ℚ} : Fl.lt (.fin a) (.fin b) = true ↔ a < b := by
  unfold Fl.lt Fl.cmp
  rcases lt_trichotomy a b with h | h | h
  · simp [compare_lt_iff_lt.mpr h, h]
  · simp [h]
  · simp [compare_gt_iff_gt.mpr h, h.le]

end Verif
