import Verif.Props.Unbiased
import Verif.Props.AffineAccuracy
import Verif.Props.SimStability

/-!
# Property C120: drawing the coefficients at random does not remove the bias

C78 averages over the hash values of the tokens. Here the token hashes are fixed and the coefficients are drawn, which is
what choosing a seed at random approximates. The mean of the estimate is then not the Jaccard similarity.
-/
namespace Verif.Props
open Verif.Spec

/-! ### Counting coefficients -/

theorem sum_up (k : Nat) : 2 * ∑ i ∈ Finset.range k, (i + 1) = k * (k + 1) := by
  induction k with
  | zero => simp
  | succ k ih => rw [Finset.sum_range_succ, Nat.mul_add, ih]; ring

theorem sum_down (k : Nat) : ∑ i ∈ Finset.range k, (k - i) = ∑ i ∈ Finset.range k, (i + 1) := by
  rw [← Finset.sum_range_reflect]
  refine Finset.sum_congr rfl fun i hi => ?_
  have := Finset.mem_range.mp hi
  omega

theorem sum_odd (k : Nat) : ∑ i ∈ Finset.range k, (2 * k - 1 - 2 * i) = k * k := by
  have e : ∀ i ∈ Finset.range k, 2 * k - 1 - 2 * i = 2 * (k - 1 - i) + 1 := by
    intro i hi
    have := Finset.mem_range.mp hi
    omega
  rw [Finset.sum_congr rfl e, Finset.sum_range_reflect (fun i => 2 * i + 1)]
  induction k with
  | zero => simp
  | succ k ih =>
    rw [Finset.sum_range_succ, ih fun i hi => by have := Finset.mem_range.mp hi; omega]
    ring

/-- The value of the middle one of three consecutive hashes is the least. -/
def middleLeast (p a b : Nat) : Prop := (a + b) % p ≤ b ∧ (a + b) % p ≤ (2 * a + b) % p

/-- The value of the first one of three consecutive hashes is the least. -/
def firstLeast (p a b : Nat) : Prop := b ≤ (a + b) % p ∧ b ≤ (2 * a + b) % p

instance (p a : Nat) : DecidablePred (middleLeast p a) := fun _ => inferInstanceAs (Decidable (_ ∧ _))
instance (p a : Nat) : DecidablePred (firstLeast p a) := fun _ => inferInstanceAs (Decidable (_ ∧ _))

theorem mod_cases {p x : Nat} (hx : x < 3 * p) :
    (x < p ∧ x % p = x) ∨ (p ≤ x ∧ x < 2 * p ∧ x % p = x - p) ∨ (2 * p ≤ x ∧ x % p = x - 2 * p) := by
  rcases lt_or_ge x p with h | h
  · exact .inl ⟨h, Nat.mod_eq_of_lt h⟩
  · rcases lt_or_ge x (2 * p) with h2 | h2
    · refine .inr (.inl ⟨h, h2, ?_⟩)
      rw [Nat.mod_eq_sub_mod h, Nat.mod_eq_of_lt (by omega)]
    · refine .inr (.inr ⟨h2, ?_⟩)
      rw [Nat.mod_eq_sub_mod h, Nat.mod_eq_sub_mod (by omega), Nat.mod_eq_of_lt (by omega)]
      omega

theorem middleLeast_iff {p a b : Nat} (ha : 1 ≤ a) (ha' : a < p) (hb : b < p) :
    middleLeast p a b ↔ p - a ≤ b ∧ b < 2 * (p - a) := by
  unfold middleLeast
  have h1 := mod_cases (p := p) (x := a + b) (by omega)
  have h2 := mod_cases (p := p) (x := 2 * a + b) (by omega)
  generalize (a + b) % p = u at *
  generalize (2 * a + b) % p = v at *
  omega

theorem firstLeast_iff {p a b : Nat} (ha : 1 ≤ a) (ha' : a < p) (hb : b < p) :
    firstLeast p a b ↔ b < if 2 * a < p then p - 2 * a else p - a := by
  unfold firstLeast
  have h1 := mod_cases (p := p) (x := a + b) (by omega)
  have h2 := mod_cases (p := p) (x := 2 * a + b) (by omega)
  generalize (a + b) % p = u at *
  generalize (2 * a + b) % p = v at *
  split <;> omega

theorem middleLeast_card (k : Nat) :
    (Finset.univ.filter fun c : Coeff (2 * k + 1) => middleLeast (2 * k + 1) (c.1.val + 1) c.2.val).card = k * (k + 1) := by
  rw [card_coeff]
  have h : ∀ a ∈ Finset.Ico 1 (2 * k + 1), ((Finset.range (2 * k + 1)).filter (middleLeast (2 * k + 1) a)).card =
      min a (2 * k + 1 - a) := by
    intro a ha
    obtain ⟨h1, h2⟩ := Finset.mem_Ico.mp ha
    have e : (Finset.range (2 * k + 1)).filter (middleLeast (2 * k + 1) a) =
        Finset.Ico (2 * k + 1 - a) (min (2 * k + 1) (2 * (2 * k + 1 - a))) := by
      ext b
      rw [Finset.mem_filter, Finset.mem_range, Finset.mem_Ico]
      constructor
      · rintro ⟨hb, hm⟩
        have := (middleLeast_iff h1 h2 hb).mp hm
        omega
      · intro hb
        refine ⟨by omega, (middleLeast_iff h1 h2 (by omega)).mpr (by omega)⟩
    rw [e, Nat.card_Ico]
    omega
  rw [Finset.sum_congr rfl h, Finset.sum_Ico_eq_sum_range, show 2 * k + 1 - 1 = k + k by omega, Finset.sum_range_add]
  have e1 : ∑ i ∈ Finset.range k, min (1 + i) (2 * k + 1 - (1 + i)) = ∑ i ∈ Finset.range k, (i + 1) := by
    refine Finset.sum_congr rfl fun i hi => ?_
    have := Finset.mem_range.mp hi
    omega
  have e2 : ∑ i ∈ Finset.range k, min (1 + (k + i)) (2 * k + 1 - (1 + (k + i))) = ∑ i ∈ Finset.range k, (k - i) := by
    refine Finset.sum_congr rfl fun i hi => ?_
    have := Finset.mem_range.mp hi
    omega
  rw [e1, e2, sum_down, ← two_mul, sum_up]

theorem firstLeast_card (k : Nat) :
    2 * (Finset.univ.filter fun c : Coeff (2 * k + 1) => firstLeast (2 * k + 1) (c.1.val + 1) c.2.val).card =
      k * (3 * k + 1) := by
  rw [card_coeff]
  have h : ∀ a ∈ Finset.Ico 1 (2 * k + 1), ((Finset.range (2 * k + 1)).filter (firstLeast (2 * k + 1) a)).card =
      if 2 * a < 2 * k + 1 then 2 * k + 1 - 2 * a else 2 * k + 1 - a := by
    intro a ha
    obtain ⟨h1, h2⟩ := Finset.mem_Ico.mp ha
    have e : (Finset.range (2 * k + 1)).filter (firstLeast (2 * k + 1) a) =
        Finset.range (if 2 * a < 2 * k + 1 then 2 * k + 1 - 2 * a else 2 * k + 1 - a) := by
      ext b
      rw [Finset.mem_filter, Finset.mem_range, Finset.mem_range]
      constructor
      · rintro ⟨hb, hm⟩
        exact (firstLeast_iff h1 h2 hb).mp hm
      · intro hb
        have hb' : b < 2 * k + 1 := by split at hb <;> omega
        exact ⟨hb', (firstLeast_iff h1 h2 hb').mpr hb⟩
    rw [e, Finset.card_range]
  rw [Finset.sum_congr rfl h, Finset.sum_Ico_eq_sum_range, show 2 * k + 1 - 1 = k + k by omega, Finset.sum_range_add]
  have e1 : ∑ i ∈ Finset.range k, (if 2 * (1 + i) < 2 * k + 1 then 2 * k + 1 - 2 * (1 + i) else 2 * k + 1 - (1 + i)) =
      ∑ i ∈ Finset.range k, (2 * k - 1 - 2 * i) := by
    refine Finset.sum_congr rfl fun i hi => ?_
    have := Finset.mem_range.mp hi
    rw [if_pos (by omega)]
    omega
  have e2 : ∑ i ∈ Finset.range k, (if 2 * (1 + (k + i)) < 2 * k + 1 then 2 * k + 1 - 2 * (1 + (k + i))
      else 2 * k + 1 - (1 + (k + i))) = ∑ i ∈ Finset.range k, (k - i) := by
    refine Finset.sum_congr rfl fun i hi => ?_
    have := Finset.mem_range.mp hi
    rw [if_neg (by omega)]
    omega
  rw [e1, e2, sum_down, sum_odd, Nat.mul_add, sum_up]
  ring

theorem middleLeast_proportion {p : Nat} (hp : 1 < p) (hodd : p % 2 = 1) :
    proportion (fun c : Coeff p => middleLeast p (c.1.val + 1) c.2.val) = ((p : ℝ) + 1) / (4 * p) := by
  obtain ⟨k, rfl⟩ : ∃ k, p = 2 * k + 1 := ⟨p / 2, by omega⟩
  rw [proportion_eq, middleLeast_card, card_coeff_all hp]
  have hk : (0 : ℝ) < k := by exact_mod_cast (by omega : 0 < k)
  push_cast
  field_simp
  ring

theorem firstLeast_proportion {p : Nat} (hp : 1 < p) (hodd : p % 2 = 1) :
    proportion (fun c : Coeff p => firstLeast p (c.1.val + 1) c.2.val) = (3 * (p : ℝ) - 1) / (8 * p) := by
  obtain ⟨k, rfl⟩ : ∃ k, p = 2 * k + 1 := ⟨p / 2, by omega⟩
  have h := firstLeast_card k
  have h' : ((Finset.univ.filter fun c : Coeff (2 * k + 1) =>
      firstLeast (2 * k + 1) (c.1.val + 1) c.2.val).card : ℝ) = k * (3 * k + 1) / 2 := by
    have : (2 : ℝ) * (Finset.univ.filter fun c : Coeff (2 * k + 1) =>
      firstLeast (2 * k + 1) (c.1.val + 1) c.2.val).card = k * (3 * k + 1) := by exact_mod_cast h
    linarith
  rw [proportion_eq, h', card_coeff_all hp]
  have hk : (0 : ℝ) < k := by exact_mod_cast (by omega : 0 < k)
  push_cast
  field_simp
  ring

/-! ### Means -/

/-- The mean of the share of components at which an event happens. -/
theorem mean_share {P : Type} [Fintype P] (hP : 0 < Fintype.card P) {n : Nat} (hn : 0 < n) (E : P → Prop)
    [DecidablePred E] :
    meanValue (fun π : Fin n → P => ((Finset.univ.filter fun i => E (π i)).card : ℝ) / n) = proportion E := by
  classical
  have hn' : (n : ℝ) ≠ 0 := by exact_mod_cast hn.ne'
  have h1 : ∀ i : Fin n, (∑ π : Fin n → P, if E (π i) then (1 : ℝ) else 0) =
      proportion E * Fintype.card (Fin n → P) := by
    intro i
    have hcard : (0 : ℝ) < Fintype.card (Fin n → P) := by
      rw [Fintype.card_fun]
      exact_mod_cast Nat.pow_pos hP
    rw [← proportion_entry n i E hP, proportion_eq, div_mul_cancel₀ _ hcard.ne', Finset.card_filter]
    push_cast
    rfl
  have hcard : (0 : ℝ) < Fintype.card (Fin n → P) := by
    rw [Fintype.card_fun]
    exact_mod_cast Nat.pow_pos hP
  unfold meanValue
  rw [← Finset.sum_div]
  have h2 : (∑ π : Fin n → P, ((Finset.univ.filter fun i => E (π i)).card : ℝ)) =
      n * (proportion E * Fintype.card (Fin n → P)) := by
    have : ∀ π : Fin n → P, ((Finset.univ.filter fun i => E (π i)).card : ℝ) =
        ∑ i : Fin n, if E (π i) then (1 : ℝ) else 0 := by
      intro π
      rw [Finset.card_filter]
      push_cast
      rfl
    simp_rw [this]
    rw [Finset.sum_comm, Finset.sum_congr rfl fun i _ => h1 i, Finset.sum_const, Finset.card_univ, Fintype.card_fin,
      nsmul_eq_mul]
  rw [h2]
  field_simp

/-! ### The hashers -/

variable {Tok : Type}

/-- Two minima are equal if the minimum over three tokens is the value of the one. -/
theorem one_of_three {F : Tok → Nat} {t t1 t2 t3 : Tok} (ht : t ∈ [t1, t2, t3]) {x y : Nat} (hx : x = F t)
    (hy : ∃ u ∈ [t1, t2, t3], y = F u) (hy' : ∀ u ∈ [t1, t2, t3], y ≤ F u) :
    x = y ↔ ∀ u ∈ [t1, t2, t3], F t ≤ F u := by
  obtain ⟨u, hu, e⟩ := hy
  constructor
  · intro h v hv
    rw [← hx, h]
    exact hy' v hv
  · intro h
    have h1 := h u hu
    have h2 := hy' t ht
    omega

theorem component64_three (hash : Tok → UInt64) {t t0 t1 t2 : Tok} (ht : t ∈ [t0, t1, t2]) (h0 : hash t0 = 0)
    (h1 : hash t1 = 1) (h2 : hash t2 = 2) (c : Coeff (2 ^ 61 - 1)) :
    comp64 hash [t] (UInt64.ofNat (c.1.val + 1), UInt64.ofNat c.2.val) =
      comp64 hash [t0, t1, t2] (UInt64.ofNat (c.1.val + 1), UInt64.ofNat c.2.val) ↔
    ∀ i < 3, ((hash t).toNat * (c.1.val + 1) + c.2.val) % (2 ^ 61 - 1) ≤ (i * (c.1.val + 1) + c.2.val) % (2 ^ 61 - 1) := by
  have hc1 := c.1.isLt
  have hc2 := c.2.isLt
  have hH : ∀ u ∈ [t0, t1, t2], (affine64 (UInt64.ofNat (c.1.val + 1)) (UInt64.ofNat c.2.val) (hash u)).toNat =
      ((hash u).toNat * (c.1.val + 1) + c.2.val) % (2 ^ 61 - 1) := by
    intro u hu
    have hle : (hash u).toNat ≤ 2 := by
      simp only [List.mem_cons, List.not_mem_nil, or_false] at hu
      rcases hu with rfl | rfl | rfl
      · rw [h0]; decide
      · rw [h1]; decide
      · rw [h2]; decide
    rw [affine64_toNat, (coeff64_toNat c).1, (coeff64_toNat c).2]
    unfold affineNat
    rw [show mersenne61 = 2 ^ 61 - 1 from rfl, Nat.mod_eq_of_lt (a := (hash u).toNat * (c.1.val + 1) + c.2.val)]
    have := Nat.mul_le_mul_right (c.1.val + 1) hle
    omega
  obtain ⟨⟨u, hu, e1⟩, _⟩ := comp64_spec hash (List.cons_ne_nil t []) (UInt64.ofNat (c.1.val + 1), UInt64.ofNat c.2.val)
  rw [List.mem_singleton.mp hu] at e1
  obtain ⟨⟨v, hv, e2⟩, e3⟩ := comp64_spec hash (List.cons_ne_nil t0 [t1, t2])
    (UInt64.ofNat (c.1.val + 1), UInt64.ofNat c.2.val)
  rw [← UInt64.toNat_inj]
  rw [one_of_three (F := fun u => (affine64 (UInt64.ofNat (c.1.val + 1)) (UInt64.ofNat c.2.val) (hash u)).toNat) ht
    (congrArg UInt64.toNat e1) ⟨v, hv, congrArg UInt64.toNat e2⟩ (fun u hu => e3 u hu)]
  constructor
  · intro h i hi
    rw [← hH t ht]
    have : i = 0 ∨ i = 1 ∨ i = 2 := by omega
    rcases this with rfl | rfl | rfl
    · have := h t0 (by simp); rwa [hH t0 (by simp), h0] at this
    · have := h t1 (by simp); rwa [hH t1 (by simp), h1] at this
    · have := h t2 (by simp); rwa [hH t2 (by simp), h2] at this
  · intro h u hu
    have hu' := hu
    simp only [List.mem_cons, List.not_mem_nil, or_false] at hu
    rw [hH t ht, hH u hu']
    rcases hu with rfl | rfl | rfl
    · rw [h0]; exact h 0 (by omega)
    · rw [h1]; exact h 1 (by omega)
    · rw [h2]; exact h 2 (by omega)

/-- C120 for MinHasher64V1: three tokens with the hashes 0, 1, 2. The Jaccard similarity of the one in the middle and all
three is 1/3, but if the coefficients are drawn uniformly the mean of the share of agreeing components is 1/4 (and
1/(4(2^61 - 1)) more), however many components there are. -/
theorem C120_below_64 {n : Nat} (hn : 0 < n) (hash : Tok → UInt64) (seed : UInt64)
    (g : (Fin n → Coeff (2 ^ 61 - 1)) → Rng) (hg : ∀ ω, Draws (2 ^ 61 - 1) n (g ω) seed ω) (t0 t1 t2 : Tok)
    (h0 : hash t0 = 0) (h1 : hash t1 = 1) (h2 : hash t2 = 2) :
    ∃ sig : (Fin n → Coeff (2 ^ 61 - 1)) → List Tok → List UInt64,
      (∀ ω l, (MinHasher64.newWithHasherAndSeed (g ω) n hash seed).createSignature l = .ok (sig ω l)) ∧
      meanValue (fun ω => (agree (sig ω [t1]) (sig ω [t0, t1, t2]) : ℝ) / n) = 2 ^ 59 / (2 ^ 61 - 1) := by
  choose sig hsig _ using fun ω l => sig64_length (g ω) n hash seed l
  refine ⟨sig, hsig, ?_⟩
  have e : ∀ ω, agree (sig ω [t1]) (sig ω [t0, t1, t2]) = (Finset.univ.filter fun i =>
      middleLeast (2 ^ 61 - 1) ((ω i).1.val + 1) (ω i).2.val).card := by
    intro ω
    have e1 := Except.ok.inj ((hsig ω [t1]).symm.trans (draws_sig64 (hg ω) hash (List.cons_ne_nil t1 [])))
    have e2 := Except.ok.inj ((hsig ω [t0, t1, t2]).symm.trans (draws_sig64 (hg ω) hash (List.cons_ne_nil t0 [t1, t2])))
    rw [e1, e2, agree_ofFn]
    congr 1
    refine Finset.filter_congr fun i _ => ?_
    rw [component64_three hash (by simp) h0 h1 h2]
    unfold middleLeast
    have hlt := (ω i).2.isLt
    rw [h1, show (1 : UInt64).toNat = 1 from rfl, one_mul]
    constructor
    · intro h
      refine ⟨?_, h 2 (by omega)⟩
      have := h 0 (by omega)
      rwa [zero_mul, zero_add, Nat.mod_eq_of_lt hlt] at this
    · rintro ⟨h3, h4⟩ j hj
      have : j = 0 ∨ j = 1 ∨ j = 2 := by omega
      rcases this with rfl | rfl | rfl
      · rwa [zero_mul, zero_add, Nat.mod_eq_of_lt hlt]
      · rw [one_mul]
      · exact h4
  simp only [e]
  rw [mean_share (coeff_pos (by norm_num)) hn (fun c : Coeff (2 ^ 61 - 1) => middleLeast (2 ^ 61 - 1) (c.1.val + 1) c.2.val),
    middleLeast_proportion (by norm_num) (by norm_num)]
  norm_num

/-- C120 for MinHasher64V1, the other direction: for the first of the three tokens the mean is 3/8 (up to
1/(8(2^61 - 1))), again instead of 1/3. -/
theorem C120_above_64 {n : Nat} (hn : 0 < n) (hash : Tok → UInt64) (seed : UInt64)
    (g : (Fin n → Coeff (2 ^ 61 - 1)) → Rng) (hg : ∀ ω, Draws (2 ^ 61 - 1) n (g ω) seed ω) (t0 t1 t2 : Tok)
    (h0 : hash t0 = 0) (h1 : hash t1 = 1) (h2 : hash t2 = 2) :
    ∃ sig : (Fin n → Coeff (2 ^ 61 - 1)) → List Tok → List UInt64,
      (∀ ω l, (MinHasher64.newWithHasherAndSeed (g ω) n hash seed).createSignature l = .ok (sig ω l)) ∧
      meanValue (fun ω => (agree (sig ω [t0]) (sig ω [t0, t1, t2]) : ℝ) / n) =
        3 / 8 - 1 / (8 * (2 ^ 61 - 1)) := by
  choose sig hsig _ using fun ω l => sig64_length (g ω) n hash seed l
  refine ⟨sig, hsig, ?_⟩
  have e : ∀ ω, agree (sig ω [t0]) (sig ω [t0, t1, t2]) = (Finset.univ.filter fun i =>
      firstLeast (2 ^ 61 - 1) ((ω i).1.val + 1) (ω i).2.val).card := by
    intro ω
    have e1 := Except.ok.inj ((hsig ω [t0]).symm.trans (draws_sig64 (hg ω) hash (List.cons_ne_nil t0 [])))
    have e2 := Except.ok.inj ((hsig ω [t0, t1, t2]).symm.trans (draws_sig64 (hg ω) hash (List.cons_ne_nil t0 [t1, t2])))
    rw [e1, e2, agree_ofFn]
    congr 1
    refine Finset.filter_congr fun i _ => ?_
    rw [component64_three hash (by simp) h0 h1 h2]
    unfold firstLeast
    have hlt := (ω i).2.isLt
    rw [h0, show (0 : UInt64).toNat = 0 from rfl, zero_mul, zero_add, Nat.mod_eq_of_lt hlt]
    constructor
    · intro h
      refine ⟨?_, h 2 (by omega)⟩
      have := h 1 (by omega)
      rwa [one_mul] at this
    · rintro ⟨h3, h4⟩ j hj
      have : j = 0 ∨ j = 1 ∨ j = 2 := by omega
      rcases this with rfl | rfl | rfl
      · rw [zero_mul, zero_add, Nat.mod_eq_of_lt hlt]
      · rwa [one_mul]
      · exact h4
  simp only [e]
  rw [mean_share (coeff_pos (by norm_num)) hn (fun c : Coeff (2 ^ 61 - 1) => firstLeast (2 ^ 61 - 1) (c.1.val + 1) c.2.val),
    firstLeast_proportion (by norm_num) (by norm_num)]
  norm_num

/-- At most this often for the narrower family: the third value may wrap around, but only downwards. -/
theorem component32_three (hash : Tok → UInt64) {t0 t1 t2 : Tok} (h0 : hash t0 = 0)
    (h1 : hash t1 = 1) (h2 : hash t2 = 2) (c : Coeff (2 ^ 31 - 1))
    (h : comp32 hash [t1] (UInt32.ofNat (c.1.val + 1), UInt32.ofNat c.2.val) =
      comp32 hash [t0, t1, t2] (UInt32.ofNat (c.1.val + 1), UInt32.ofNat c.2.val)) :
    middleLeast (2 ^ 31 - 1) (c.1.val + 1) c.2.val := by
  have hc1 := c.1.isLt
  have hc2 := c.2.isLt
  obtain ⟨_, e3⟩ := comp32_spec hash (List.cons_ne_nil t0 [t1, t2])
    (UInt32.ofNat (c.1.val + 1), UInt32.ofNat c.2.val)
  obtain ⟨⟨u, hu, e1⟩, _⟩ := comp32_spec hash (List.cons_ne_nil t1 []) (UInt32.ofNat (c.1.val + 1), UInt32.ofNat c.2.val)
  rw [List.mem_singleton.mp hu] at e1
  rw [← h, e1] at e3
  have e30 := e3 t0 (by simp)
  have e32 := e3 t2 (by simp)
  rw [affine32_toNat, affine32_toNat, (coeff32_toNat c).1, (coeff32_toNat c).2] at e30 e32
  rw [h1, h0, show (UInt64.toUInt32 1).toNat = 1 from rfl, show (UInt64.toUInt32 0).toNat = 0 from rfl] at e30
  rw [h1, h2, show (UInt64.toUInt32 1).toNat = 1 from rfl, show (UInt64.toUInt32 2).toNat = 2 from rfl] at e32
  unfold affineNat at e30 e32
  rw [show mersenne31 = 2 ^ 31 - 1 from rfl, one_mul] at e30 e32
  rw [zero_mul, zero_add] at e30
  have w1 : (c.1.val + 1 + c.2.val) % 2 ^ 32 = c.1.val + 1 + c.2.val := Nat.mod_eq_of_lt (by omega)
  have w2 : (2 * (c.1.val + 1) + c.2.val) % 2 ^ 32 % (2 ^ 31 - 1) ≤ (2 * (c.1.val + 1) + c.2.val) % (2 ^ 31 - 1) := by
    have hb : 2 * (c.1.val + 1) + c.2.val < 3 * (2 ^ 31 - 1) := by omega
    generalize 2 * (c.1.val + 1) + c.2.val = x at *
    by_cases hx : x < 2 ^ 32
    · rw [Nat.mod_eq_of_lt hx]
    · have e1 : x % 2 ^ 32 = x - 2 ^ 32 := by omega
      have e2 : x % (2 ^ 31 - 1) = x - 2 * (2 ^ 31 - 1) := by omega
      rw [e1, e2]
      exact (Nat.mod_le _ _).trans (by omega)
  rw [w1] at e30 e32
  rw [Nat.mod_eq_of_lt (a := c.2.val) (by omega), Nat.mod_eq_of_lt (a := c.2.val) (by omega)] at e30
  exact ⟨e30, e32.trans w2⟩

/-- C120 for MinHasher32: for the same tokens the mean is at most 1/4 (and 1/(4(2^31 - 1)) more). -/
theorem C120_below_32 {n : Nat} (hn : 0 < n) (hash : Tok → UInt64) (seed : UInt64)
    (g : (Fin n → Coeff (2 ^ 31 - 1)) → Rng) (hg : ∀ ω, Draws (2 ^ 31 - 1) n (g ω) seed ω) (t0 t1 t2 : Tok)
    (h0 : hash t0 = 0) (h1 : hash t1 = 1) (h2 : hash t2 = 2) :
    ∃ sig : (Fin n → Coeff (2 ^ 31 - 1)) → List Tok → List UInt32,
      (∀ ω l, (MinHasherN.newWithHasherAndSeed (g ω) n hash seed).sig32 l = .ok (sig ω l)) ∧
      meanValue (fun ω => (agree (sig ω [t1]) (sig ω [t0, t1, t2]) : ℝ) / n) ≤ 2 ^ 29 / (2 ^ 31 - 1) := by
  choose sig hsig _ using fun ω l => sigN_length (fun h => h) 0 (g ω) n hash seed l
  refine ⟨sig, hsig, ?_⟩
  have e : ∀ ω, agree (sig ω [t1]) (sig ω [t0, t1, t2]) ≤ (Finset.univ.filter fun i =>
      middleLeast (2 ^ 31 - 1) ((ω i).1.val + 1) (ω i).2.val).card := by
    intro ω
    have e1 := Except.ok.inj ((hsig ω [t1]).symm.trans (draws_sig32 (hg ω) hash (List.cons_ne_nil t1 [])))
    have e2 := Except.ok.inj ((hsig ω [t0, t1, t2]).symm.trans (draws_sig32 (hg ω) hash (List.cons_ne_nil t0 [t1, t2])))
    rw [e1, e2, agree_ofFn]
    refine Finset.card_le_card fun i hi => ?_
    rw [Finset.mem_filter] at hi ⊢
    exact ⟨hi.1, component32_three hash h0 h1 h2 _ hi.2⟩
  refine (meanValue_mono (g := fun ω => ((Finset.univ.filter fun i =>
      middleLeast (2 ^ 31 - 1) ((ω i).1.val + 1) (ω i).2.val).card : ℝ) / n) fun ω => ?_).trans (le_of_eq ?_)
  · exact div_le_div_of_nonneg_right (by exact_mod_cast e ω) (Nat.cast_nonneg n)
  · rw [mean_share (coeff_pos (by norm_num)) hn (fun c : Coeff (2 ^ 31 - 1) => middleLeast (2 ^ 31 - 1) (c.1.val + 1) c.2.val),
      middleLeast_proportion (by norm_num) (by norm_num)]
    norm_num

/-- The hypotheses are met, and the similarity is 1/3. -/
theorem third : jaccard [(1 : Fin 3)] [0, 1, 2] = 1 / 3 := by
  unfold jaccard
  rw [show ([1].toFinset ∩ [0, 1, 2].toFinset : Finset (Fin 3)).card = 1 by decide,
    show ([1].toFinset ∪ [0, 1, 2].toFinset : Finset (Fin 3)).card = 3 by decide]
  norm_num

/-- C120: it is not true that, with uniformly drawn coefficients, the mean of the share of agreeing components is the
Jaccard similarity, even if no two tokens have the same hash. -/
theorem C120_unbiased_false : ¬ ∀ (hash : Fin 3 → UInt64) (seed : UInt64) (n : Nat)
    (g : (Fin n → Coeff (2 ^ 61 - 1)) → Rng) (A B : List (Fin 3)) (sig : (Fin n → Coeff (2 ^ 61 - 1)) → List (Fin 3) →
      List UInt64),
    Function.Injective hash → 0 < n → (∀ ω, Draws (2 ^ 61 - 1) n (g ω) seed ω) → A ≠ [] → B ≠ [] →
    (∀ ω l, (MinHasher64.newWithHasherAndSeed (g ω) n hash seed).createSignature l = .ok (sig ω l)) →
    meanValue (fun ω => (agree (sig ω A) (sig ω B) : ℝ) / n) = jaccard A B := by
  intro h
  choose g hg using (C110_generators (2 ^ 61 - 1) 128 (by norm_num) 3).1
  obtain ⟨sig, hsig, hm⟩ := C120_below_64 (n := 128) (by norm_num) (fun t : Fin 3 => UInt64.ofNat t.val) 3 g hg 0 1 2
    rfl rfl rfl
  have h1 := h (fun t : Fin 3 => UInt64.ofNat t.val) 3 128 g [1] [0, 1, 2] sig (by decide) (by norm_num) hg (by simp)
    (by simp) hsig
  rw [hm, third] at h1
  norm_num at h1

/-! ### What remains true -/

/-- If no two of the tokens agree anywhere, exactly one of them is the least at each component. -/
theorem singles_sum [DecidableEq Tok] {V : Type} [DecidableEq V] {val : V → Nat} (hval : Function.Injective val) {n : Nat}
    {F : Nat → Tok → Nat} {sig : List Tok → List V} (hsig : ∀ l, l ≠ [] → IsMinima val n F l (sig l)) {T : List Tok}
    (hT : T ≠ []) (hsep : ∀ t ∈ T, ∀ u ∈ T, t ≠ u → agree (sig [t]) (sig [u]) = 0) :
    ∑ t ∈ T.toFinset, agree (sig [t]) (sig T) = n := by
  have hone : ∀ t i, i < n → ∃ x, (sig [t])[i]? = some x ∧ val x = F i t := by
    intro t i hi
    obtain ⟨x, hx, ⟨u, hu, e⟩, _⟩ := (hsig [t] (by simp)).comp i hi
    rw [List.mem_singleton.mp hu] at e
    exact ⟨x, hx, e⟩
  have h1 : ∀ t ∈ T.toFinset, agree (sig [t]) (sig T) =
      ∑ i ∈ Finset.range n, if (sig [t])[i]? = (sig T)[i]? then 1 else 0 := by
    intro t _
    unfold agree
    rw [(hsig [t] (by simp)).length, Finset.card_filter]
  rw [Finset.sum_congr rfl h1, Finset.sum_comm, Finset.sum_congr rfl (g := fun _ => 1), Finset.sum_const,
    Finset.card_range, smul_eq_mul, mul_one]
  intro i hi
  have hi := Finset.mem_range.mp hi
  rw [← Finset.card_filter, Finset.card_eq_one]
  obtain ⟨y, hy, ⟨t, ht, e⟩, _⟩ := (hsig T hT).comp i hi
  refine ⟨t, Finset.ext fun u => ?_⟩
  rw [Finset.mem_filter, Finset.mem_singleton, List.mem_toFinset]
  obtain ⟨x, hx, ex⟩ := hone t i hi
  have hty : (sig [t])[i]? = (sig T)[i]? := by
    rw [hx, hy, Option.some_inj]
    exact hval (ex.trans e.symm)
  constructor
  · rintro ⟨hu, hut⟩
    by_contra hne
    have h0 := hsep u hu t ht hne
    unfold agree at h0
    rw [Finset.card_eq_zero, Finset.filter_eq_empty_iff] at h0
    refine h0 (x := i) (by rw [(hsig [u] (by simp)).length]; exact Finset.mem_range.mpr hi) ?_
    rw [hut, hty]
  · rintro rfl
    exact ⟨ht, hty⟩

/-- C120, what remains (1): whatever the coefficients are, if no two tokens of `T` agree anywhere, the shares of
components at which the single tokens of `T` agree with `T` sum to 1, as their Jaccard similarities `1/|T|` do: the
deviations cancel over the tokens. Missing: for one token they do not vanish (`C120_below_64`). -/
theorem C120_average_64_partial [DecidableEq Tok] (g : Rng) (n : Nat) (hash : Tok → UInt64) (seed : UInt64) (T : List Tok)
    (hT : T ≠ []) : ∃ sig : List Tok → List UInt64,
      (∀ l, (MinHasher64.newWithHasherAndSeed g n hash seed).createSignature l = .ok (sig l)) ∧
      ((∀ t ∈ T, ∀ u ∈ T, t ≠ u → agree (sig [t]) (sig [u]) = 0) → ∑ t ∈ T.toFinset, agree (sig [t]) (sig T) = n) := by
  obtain ⟨F, hF⟩ := sig64_isMinima g n hash seed
  choose! sig hsig _ using sig64_length g n hash seed
  refine ⟨sig, hsig, singles_sum (fun x y h => UInt64.toNat_inj.mp h) (F := fun i t => F i (hash t)) ?_ hT⟩
  intro l hl
  obtain ⟨s, h1, h2⟩ := hF hash l hl
  rw [Except.ok.inj ((hsig l).symm.trans h1)]
  exact h2

/-- C120, what remains, for MinHasher32. -/
theorem C120_average_32_partial [DecidableEq Tok] (g : Rng) (n : Nat) (hash : Tok → UInt64) (seed : UInt64) (T : List Tok)
    (hT : T ≠ []) : ∃ sig : List Tok → List UInt32,
      (∀ l, (MinHasherN.newWithHasherAndSeed g n hash seed).sig32 l = .ok (sig l)) ∧
      ((∀ t ∈ T, ∀ u ∈ T, t ≠ u → agree (sig [t]) (sig [u]) = 0) → ∑ t ∈ T.toFinset, agree (sig [t]) (sig T) = n) := by
  obtain ⟨F, hF⟩ := sig32_isMinima g n hash seed
  choose sig hsig _ using fun l => sigN_length (fun h => h) 0 g n hash seed l
  refine ⟨sig, hsig, singles_sum (fun x y h => UInt32.toNat_inj.mp h) (F := fun i t => F i (hash t)) ?_ hT⟩
  intro l hl
  obtain ⟨s, h1, h2⟩ := hF hash l hl
  rw [Except.ok.inj ((hsig l).symm.trans h1)]
  exact h2

/-- The hypotheses of the mean theorems are met by the identity hash of 0, 1, 2 and generators for all coefficients. -/
example : ∃ g : (Fin 128 → Coeff (2 ^ 61 - 1)) → Rng, (∀ ω, Draws (2 ^ 61 - 1) 128 (g ω) 3 ω) ∧
    (fun t : Fin 3 => UInt64.ofNat t.val) 0 = 0 ∧ (fun t : Fin 3 => UInt64.ofNat t.val) 1 = 1 ∧
    (fun t : Fin 3 => UInt64.ofNat t.val) 2 = 2 ∧ jaccard [(1 : Fin 3)] [0, 1, 2] = 1 / 3 := by
  choose g hg using (C110_generators (2 ^ 61 - 1) 128 (by norm_num) 3).1
  exact ⟨g, hg, rfl, rfl, rfl, third⟩

/-- Likewise for the 31-bit modulus. -/
example : ∃ g : (Fin 128 → Coeff (2 ^ 31 - 1)) → Rng, ∀ ω, Draws (2 ^ 31 - 1) 128 (g ω) 3 ω := by
  choose g hg using (C110_generators (2 ^ 31 - 1) 128 (by norm_num) 3).1
  exact ⟨g, hg⟩

/-- Four tokens that agree nowhere, and the shares for three components: they sum to 3. -/
example :
    let m := MinHasher64.newWithHasherAndSeed exRng 3 (fun t : Fin 4 => UInt64.ofNat (t.val * 0x9E3779B97F4A7C15)) 5
    let s := fun l => (m.createSignature l).toOption.getD []
    (∀ t u : Fin 4, t ≠ u → agree (s [t]) (s [u]) = 0) ∧
      (agree (s [0]) (s [0, 1, 2, 3]) + agree (s [1]) (s [0, 1, 2, 3]) + agree (s [2]) (s [0, 1, 2, 3]) +
        agree (s [3]) (s [0, 1, 2, 3]) = 3) := by decide +kernel

end Verif.Props
