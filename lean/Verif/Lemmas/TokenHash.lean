import Verif.Model.TokenHash
import Verif.Lemmas.Text
import Mathlib.Tactic.Ring
import Mathlib.Tactic.Linarith
import Mathlib.Data.Nat.Bitwise
import Mathlib.Data.Nat.ModEq
import Mathlib.Data.Int.GCD

/-! # FNV, and the bytes of features -/
namespace Verif

/-- One step on the low 32 bits. -/
def step32 (h : Nat) (b : UInt8) : Nat := ((h ^^^ b.toNat) * 435) % 2 ^ 32

theorem fnvStep_low (h : UInt64) (b : UInt8) : (fnvStep h b).toNat % 2 ^ 32 = step32 (h.toNat % 2 ^ 32) b := by
  unfold fnvStep step32
  rw [UInt64.toNat_mul, UInt64.toNat_xor, Nat.mod_mod_of_dvd _ (by norm_num : 2 ^ 32 ∣ 2 ^ 64)]
  have h1 : (b.toUInt64).toNat = b.toNat := by simp
  rw [h1, Nat.mul_mod, Nat.xor_mod_two_pow]
  have h2 : b.toNat % 2 ^ 32 = b.toNat := Nat.mod_eq_of_lt (lt_trans b.toNat_lt (by norm_num))
  have h3 : (0x100000001b3 : UInt64).toNat % 2 ^ 32 = 435 := by decide
  rw [h2, h3]

theorem fnv_low (bytes : List UInt8) (h : UInt64) :
    (bytes.foldl fnvStep h).toNat % 2 ^ 32 = bytes.foldl step32 (h.toNat % 2 ^ 32) := by
  induction bytes generalizing h with
  | nil => rfl
  | cons b bs ih => rw [List.foldl_cons, List.foldl_cons, ih, fnvStep_low]

/-- Xor with a byte changes only the last byte. -/
theorem xor_byte (u : Nat) (b : UInt8) : ∃ t, t < 256 ∧ u ^^^ b.toNat = 256 * (u / 256) + t := by
  refine ⟨(u ^^^ b.toNat) % 256, Nat.mod_lt _ (by norm_num), ?_⟩
  have h : (u ^^^ b.toNat) / 256 = u / 256 := by
    have := Nat.xor_div_two_pow (a := u) (b := b.toNat) (n := 8)
    rw [show (2 : Nat) ^ 8 = 256 from rfl] at this
    rw [this, Nat.div_eq_of_lt b.toNat_lt, Nat.xor_zero]
  omega

theorem mul435 {s s' : Nat} (hs : s < 2 ^ 32) (hs' : s' < 2 ^ 32) (h : s * 435 % 2 ^ 32 = s' * 435 % 2 ^ 32) : s = s' := by
  have : Nat.ModEq (2 ^ 32) (s * 435) (s' * 435) := h
  have := Nat.ModEq.cancel_right_of_coprime (by decide : Nat.gcd (2 ^ 32) 435 = 1) this
  unfold Nat.ModEq at this
  rwa [Nat.mod_eq_of_lt hs, Nat.mod_eq_of_lt hs'] at this

theorem xor_lt32 {u : Nat} (h : u < 2 ^ 32) (b : UInt8) : u ^^^ b.toNat < 2 ^ 32 :=
  Nat.xor_lt_two_pow h (lt_trans b.toNat_lt (by norm_num))

theorem step32_lt (h : Nat) (b : UInt8) : step32 h b < 2 ^ 32 := Nat.mod_lt _ (by norm_num)

theorem step32_inj {h h' : Nat} (hh : h < 2 ^ 32) (hh' : h' < 2 ^ 32) (b : UInt8) (e : step32 h b = step32 h' b) : h = h' := by
  have := mul435 (xor_lt32 hh b) (xor_lt32 hh' b) e
  have h2 := congrArg (· ^^^ b.toNat) this
  simpa [Nat.xor_assoc] using h2

theorem fold32_inj {h h' : Nat} (hh : h < 2 ^ 32) (hh' : h' < 2 ^ 32) (bs : List UInt8)
    (e : bs.foldl step32 h = bs.foldl step32 h') : h = h' := by
  induction bs generalizing h h' with
  | nil => exact e
  | cons b bs ih => exact step32_inj hh hh' b (ih (step32_lt _ _) (step32_lt _ _) e)

/-- The steps from a state to which the first byte is already applied. -/
def run32 : Nat → List UInt8 → Nat
  | s, [] => s * 435 % 2 ^ 32
  | s, x :: xs => run32 (s * 435 % 2 ^ 32 ^^^ x.toNat) xs

theorem fold_run32 (h : Nat) (x : UInt8) (xs : List UInt8) :
    (x :: xs).foldl step32 h = run32 (h ^^^ x.toNat) xs := by
  induction xs generalizing h x with
  | nil => rfl
  | cons y ys ih =>
    rw [List.foldl_cons, ih]
    rfl

theorem run32_inj (xs ys : List UInt8) (s s' : Nat) (D k : Int) (G : Nat) (hl : xs.length = ys.length) (hs : s < 2 ^ 32)
    (hs' : s' < 2 ^ 32) (hD : (s : Int) - s' = D + k * 2 ^ 32) (hD1 : -(G : Int) ≤ D) (hD2 : D ≤ G)
    (hG : 435 ^ xs.length * (G + 2) ≤ 2 ^ 32) (e : run32 s xs = run32 s' ys) : s = s' ∧ xs = ys := by
  induction xs generalizing ys s s' D k G with
  | nil =>
    cases ys with
    | nil => exact ⟨mul435 hs hs' e, rfl⟩
    | cons y ys => simp at hl
  | cons x xs ih =>
    cases ys with
    | nil => simp at hl
    | cons y ys =>
      simp only [run32] at e
      simp only [List.length_cons, Nat.add_right_cancel_iff, pow_succ] at hl hG
      obtain ⟨t, ht, ex⟩ := xor_byte (s * 435 % 2 ^ 32) x
      obtain ⟨t', ht', ey⟩ := xor_byte (s' * 435 % 2 ^ 32) y
      have hw : s * 435 % 2 ^ 32 < 2 ^ 32 := Nat.mod_lt _ (by norm_num)
      have hw' : s' * 435 % 2 ^ 32 < 2 ^ 32 := Nat.mod_lt _ (by norm_num)
      have hG1 : 435 * (G + 2) ≤ 2 ^ 32 := by
        refine le_trans ?_ hG
        have := Nat.one_le_pow xs.length 435 (by norm_num)
        nlinarith
      -- the gap of the next states
      obtain ⟨q, hq⟩ : ∃ q : Int, ((s * 435 % 2 ^ 32 : Nat) : Int) - ((s' * 435 % 2 ^ 32 : Nat) : Int) = 435 * D + q * 2 ^ 32 := by
        refine ⟨435 * k - (s * 435 / 2 ^ 32 : Nat) + (s' * 435 / 2 ^ 32 : Nat), ?_⟩
        push_cast
        omega
      have hx := xor_lt32 hw x
      have hy := xor_lt32 hw' y
      obtain ⟨W, hW⟩ : ∃ W, s * 435 % 2 ^ 32 = W := ⟨_, rfl⟩
      obtain ⟨W', hW'⟩ : ∃ W', s' * 435 % 2 ^ 32 = W' := ⟨_, rfl⟩
      rw [hW] at e ex hw hq hx
      rw [hW'] at e ey hw' hq hy
      obtain ⟨h1, h2⟩ := ih ys _ _ (((W ^^^ x.toNat : Nat) : Int) - (W' ^^^ y.toNat : Nat) - q * 2 ^ 32) q (435 * G + 510)
        hl hx hy (by ring) (by push_cast; omega) (by push_cast; omega) (by
          refine le_trans ?_ hG
          rw [mul_assoc]
          exact Nat.mul_le_mul_left _ (by omega)) e
      have hD0 : D = 0 := by
        rw [ex, ey] at h1
        have hc1 : (W : Int) - W' ≤ 255 := by omega
        have hc2 : -255 ≤ (W : Int) - W' := by omega
        rw [hq] at hc1 hc2
        have hG2 : 435 * (G : Int) + 870 ≤ 4294967296 := by omega
        clear hG hG1 hD hW hW' ex ey h1 e ih hw hw' hx hy hq hs hs'
        have hq0 : q = 0 := by omega
        subst hq0
        omega
      have hss : s = s' := by omega
      subst hss
      rw [hW] at hW'
      subst hW'
      refine ⟨rfl, ?_⟩
      have h3 := congrArg (W ^^^ ·) h1
      simp only [← Nat.xor_assoc, Nat.xor_self, Nat.zero_xor] at h3
      rw [UInt8.toNat_inj.mp h3, h2]

/-- Runs of at most three bytes are separated in every context. -/
theorem fold32_window (h : Nat) (hh : h < 2 ^ 32) (x y s : List UInt8) (hl : x.length = y.length) (h3 : x.length ≤ 3)
    (e : (x ++ s).foldl step32 h = (y ++ s).foldl step32 h) : x = y := by
  cases x with
  | nil => exact (List.length_eq_zero_iff.mp hl.symm).symm
  | cons a x =>
    cases y with
    | nil => simp at hl
    | cons b y =>
      simp only [List.length_cons, Nat.add_right_cancel_iff] at hl h3
      rw [List.foldl_append, List.foldl_append] at e
      have hlt : ∀ (bs : List UInt8) (u : Nat), u < 2 ^ 32 → bs.foldl step32 u < 2 ^ 32 := by
        intro bs
        induction bs with
        | nil => intro u hu; exact hu
        | cons b bs ih => intro u _; exact ih _ (step32_lt _ _)
      have e2 := fold32_inj (hlt _ _ hh) (hlt _ _ hh) s e
      rw [fold_run32, fold_run32] at e2
      obtain ⟨t, ht, ex⟩ := xor_byte h a
      obtain ⟨t', ht', ey⟩ := xor_byte h b
      obtain ⟨h1, h2⟩ := run32_inj x y _ _ (((h ^^^ a.toNat : Nat) : Int) - (h ^^^ b.toNat : Nat)) 0 255 hl
        (xor_lt32 hh a) (xor_lt32 hh b) (by ring) (by omega) (by omega) (by
          have : (435 : Nat) ^ x.length ≤ 435 ^ 2 := Nat.pow_le_pow_right (by norm_num) (by omega)
          omega) e2
      have h3 := congrArg (h ^^^ ·) h1
      simp only [← Nat.xor_assoc, Nat.xor_self, Nat.zero_xor] at h3
      rw [UInt8.toNat_inj.mp h3, h2]
/-! ### UTF-8 -/

theorem encode_cancel (c d : Char) (r r' : List UInt8) (e : String.utf8EncodeChar c ++ r = String.utf8EncodeChar d ++ r') :
    c = d ∧ r = r' := by
  have hb : ∀ {n m : Nat}, UInt8.ofNat n = UInt8.ofNat m → n < 256 → m < 256 → n = m := by
    intro n m h h1 h2
    have := congrArg UInt8.toNat h
    rwa [UInt8.toNat_ofNat', UInt8.toNat_ofNat', Nat.mod_eq_of_lt h1, Nat.mod_eq_of_lt h2] at this
  have hv : ∀ c : Char, c.val.toNat < 0x110000 := by
    intro c
    rcases c.valid with h | h
    · exact Nat.lt_trans h (by decide)
    · exact h.2
  have hc := hv c
  have hd := hv d
  have fin : c.val.toNat = d.val.toNat → c = d := fun h => Char.ext (UInt32.toNat_inj.mp h)
  unfold String.utf8EncodeChar at e
  simp only at e
  generalize c.val.toNat = v at *
  generalize d.val.toNat = u at *
  split at e
  · split at e
    · simp only [List.cons_append, List.nil_append, List.cons.injEq] at e
      exact ⟨fin (hb e.1 (by omega) (by omega)), e.2⟩
    · split at e
      · simp only [List.cons_append, List.nil_append, List.cons.injEq] at e
        have := hb e.1 (by omega) (by omega)
        omega
      · split at e <;> simp only [List.cons_append, List.nil_append, List.cons.injEq] at e <;>
          have := hb e.1 (by omega) (by omega) <;> omega
  · split at e
    · split at e
      · simp only [List.cons_append, List.nil_append, List.cons.injEq] at e
        have := hb e.1 (by omega) (by omega)
        omega
      · split at e
        · simp only [List.cons_append, List.nil_append, List.cons.injEq] at e
          have h1 := hb e.1 (by omega) (by omega)
          have h2 := hb e.2.1 (by omega) (by omega)
          exact ⟨fin (by omega), e.2.2⟩
        · split at e <;> simp only [List.cons_append, List.nil_append, List.cons.injEq] at e <;>
            have := hb e.1 (by omega) (by omega) <;> omega
    · split at e
      · split at e
        · simp only [List.cons_append, List.nil_append, List.cons.injEq] at e
          have := hb e.1 (by omega) (by omega)
          omega
        · split at e
          · simp only [List.cons_append, List.nil_append, List.cons.injEq] at e
            have := hb e.1 (by omega) (by omega)
            omega
          · split at e
            · simp only [List.cons_append, List.nil_append, List.cons.injEq] at e
              have h1 := hb e.1 (by omega) (by omega)
              have h2 := hb e.2.1 (by omega) (by omega)
              have h3 := hb e.2.2.1 (by omega) (by omega)
              exact ⟨fin (by omega), e.2.2.2⟩
            · simp only [List.cons_append, List.nil_append, List.cons.injEq] at e
              have := hb e.1 (by omega) (by omega)
              omega
      · split at e
        · simp only [List.cons_append, List.nil_append, List.cons.injEq] at e
          have := hb e.1 (by omega) (by omega)
          omega
        · split at e
          · simp only [List.cons_append, List.nil_append, List.cons.injEq] at e
            have := hb e.1 (by omega) (by omega)
            omega
          · split at e
            · simp only [List.cons_append, List.nil_append, List.cons.injEq] at e
              have := hb e.1 (by omega) (by omega)
              omega
            · simp only [List.cons_append, List.nil_append, List.cons.injEq] at e
              have h1 := hb e.1 (by omega) (by omega)
              have h2 := hb e.2.1 (by omega) (by omega)
              have h3 := hb e.2.2.1 (by omega) (by omega)
              have h4 := hb e.2.2.2.1 (by omega) (by omega)
              exact ⟨fin (by omega), e.2.2.2.2⟩

/-- No byte of a text is `0xff`. -/
theorem encode_ne_ff (c : Char) : (0xff : UInt8) ∉ String.utf8EncodeChar c := by
  have hb : ∀ {n : Nat}, (0xff : UInt8) = UInt8.ofNat n → n < 255 → False := by
    intro n h h1
    have := congrArg UInt8.toNat h
    rw [UInt8.toNat_ofNat', Nat.mod_eq_of_lt (by omega)] at this
    have h2 : (0xff : UInt8).toNat = 255 := rfl
    omega
  have hc : c.val.toNat < 0x110000 := by
    rcases c.valid with h | h
    · exact Nat.lt_trans h (by decide)
    · exact h.2
  unfold String.utf8EncodeChar
  simp only
  generalize c.val.toNat = v at *
  split
  · simp only [List.mem_cons, List.not_mem_nil, or_false]
    exact fun h => hb h (by omega)
  · split
    · simp only [List.mem_cons, List.not_mem_nil, or_false]
      rintro (h | h) <;> exact hb h (by omega)
    · split
      · simp only [List.mem_cons, List.not_mem_nil, or_false]
        rintro (h | h | h) <;> exact hb h (by omega)
      · simp only [List.mem_cons, List.not_mem_nil, or_false]
        rintro (h | h | h | h) <;> exact hb h (by omega)

/-- A text followed by `0xff` can be split off. -/
theorem text_cancel (t u : PyText) (r r' : List UInt8) (e : strFeed (toUtf8 t) ++ r = strFeed (toUtf8 u) ++ r') :
    t = u ∧ r = r' := by
  unfold strFeed toUtf8 at e
  induction t generalizing u with
  | nil =>
    cases u with
    | nil => simpa using e
    | cons d u =>
      exfalso
      obtain ⟨b, bs, hb, _, _⟩ := encode_shape d
      have := encode_ne_ff d
      rw [hb] at this
      simp only [List.flatMap_nil, List.nil_append, List.flatMap_cons, hb, List.cons_append, List.cons.injEq] at e
      exact this (by rw [e.1]; exact List.mem_cons_self)
  | cons c t ih =>
    cases u with
    | nil =>
      exfalso
      obtain ⟨b, bs, hb, _, _⟩ := encode_shape c
      have := encode_ne_ff c
      rw [hb] at this
      simp only [List.flatMap_nil, List.nil_append, List.flatMap_cons, hb, List.cons_append, List.cons.injEq] at e
      exact this (by rw [← e.1]; exact List.mem_cons_self)
    | cons d u =>
      simp only [List.flatMap_cons, List.append_assoc] at e
      obtain ⟨rfl, e⟩ := encode_cancel c d _ _ e
      obtain ⟨rfl, h⟩ := ih u (by simpa using e)
      exact ⟨rfl, h⟩

theorem lenBytes_inj {n m : Nat} (hn : n < 2 ^ 64) (hm : m < 2 ^ 64) (e : lenBytes n = lenBytes m) : n = m := by
  have h : ∀ i < 8, n / 256 ^ i % 256 = m / 256 ^ i % 256 := by
    intro i hi
    have := congrArg (fun l => l[i]?) e
    simp only [lenBytes, List.getElem?_map, List.getElem?_range hi, Option.map_some, Option.some.injEq] at this
    have := congrArg UInt8.toNat this
    rwa [UInt8.toNat_ofNat', UInt8.toNat_ofNat', Nat.mod_mod, Nat.mod_mod] at this
  have h0 := h 0 (by norm_num)
  have h1 := h 1 (by norm_num)
  have h2 := h 2 (by norm_num)
  have h3 := h 3 (by norm_num)
  have h4 := h 4 (by norm_num)
  have h5 := h 5 (by norm_num)
  have h6 := h 6 (by norm_num)
  have h7 := h 7 (by norm_num)
  norm_num at h0 h1 h2 h3 h4 h5 h6 h7 hn hm
  omega

theorem lenBytes_length (n : Nat) : (lenBytes n).length = 8 := by simp [lenBytes]

/-- The features `t` and `u` followed by anything: the same feature. -/
theorem words_cancel (ws vs : List PyText) (r r' : List UInt8) (hw : ws.length < 2 ^ 64) (hv : vs.length < 2 ^ 64)
    (e : wordsFeed ws ++ r = wordsFeed vs ++ r') : ws = vs ∧ r = r' := by
  unfold wordsFeed at e
  rw [List.append_assoc, List.append_assoc] at e
  obtain ⟨e1, e2⟩ := List.append_inj e (by rw [lenBytes_length, lenBytes_length])
  have hl := lenBytes_inj hw hv e1
  clear e e1 hw hv
  induction ws generalizing vs with
  | nil =>
    cases vs with
    | nil => simpa using e2
    | cons v vs => simp at hl
  | cons w ws ih =>
    cases vs with
    | nil => simp at hl
    | cons v vs =>
      simp only [List.flatMap_cons, List.append_assoc] at e2
      obtain ⟨rfl, e3⟩ := text_cancel w v _ _ e2
      obtain ⟨rfl, h⟩ := ih vs e3 (by simpa using hl)
      exact ⟨rfl, h⟩

end Verif
