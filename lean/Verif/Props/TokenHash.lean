import Verif.Lemmas.TokenHash
import Verif.Props.Components
import Verif.Props.Hashers
import Verif.Props.MinHasher
import Mathlib.Data.Fintype.Pi
import Mathlib.Data.Fintype.Card

/-! # Properties C108, C109: the hash of a token -/
namespace Verif.Props

/-! ## C108: the bytes of a feature -/

/-- A feature that can exist: a slice has fewer than 2^64 elements. -/
def fits : PyTok → Prop
  | .str _ => True
  | .words ws => ws.length < 2 ^ 64

/-- Features of one kind. -/
def sameKind : PyTok → PyTok → Prop
  | .str _, .str _ => True
  | .words _, .words _ => True
  | _, _ => False

/-- C108: different features of one kind write different bytes. -/
theorem C108_injective (t u : PyTok) (ht : fits t) (hu : fits u) (hk : sameKind t u) (h : tokFeed t = tokFeed u) :
    t = u := by
  cases t with
  | str b =>
    cases u with
    | str b' =>
      have : b ++ [0xff] = b' ++ [0xff] := h
      rw [List.append_cancel_right this]
    | words _ => exact hk.elim
  | words ws =>
    cases u with
    | str _ => exact hk.elim
    | words vs =>
      obtain ⟨rfl, _⟩ := words_cancel ws vs [] [] ht hu (by simpa [tokFeed] using h)
      rfl

/-- C108: the bytes of a text or of a sequence of texts are not the beginning of the bytes of another one, so that
sequences of features are kept apart too. -/
theorem C108_prefix_free (t u : PyText) (ws vs : List PyText) (hw : ws.length < 2 ^ 64) (hv : vs.length < 2 ^ 64) :
    (tokFeed (.str (toUtf8 t)) <+: tokFeed (.str (toUtf8 u)) ↔ t = u) ∧
    (tokFeed (.words ws) <+: tokFeed (.words vs) ↔ ws = vs) := by
  constructor
  · constructor
    · rintro ⟨r, h⟩
      exact (text_cancel t u r [] (by simpa [tokFeed] using h)).1
    · rintro rfl; exact List.prefix_rfl
  · constructor
    · rintro ⟨r, h⟩
      exact (words_cancel ws vs r [] hw hv (by simpa [tokFeed] using h)).1
    · rintro rfl; exact List.prefix_rfl

theorem foldl_be_inj (x y : List UInt8) (a b : Nat) (hl : x.length = y.length)
    (h : x.foldl (fun acc b => acc * 256 + b.toNat) a = y.foldl (fun acc b => acc * 256 + b.toNat) b) : a = b ∧ x = y := by
  induction x generalizing y a b with
  | nil =>
    cases y with
    | nil => exact ⟨h, rfl⟩
    | cons _ _ => simp at hl
  | cons p x ih =>
    cases y with
    | nil => simp at hl
    | cons q y =>
      obtain ⟨h1, rfl⟩ := ih y _ _ (by simpa using hl) h
      have hp := p.toNat_lt
      have hq := q.toNat_lt
      have h1' : a * 256 + p.toNat = b * 256 + q.toNat := h1
      have : a = b ∧ p.toNat = q.toNat := by omega
      exact ⟨this.1, by rw [UInt8.toNat_inj.mp this.2]⟩

theorem beNat_inj {x y : List UInt8} (hl : x.length = y.length) (h : beNat x = beNat y) : x = y := by
  have h1 := foldl_be x 0
  have h2 := foldl_be y 0
  exact (foldl_be_inj x y 0 0 hl (by rw [h1, h2, h]; simp)).2

/-- C108: features have byte strings, different for different features of one kind and the same for all digest
functions, such that `ShaHasher64` gives two features the same hash exactly if the digests of their byte strings begin
with the same eight bytes. -/
theorem C108_sha : ∃ feed : PyTok → List UInt8,
    (∀ t u, fits t → fits u → sameKind t u → feed t = feed u → t = u) ∧
    ∀ (sha1 : List UInt8 → Vector UInt8 20) (t u : PyTok), shaTok sha1 t = shaTok sha1 u ↔
      (sha1 (feed t)).toList.take 8 = (sha1 (feed u)).toList.take 8 := by
  refine ⟨tokFeed, C108_injective, fun sha1 t u => ?_⟩
  have h1 := C71_value sha1 [tokFeed t]
  have h2 := C71_value sha1 [tokFeed u]
  simp only [List.flatten_cons, List.flatten_nil, List.append_nil] at h1 h2
  constructor
  · intro h
    have h3 : beNat ((sha1 (tokFeed t)).toList.take 8) = beNat ((sha1 (tokFeed u)).toList.take 8) := by
      rw [← h1, ← h2]
      exact congrArg UInt64.toNat h
    exact beNat_inj (by simp) h3
  · intro h
    have h3 : ((writes [tokFeed t]).finish sha1).toNat = ((writes [tokFeed u]).finish sha1).toNat := by rw [h1, h2, h]
    exact UInt64.toNat_inj.mp h3

/-- C108: the same for the SipHash hashers of both widths: two features have the same hash exactly if SipHash collides on
their byte strings. -/
theorem C108_sip : ∃ feed : PyTok → List UInt8,
    (∀ t u, fits t → fits u → sameKind t u → feed t = feed u → t = u) ∧
    ∀ (sip : UInt64 → UInt64 → List UInt8 → UInt64) (sip' : UInt64 → UInt64 → List UInt8 → BitVec 128)
      (k1 k2 : UInt64) (t u : PyTok),
      (sipTok64 sip k1 k2 t = sipTok64 sip k1 k2 u ↔ sip k1 k2 (feed t) = sip k1 k2 (feed u)) ∧
      (sipTok128 sip' k1 k2 t = sipTok128 sip' k1 k2 u ↔ sip' k1 k2 (feed t) = sip' k1 k2 (feed u)) :=
  ⟨tokFeed, C108_injective, fun _ _ _ _ _ _ => ⟨UInt64.toBitVec_inj, Iff.rfl⟩⟩

/-- FNV-1a on natural numbers. -/
theorem fnv_toNat (l : List UInt8) (h : UInt64) : (l.foldl fnvStep h).toNat =
    l.foldl (fun h b => (h ^^^ b.toNat) * 1099511628211 % 2 ^ 64) h.toNat := by
  induction l generalizing h with
  | nil => rfl
  | cons b l ih =>
    have e : (fnvStep h b).toNat = (h.toNat ^^^ b.toNat) * 1099511628211 % 2 ^ 64 := by
      unfold fnvStep
      rw [UInt64.toNat_mul, UInt64.toNat_xor, UInt8.toNat_toUInt64,
        show (0x100000001b3 : UInt64).toNat = 1099511628211 from rfl]
    rw [List.foldl_cons, ih, List.foldl_cons, e]

/-- C108, for the default hasher: the hash of a feature is FNV-1a (xor, then multiply by 1099511628211, modulo 2^64, from
14695981039346656037 on) of bytes that differ between different features. -/
theorem C108_fnv : ∃ feed : PyTok → List UInt8,
    (∀ t u, fits t → fits u → sameKind t u → feed t = feed u → t = u) ∧
    ∀ t : PyTok, (fnvTok t).toNat =
      (feed t).foldl (fun h b => (h ^^^ b.toNat) * 1099511628211 % 2 ^ 64) 14695981039346656037 := by
  refine ⟨tokFeed, C108_injective, fun t => ?_⟩
  unfold fnvTok fnv
  rw [fnv_toNat, show (0xcbf29ce484222325 : UInt64).toNat = 14695981039346656037 from rfl]

/-- Both hashers tell two features apart if the digest function does. -/
example : ∃ (sha1 : List UInt8 → Vector UInt8 20) (sip : UInt64 → UInt64 → List UInt8 → UInt64),
    shaTok sha1 (.words [['a'], ['b']]) ≠ shaTok sha1 (.words [['a', 'b']]) ∧
      sipTok64 sip 1 2 (.str [97]) ≠ sipTok64 sip 1 2 (.str [98]) := by
  refine ⟨fun l => Vector.replicate 20 (l.headD 0), fun _ _ l => (l.headD 0).toUInt64, ?_, ?_⟩ <;> decide +kernel

/-- C108, the limit: features of different kinds can write the same bytes: the text that begins with the eight bytes of
the number 1, and the sequence of the one word. -/
theorem C108_mixed (t : PyText) :
    tokFeed (.str (toUtf8 (['\x01', '\x00', '\x00', '\x00', '\x00', '\x00', '\x00', '\x00'] ++ t))) =
      tokFeed (.words [t]) := by
  simp only [tokFeed, strFeed, wordsFeed, toUtf8, List.flatMap_append, List.flatMap_cons, List.flatMap_nil, List.append_nil,
    List.append_assoc]
  rw [show lenBytes [t].length = [1, 0, 0, 0, 0, 0, 0, 0] from (by decide +kernel : lenBytes 1 = [1, 0, 0, 0, 0, 0, 0, 0]),
    show String.utf8EncodeChar '\x01' = [1] by decide +kernel, show String.utf8EncodeChar '\x00' = [0] by decide +kernel]
  rfl

/-! ## C109: the default hasher -/

/-- C109: changing at most three consecutive bytes of what is hashed changes the hash, also its low 32 bits, whatever is
before and after them. -/
theorem C109_window (p x y s : List UInt8) (hl : x.length = y.length) (h3 : x.length ≤ 3) (hne : x ≠ y) :
    (fnv (p ++ x ++ s)).toNat % 2 ^ 32 ≠ (fnv (p ++ y ++ s)).toNat % 2 ^ 32 := by
  intro e
  unfold fnv at e
  rw [fnv_low, fnv_low, List.append_assoc, List.append_assoc, List.foldl_append (l := p), List.foldl_append (l := p)] at e
  refine hne (fold32_window _ ?_ x y s hl h3 e)
  rw [← fnv_low]
  exact Nat.mod_lt _ (by norm_num)

/-- Two characters with UTF-8 encodings of one length, of at most three bytes or with the same first byte. -/
def alike (c d : Char) : Prop := c.utf8Size = d.utf8Size ∧ (c.utf8Size ≤ 3 ∨ c.toNat / 2 ^ 18 = d.toNat / 2 ^ 18)

theorem alike_window (c d : Char) (h : alike c d) (hne : c ≠ d) : ∃ q x y, String.utf8EncodeChar c = q ++ x ∧
    String.utf8EncodeChar d = q ++ y ∧ x.length = y.length ∧ x.length ≤ 3 ∧ x ≠ y := by
  obtain ⟨hs, h⟩ := h
  have hx : String.utf8EncodeChar c ≠ String.utf8EncodeChar d := fun e =>
    hne (encode_cancel c d [] [] (by rw [e])).1
  by_cases h3 : c.utf8Size ≤ 3
  · exact ⟨[], String.utf8EncodeChar c, String.utf8EncodeChar d, rfl, rfl, by rw [String.length_utf8EncodeChar, String.length_utf8EncodeChar, hs],
      by rw [String.length_utf8EncodeChar]; exact h3, hx⟩
  · have h' := h.resolve_left h3
    have big : ∀ c : Char, ¬ c.utf8Size ≤ 3 → String.utf8EncodeChar c =
        [UInt8.ofNat (c.toNat / 2 ^ 18 % 8 + 240)] ++ (String.utf8EncodeChar c).drop 1 ∧
          ((String.utf8EncodeChar c).drop 1).length = 3 := by
      intro c hc
      rw [← String.length_utf8EncodeChar] at hc
      unfold String.utf8EncodeChar at hc ⊢
      simp only at hc ⊢
      split at hc
      · simp at hc
      · split at hc
        · simp at hc
        · split at hc
          · simp at hc
          · rename_i h1 h2 h3
            rw [if_neg h1, if_neg h2, if_neg h3]
            exact ⟨rfl, rfl⟩
    obtain ⟨e1, l1⟩ := big c h3
    obtain ⟨e2, l2⟩ := big d (by rw [← hs]; exact h3)
    rw [h'] at e1
    refine ⟨_, _, _, e1, e2, by rw [l1, l2], by omega, fun e => hx ?_⟩
    rw [e1, e2, e]

/-- C109: replacing one character of a feature by another one of the same encoded length changes the hash of the feature,
also its low 32 bits, which are all that `MinHasher8`, `MinHasher16` and `MinHasher32` use. -/
theorem C109_one_char (p s : PyText) (c d : Char) (h : alike c d) (hne : c ≠ d) (ws vs : List PyText) :
    (fnvTok (.str (toUtf8 (p ++ c :: s)))).toUInt32 ≠ (fnvTok (.str (toUtf8 (p ++ d :: s)))).toUInt32 ∧
    (fnvTok (.words (ws ++ (p ++ c :: s) :: vs))).toUInt32 ≠ (fnvTok (.words (ws ++ (p ++ d :: s) :: vs))).toUInt32 := by
  obtain ⟨q, x, y, ec, ed, hl, h3, hxy⟩ := alike_window c d h hne
  have low : ∀ a b : UInt64, a.toUInt32 = b.toUInt32 → a.toNat % 2 ^ 32 = b.toNat % 2 ^ 32 := by
    intro a b hab
    have := congrArg UInt32.toNat hab
    simpa using this
  constructor
  · intro e
    refine C109_window (toUtf8 p ++ q) x y (toUtf8 s ++ [0xff]) hl h3 hxy ?_
    have := low _ _ e
    simpa [fnvTok, tokFeed, strFeed, toUtf8, ec, ed] using this
  · intro e
    refine C109_window (lenBytes (ws.length + (vs.length + 1)) ++ (ws.flatMap fun t => strFeed (toUtf8 t)) ++ toUtf8 p ++ q) x y
      (toUtf8 s ++ [0xff] ++ vs.flatMap fun t => strFeed (toUtf8 t)) hl h3 hxy ?_
    have := low _ _ e
    simpa [fnvTok, tokFeed, wordsFeed, strFeed, toUtf8, ec, ed] using this

/-- C109: the low `k` bits of the hash (`k` at most 8) depend only on the low `k` bits of every byte. -/
theorem C109_low_bits (k : Nat) (hk : k ≤ 8) (x y : List UInt8) (hl : x.length = y.length)
    (h : ∀ (i : Nat) (a b : UInt8), x[i]? = some a → y[i]? = some b → a.toNat % 2 ^ k = b.toNat % 2 ^ k) :
    (fnv x).toNat % 2 ^ k = (fnv y).toNat % 2 ^ k := by
  have hd : 2 ^ k ∣ 2 ^ 64 := Nat.pow_dvd_pow 2 (by omega)
  have main : ∀ (x y : List UInt8) (u v : UInt64), x.length = y.length → u.toNat % 2 ^ k = v.toNat % 2 ^ k →
      (∀ (i : Nat) (a b : UInt8), x[i]? = some a → y[i]? = some b → a.toNat % 2 ^ k = b.toNat % 2 ^ k) →
      (x.foldl fnvStep u).toNat % 2 ^ k = (y.foldl fnvStep v).toNat % 2 ^ k := by
    intro x
    induction x with
    | nil =>
      intro y u v hl huv _
      rw [List.length_eq_zero_iff.mp hl.symm]
      exact huv
    | cons a x ih =>
      intro y u v hl huv h
      cases y with
      | nil => simp at hl
      | cons b y =>
        refine ih y _ _ (by simpa using hl) ?_ (fun i a b ha hb => h (i + 1) a b (by simpa using ha) (by simpa using hb))
        have hab := h 0 a b rfl rfl
        have ha : (a.toUInt64).toNat = a.toNat := by simp
        have hb : (b.toUInt64).toNat = b.toNat := by simp
        unfold fnvStep
        rw [UInt64.toNat_mul, UInt64.toNat_mul, UInt64.toNat_xor, UInt64.toNat_xor, Nat.mod_mod_of_dvd _ hd,
          Nat.mod_mod_of_dvd _ hd, Nat.mul_mod, Nat.mul_mod (v.toNat ^^^ _), Nat.xor_mod_two_pow, Nat.xor_mod_two_pow, ha, hb,
          hab, huv]
  exact main x y _ _ hl rfl h

/-- The word of five ASCII characters. -/
def asciiWord (v : Fin 5 → Fin 128) : PyText := List.ofFn fun i => Char.ofNat (v i).val

theorem asciiWord_inj {v w : Fin 5 → Fin 128} (h : asciiWord v = asciiWord w) : v = w := by
  have := List.ofFn_injective h
  funext i
  have hi := congrFun this i
  have ht : ∀ x : Fin 128, (Char.ofNat x.val).toNat = x.val := by decide
  have := congrArg Char.toNat hi
  rw [ht, ht] at this
  exact Fin.ext this

/-- C109, the limit: there are two different words of five ASCII characters which `MinHasher32` does not tell apart, for
any number of hashes, seed and generator. -/
theorem C109_collision : ∃ v w : Fin 5 → Fin 128, asciiWord v ≠ asciiWord w ∧
    ∀ (g : Rng) (n : Nat) (seed : UInt64), ∃ s,
      (MinHasherN.newWithHasherAndSeed g n fnvTok seed).sig32 [.str (toUtf8 (asciiWord v))] = .ok s ∧
      (MinHasherN.newWithHasherAndSeed g n fnvTok seed).sig32 [.str (toUtf8 (asciiWord w))] = .ok s := by
  obtain ⟨v, w, hne, h⟩ := Fintype.exists_ne_map_eq_of_card_lt
    (fun v : Fin 5 → Fin 128 => (⟨(fnvTok (.str (toUtf8 (asciiWord v)))).toNat % 2 ^ 32, Nat.mod_lt _ (by norm_num)⟩ :
      Fin (2 ^ 32))) (by
      rw [Fintype.card_fin, Fintype.card_fun, Fintype.card_fin, Fintype.card_fin]
      norm_num)
  refine ⟨v, w, fun e => hne (asciiWord_inj e), fun g n seed => ?_⟩
  obtain ⟨k, hk, hs⟩ := C98_spread_32 g n seed
  obtain ⟨sig, hsig, hlow⟩ := hs fnvTok
  refine ⟨_, hsig _, ?_⟩
  rw [hsig]
  congr 1
  have hlen : ∀ t, (sig t).length = n := by
    intro t
    obtain ⟨s, e, hl⟩ := C01_length_32 g n fnvTok seed [t]
    rw [hsig t] at e
    cases e
    exact hl
  apply List.ext_getElem?
  intro i
  by_cases hi : i < n
  · refine (hlow i hi).1 _ _ ?_
    have h' := Fin.mk.inj h
    rw [← Nat.mod_mod_of_dvd _ (Nat.pow_dvd_pow 2 (hk i hi).2), ← h', Nat.mod_mod_of_dvd _ (Nat.pow_dvd_pow 2 (hk i hi).2)]
  · rw [List.getElem?_eq_none (by rw [hlen]; omega), List.getElem?_eq_none (by rw [hlen]; omega)]

/-- The hypotheses are met: words that differ in a letter, in an accent, in an ideograph, in an emoji, and an n-gram. -/
example : alike 'e' 'a' ∧ alike 'é' 'è' ∧ alike '日' '月' ∧ alike '😀' '😁' ∧ fits (.words ["big".toList, "cat".toList]) ∧
    sameKind (.words ["big".toList]) (.words []) ∧
    (fnvTok (.str (toUtf8 "cat".toList))).toUInt32 = 3900860424 ∧
    fnvTok (.str (toUtf8 "cat".toList)) ≠ fnvTok (.str (toUtf8 "cut".toList)) := by
  refine ⟨by unfold alike; decide +kernel, by unfold alike; decide +kernel, by unfold alike; decide +kernel,
    by unfold alike; decide +kernel, by unfold fits; decide +kernel, trivial, by decide +kernel, by decide +kernel⟩

/-- Bytes that agree in the low five bits: upper and lower case. -/
example : ∀ (i : Nat) (a b : UInt8), ([0x43, 0x61, 0x54] : List UInt8)[i]? = some a →
    ([0x63, 0x41, 0x74] : List UInt8)[i]? = some b → a.toNat % 2 ^ 5 = b.toNat % 2 ^ 5 := by
  intro i a b ha hb
  rcases i with _ | _ | _ | i
  · cases ha; cases hb; rfl
  · cases ha; cases hb; rfl
  · cases ha; cases hb; rfl
  · simp at ha

end Verif.Props
