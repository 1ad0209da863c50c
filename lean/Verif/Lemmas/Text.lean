import Verif.Model.Text
import Verif.Spec.Text
import Mathlib.Tactic.Common

/-! Lemmas on tokenizing and shingling. -/
namespace Verif
open Spec

/-! ### Separators -/

theorem sep_ascii : ∀ n < 128, (isAsciiPunctuation (Char.ofNat n) || isAsciiWhitespace (Char.ofNat n)) =
    decide (Char.ofNat n ∈ separators) := by decide +kernel

theorem separators_lt : ∀ c ∈ separators, c.toNat < 128 := by decide

/-- The predicate of the code is membership in the list of separators. -/
theorem sep_iff (c : Char) : (isAsciiPunctuation c || isAsciiWhitespace c) = decide (c ∈ separators) := by
  by_cases h : c.toNat < 128
  · have := sep_ascii c.toNat h
    rwa [Char.ofNat_toNat] at this
  · have h1 : c ∉ separators := fun hc => h (separators_lt c hc)
    simp only [h1, decide_false, Bool.or_eq_false_iff]
    simp only [isAsciiPunctuation, isAsciiWhitespace]
    constructor
    · simp only [Bool.or_eq_false_iff, Bool.and_eq_false_iff, decide_eq_false_iff_not]
      omega
    · simp only [Bool.or_eq_false_iff, beq_eq_false_iff_ne]
      omega

/-- Tokens for an arbitrary separator predicate. -/
def tk (p : Char → Bool) (text : List Char) : List (List Char) := (strSplit p text).filter fun x => !x.isEmpty

theorem whitespaceSplit_eq (text : List Char) : whitespaceSplit text = tk (fun c => decide (c ∈ separators)) text := by
  unfold whitespaceSplit tk
  rw [show (fun c => isAsciiPunctuation c || isAsciiWhitespace c) = fun c => decide (c ∈ separators) from
    funext sep_iff]

variable {p : Char → Bool}

theorem tk_sep {c : Char} (hc : p c = true) (cs : List Char) : tk p (c :: cs) = tk p cs := by
  unfold tk
  rw [strSplit, if_pos hc]
  simp

theorem tk_seps {g : List Char} (hg : ∀ c ∈ g, p c = true) (cs : List Char) : tk p (g ++ cs) = tk p cs := by
  induction g with
  | nil => rfl
  | cons c g ih => rw [List.cons_append, tk_sep (hg c (by simp)), ih fun c hc => hg c (by simp [hc])]

theorem tk_nil : tk p [] = [] := by simp [tk, strSplit]

theorem split_run {t : List Char} (ht : ∀ c ∈ t, p c = false) {rest : List Char} {X : List (List Char)}
    (hr : strSplit p rest = [] :: X) : strSplit p (t ++ rest) = t :: X := by
  induction t with
  | nil => exact hr
  | cons c t ih =>
    rw [List.cons_append, strSplit, if_neg (by simp [ht c (by simp)]), ih fun c hc => ht c (by simp [hc])]

theorem tk_run {t : List Char} (hne : t ≠ []) (ht : ∀ c ∈ t, p c = false) {rest : List Char}
    (hr : rest = [] ∨ ∃ c cs, rest = c :: cs ∧ p c = true) : tk p (t ++ rest) = t :: tk p rest := by
  have : ∃ X, strSplit p rest = [] :: X := by
    rcases hr with rfl | ⟨c, cs, rfl, hc⟩
    · exact ⟨[], rfl⟩
    · exact ⟨strSplit p cs, by rw [strSplit, if_pos hc]⟩
  obtain ⟨X, hX⟩ := this
  unfold tk
  rw [split_run ht hX, hX]
  simp [hne]

/-- A decomposition into maximal runs determines the tokens. -/
theorem tk_runs (ps : List (List Char × List Char))
    (h : ∀ q ∈ ps, q.1 ≠ [] ∧ (∀ c ∈ q.1, p c = false) ∧ ∀ c ∈ q.2, p c = true)
    (hl : ∀ q ∈ ps.dropLast, q.2 ≠ []) : tk p (ps.flatMap fun q => q.1 ++ q.2) = ps.map Prod.fst := by
  induction ps with
  | nil => exact tk_nil
  | cons q ps ih =>
    obtain ⟨h1, h2, h3⟩ := h q (by simp)
    rw [List.flatMap_cons, List.append_assoc, tk_run h1 h2, tk_seps h3, List.map_cons, ih]
    · exact fun q hq => h q (by simp [hq])
    · intro q' hq'
      apply hl
      cases ps with
      | nil => simp at hq'
      | cons a as => simp [hq']
    · cases ps with
      | nil =>
        cases hq : q.2 with
        | nil => left; simp
        | cons c cs => right; exact ⟨c, cs, by simp, h3 c (by simp [hq])⟩
      | cons a as =>
        have hne := hl q (by simp)
        obtain ⟨c, cs, hq⟩ := List.exists_cons_of_ne_nil hne
        right
        exact ⟨c, _, by rw [hq]; rfl, h3 c (by simp [hq])⟩

/-- Every text decomposes into maximal runs. -/
theorem exists_runs (p : Char → Bool) (text : List Char) :
    ∃ (g : List Char) (ps : List (List Char × List Char)),
      text = g ++ ps.flatMap (fun q => q.1 ++ q.2) ∧ (∀ c ∈ g, p c = true) ∧
      (∀ q ∈ ps, q.1 ≠ [] ∧ (∀ c ∈ q.1, p c = false) ∧ ∀ c ∈ q.2, p c = true) ∧
      ∀ q ∈ ps.dropLast, q.2 ≠ [] := by
  induction text with
  | nil => exact ⟨[], [], by simp⟩
  | cons c cs ih =>
    obtain ⟨g, ps, h1, h2, h3, h4⟩ := ih
    cases hc : p c with
    | true =>
      refine ⟨c :: g, ps, by rw [h1]; rfl, ?_, h3, h4⟩
      intro x hx
      rcases List.mem_cons.mp hx with rfl | hx
      · exact hc
      · exact h2 x hx
    | false =>
      by_cases hg : g = []
      · subst hg
        cases ps with
        | nil =>
          refine ⟨[], [([c], [])], by simp at h1; simp [h1], by simp, ?_, by simp⟩
          intro q hq
          simp at hq; subst hq
          simp [hc]
        | cons q ps =>
          refine ⟨[], (c :: q.1, q.2) :: ps, by rw [h1]; simp, by simp, ?_, ?_⟩
          · intro q' hq'
            rcases List.mem_cons.mp hq' with rfl | hq'
            · obtain ⟨_, e2, e3⟩ := h3 q (by simp)
              refine ⟨by simp, ?_, e3⟩
              intro x hx
              rcases List.mem_cons.mp hx with rfl | hx
              · exact hc
              · exact e2 x hx
            · exact h3 q' (by simp [hq'])
          · intro q' hq'
            cases ps with
            | nil => simp at hq'
            | cons a as =>
              rw [List.dropLast_cons_of_ne_nil (by simp)] at hq' h4
              rcases List.mem_cons.mp hq' with rfl | hq'
              · exact h4 q (by simp)
              · exact h4 q' (by simp [hq'])
      · refine ⟨[], ([c], g) :: ps, by rw [h1]; simp, by simp, ?_, ?_⟩
        · intro q hq
          rcases List.mem_cons.mp hq with rfl | hq
          · exact ⟨by simp, by simp [hc], h2⟩
          · exact h3 q hq
        · intro q hq
          cases ps with
          | nil => simp at hq
          | cons a as =>
            rw [List.dropLast_cons_of_ne_nil (by simp)] at hq
            rcases List.mem_cons.mp hq with rfl | hq
            · exact hg
            · exact h4 q hq

/-! ### Exhausting an iterator -/

theorem collect_mono {σ ι : Type} {next : σ → Except Panic (Option ι × σ)} {fuel fuel' : Nat} {s : σ}
    {r : Except Panic (List ι)} (h : collect next fuel s = some r) (hf : fuel ≤ fuel') :
    collect next fuel' s = some r := by
  induction fuel generalizing fuel' s r with
  | zero => cases h
  | succ fuel ih =>
    obtain ⟨fuel', rfl⟩ : ∃ k, fuel' = k + 1 := ⟨fuel' - 1, by omega⟩
    unfold collect at h ⊢
    cases hn : next s with
    | error e => rw [hn] at h; exact h
    | ok q =>
      obtain ⟨x, s'⟩ := q
      rw [hn] at h
      cases x with
      | none => exact h
      | some x =>
        simp only at h ⊢
        cases hc : collect next fuel s' with
        | none => rw [hc] at h; cases h
        | some r' => rw [hc] at h; rw [ih hc (by omega)]; exact h

/-! ### Shingles over slices -/

/-- The pairs from `(p, n)` on. -/
def tailPairs (a b L p n : Nat) : List (Nat × Nat) :=
  (List.range' n (b - n + 1)).map (fun n => (p, n)) ++
    (List.range' (p + 1) (L - p)).flatMap fun p => (List.range' a (b - a + 1)).map fun n => (p, n)

theorem allPairs_eq (a b L : Nat) : allPairs a b L = tailPairs a b L 0 a := by
  unfold allPairs tailPairs
  rw [List.range_eq_range', List.range'_succ (s := 0), List.flatMap_cons]
  rfl

theorem tailPairs_wrap {a b L p n : Nat} (hn : b < n + 1) (hp : p < L) :
    tailPairs a b L p n = (p, n) :: tailPairs a b L (p + 1) a := by
  unfold tailPairs
  rw [show b - n + 1 = 1 by omega, show L - p = (L - (p + 1)) + 1 by omega, List.range'_succ (s := p + 1),
    List.flatMap_cons]
  simp

theorem tailPairs_step {a b L p n : Nat} (hn : n + 1 ≤ b) :
    tailPairs a b L p n = (p, n) :: tailPairs a b L p (n + 1) := by
  unfold tailPairs
  rw [show b - n + 1 = (b - (n + 1) + 1) + 1 by omega, List.range'_succ (s := n)]
  rfl

theorem tailPairs_head (a b L p n : Nat) : ∃ rest, tailPairs a b L p n = (p, n) :: rest := by
  unfold tailPairs
  rw [List.range'_succ (s := n)]
  exact ⟨_, rfl⟩

theorem takeWhile_tail_none {a b L p n : Nat} (h : L < p + n) :
    (tailPairs a b L p n).takeWhile (fun q => decide (q.1 + q.2 ≤ L)) = [] := by
  obtain ⟨rest, e⟩ := tailPairs_head a b L p n
  rw [e, List.takeWhile_cons_of_neg]
  simpa using h

theorem collect_some {σ ι : Type} {next : σ → Except Panic (Option ι × σ)} {s s' : σ} {x : ι}
    (h : next s = .ok (some x, s')) (fuel : Nat) :
    collect next (fuel + 1) s = (collect next fuel s').map fun r => r.map fun xs => x :: xs := by
  conv_lhs => unfold collect
  rw [h]

theorem collect_none {σ ι : Type} {next : σ → Except Panic (Option ι × σ)} {s s' : σ}
    (h : next s = .ok (none, s')) (fuel : Nat) : collect next (fuel + 1) s = some (.ok []) := by
  unfold collect
  rw [h]

theorem nextSlice_wrap {α : Type} {d : List α} {a b n : Nat} (h1 : n ≤ d.length) (h2 : 1 ≤ d.length)
    (hw : n + 1 > b) : MultiShingles.nextSlice ⟨d, a, b, n, 1⟩ = .ok (some (d.take n), ⟨d.drop 1, a, b, a, 1⟩) := by
  have hs1 : slice d 0 n = .ok (d.take n) := by
    unfold slice; rw [if_pos ⟨by omega, h1⟩]; simp
  have hs2 : slice d 1 d.length = .ok (d.drop 1) := by
    unfold slice; rw [if_pos ⟨by omega, by omega⟩]; congr 1; apply List.take_of_length_le; simp
  unfold MultiShingles.nextSlice
  simp only
  rw [if_pos h1, hs1]
  simp only [bind, Except.bind, if_pos hw]
  rw [hs2]; rfl

theorem nextSlice_step {α : Type} {d : List α} {a b n : Nat} (h1 : n ≤ d.length) (hw : ¬ n + 1 > b) :
    MultiShingles.nextSlice ⟨d, a, b, n, 1⟩ = .ok (some (d.take n), ⟨d, a, b, n + 1, 1⟩) := by
  have hs1 : slice d 0 n = .ok (d.take n) := by
    unfold slice; rw [if_pos ⟨by omega, h1⟩]; simp
  unfold MultiShingles.nextSlice
  simp only
  rw [if_pos h1, hs1]
  simp only [bind, Except.bind, if_neg hw]
  rfl

theorem nextSlice_end {α : Type} {d : List α} {a b n : Nat} (h1 : ¬ n ≤ d.length) :
    MultiShingles.nextSlice ⟨d, a, b, n, 1⟩ = .ok (none, ⟨d, a, b, n, 1⟩) := by
  unfold MultiShingles.nextSlice
  simp only
  rw [if_neg h1]

/-- The slice iterator from the state `(p, n)`. -/
theorem slice_shingles {α : Type} (l : List α) (a b : Nat) (hab : 1 ≤ a ∨ 1 ≤ b) :
    ∀ (m p n : Nat), p ≤ l.length → a ≤ n → n ≤ max a b →
      (l.length - p) * (max a b + 2) + (max a b + 1 - n) ≤ m →
      collect MultiShingles.nextSlice (m + 1) ⟨l.drop p, a, b, n, 1⟩ =
        some (.ok (((tailPairs a b l.length p n).takeWhile fun q => decide (q.1 + q.2 ≤ l.length)).map
          fun q => ngram l q.1 q.2)) := by
  intro m
  induction m with
  | zero => intro p n _ _ h1 h2; omega
  | succ m ih =>
    intro p n hp ha hb hm
    have hlen : (l.drop p).length = l.length - p := by simp
    by_cases hfit : p + n ≤ l.length
    · by_cases hw : n + 1 > b
      · have hpl : p < l.length := by
          have : 1 ≤ n := by omega
          omega
        have := ih (p + 1) a (by omega) (Nat.le_refl _) (by omega) (by
          have h3 : l.length - p = (l.length - (p + 1)) + 1 := by omega
          rw [h3, Nat.add_mul] at hm
          generalize (l.length - (p + 1)) * (max a b + 2) = X at *
          omega)
        rw [collect_some (nextSlice_wrap (by omega) (by omega) hw), List.drop_drop, this,
          tailPairs_wrap (by omega) hpl]
        simp [hfit, Except.map, ngram]
      · have := ih p (n + 1) hp (by omega) (by omega) (by omega)
        rw [collect_some (nextSlice_step (by omega) hw), this, tailPairs_step (n := n) (by omega)]
        simp [hfit, Except.map, ngram]
    · rw [collect_none (nextSlice_end (by omega)), takeWhile_tail_none (by omega)]
      rfl

/-! ### UTF-8 -/

theorem utf8_nil : utf8 [] = [] := rfl
theorem utf8_cons (c : Char) (cs : List Char) : utf8 (c :: cs) = String.utf8EncodeChar c ++ utf8 cs := rfl
theorem utf8_append (a b : List Char) : utf8 (a ++ b) = utf8 a ++ utf8 b := by simp [utf8]

/-- The encoding of a character: a first byte and continuation bytes. -/
theorem encode_shape (c : Char) : ∃ b bs, String.utf8EncodeChar c = b :: bs ∧ isCont b = false ∧
    ∀ x ∈ bs, isCont x = true := by
  have hc : c.val.toNat < 0x110000 := by
    rcases c.valid with h | h
    · exact Nat.lt_trans h (by decide)
    · exact h.2
  have hb : ∀ n, n < 256 → (UInt8.ofNat n).toNat = n := by
    intro n hn; rw [UInt8.toNat_ofNat']; exact Nat.mod_eq_of_lt hn
  have hcont : ∀ k, isCont (UInt8.ofNat (k % 0x40 + 0x80)) = true := by
    intro k
    unfold isCont
    rw [hb _ (by omega)]
    simp; omega
  have hnc : ∀ n, n < 256 → n < 128 ∨ 192 ≤ n → isCont (UInt8.ofNat n) = false := by
    intro n h1 h2
    unfold isCont
    rw [hb _ h1]
    simp; omega
  unfold String.utf8EncodeChar
  generalize hv : c.val.toNat = v at hc
  simp only
  split_ifs with h1 h2 h3
  · exact ⟨_, _, rfl, hnc _ (by omega) (by omega), fun x hx => by cases hx⟩
  · refine ⟨_, _, rfl, hnc _ (by omega) (by omega), ?_⟩
    intro x hx
    simp only [List.mem_cons, List.not_mem_nil, or_false] at hx
    subst hx; exact hcont _
  · refine ⟨_, _, rfl, hnc _ (by omega) (by omega), ?_⟩
    intro x hx
    simp only [List.mem_cons, List.not_mem_nil, or_false] at hx
    rcases hx with rfl | rfl <;> exact hcont _
  · refine ⟨_, _, rfl, hnc _ (by omega) (by omega), ?_⟩
    intro x hx
    simp only [List.mem_cons, List.not_mem_nil, or_false] at hx
    rcases hx with rfl | rfl | rfl <;> exact hcont _

/-- Byte offset of character `k`. -/
def off (cs : List Char) (k : Nat) : Nat := (utf8 (cs.take k)).length

theorem off_pos {cs : List Char} {k : Nat} (h1 : 1 ≤ k) (h2 : cs ≠ []) : off cs k ≠ 0 := by
  obtain ⟨c, cs, rfl⟩ := List.exists_cons_of_ne_nil h2
  obtain ⟨k, rfl⟩ : ∃ j, k = j + 1 := ⟨k - 1, by omega⟩
  obtain ⟨b, bs, e, _⟩ := encode_shape c
  unfold off
  rw [List.take_succ_cons, utf8_cons, e]
  simp

theorem utf8_split (cs : List Char) (k : Nat) : utf8 cs = utf8 (cs.take k) ++ utf8 (cs.drop k) := by
  rw [← utf8_append, List.take_append_drop]

theorem take_off (cs : List Char) (k : Nat) : (utf8 cs).take (off cs k) = utf8 (cs.take k) := by
  rw [utf8_split cs k]
  unfold off
  simp

theorem drop_off (cs : List Char) (k : Nat) : (utf8 cs).drop (off cs k) = utf8 (cs.drop k) := by
  rw [utf8_split cs k]
  unfold off
  simp

theorem off_le (cs : List Char) (k : Nat) : off cs k ≤ (utf8 cs).length := by
  rw [utf8_split cs k]
  unfold off
  simp

theorem boundary_off (cs : List Char) (k : Nat) : isCharBoundary (utf8 cs) (off cs k) = true := by
  by_cases hk : k < cs.length
  · have h1 : (utf8 cs)[off cs k]? = (utf8 (cs.drop k))[0]? := by
      rw [← drop_off, List.getElem?_drop]; simp
    obtain ⟨b, bs, e, hb, _⟩ := encode_shape cs[k]
    have h2 : (utf8 (cs.drop k))[0]? = some b := by
      rw [List.drop_eq_getElem_cons hk, utf8_cons, e]; rfl
    unfold isCharBoundary
    rw [h1, h2]
    simp [hb]
  · have : off cs k = (utf8 cs).length := by
      unfold off
      rw [List.take_of_length_le (by omega)]
    unfold isCharBoundary
    simp [this]

/-- The character boundaries of a valid text. -/
theorem boundaries_utf8 (cs : List Char) : boundaries (utf8 cs) = (List.range cs.length).map (off cs) := by
  have key : ∀ (cs : List Char) (base : Nat),
      (((utf8 cs).zipIdx base).filter fun p => !isCont p.1).map Prod.snd =
        (List.range cs.length).map fun k => base + off cs k := by
    intro cs
    induction cs with
    | nil => intro base; rfl
    | cons c cs ih =>
      intro base
      obtain ⟨b, bs, e, h1, h2⟩ := encode_shape c
      have hconts : ∀ (bs : List UInt8) (k : Nat), (∀ x ∈ bs, isCont x = true) →
          (bs.zipIdx k).filter (fun p => !isCont p.1) = [] := by
        intro bs
        induction bs with
        | nil => intros; rfl
        | cons x bs ih =>
          intro k h
          rw [List.zipIdx_cons, List.filter_cons_of_neg (by simp [h x (by simp)])]
          exact ih _ fun y hy => h y (by simp [hy])
      rw [utf8_cons, e, List.cons_append, List.zipIdx_cons, List.zipIdx_append,
        List.filter_cons_of_pos (by simp [h1]), List.filter_append, hconts _ _ h2, List.nil_append,
        List.map_cons, ih, List.length_cons, List.range_succ_eq_map, List.map_cons, List.map_map]
      congr 1
      apply List.map_congr_left
      intro k _
      show base + 1 + bs.length + off cs k = base + off (c :: cs) (k + 1)
      unfold off
      rw [List.take_succ_cons, utf8_cons, e]
      simp; omega
  unfold boundaries
  rw [key cs 0]
  simp

/-- The scanning loop on a valid text. -/
theorem strLoop_spec (cs : List Char) (size : Nat) (hs : 1 ≤ size) :
    ∀ (m k : Nat), k + m = cs.length → ¬ (1 < k ∧ size < k) →
      let r := strLoop 1 size (((List.range cs.length).map (off cs)).drop k)
        (if 1 < k then off cs 1 else 0) (if size < k then off cs size else 0) k
      r.1 = (if 1 < cs.length then off cs 1 else 0) ∧
      r.2.1 = (if size < cs.length then off cs size else 0) ∧
      (¬ size < cs.length → r.2.2 = cs.length) := by
  intro m
  induction m with
  | zero =>
    intro k hk _
    have hk' : k = cs.length := by omega
    subst hk'
    rw [List.drop_of_length_le (by simp)]
    simp [strLoop]
  | succ m ih =>
    intro k hk hnot
    have hlt : k < cs.length := by omega
    have hne : cs ≠ [] := by intro e; simp [e] at hlt
    rw [List.drop_eq_getElem_cons (by simpa using hlt)]
    unfold strLoop
    simp only [List.getElem_map, List.getElem_range]
    have e1 : (if k = 1 then off cs k else if 1 < k then off cs 1 else 0) = if 1 < k + 1 then off cs 1 else 0 := by
      by_cases h1 : k = 1
      · subst h1; simp
      · by_cases h2 : 1 < k
        · simp [h1, h2, show 1 < k + 1 by omega]
        · simp [h1, h2, show ¬ 1 < k + 1 by omega]
    have e2 : (if k = size then off cs k else if size < k then off cs size else 0) =
        if size < k + 1 then off cs size else 0 := by
      by_cases h1 : k = size
      · subst h1; simp
      · by_cases h2 : size < k
        · simp [h1, h2, show size < k + 1 by omega]
        · simp [h1, h2, show ¬ size < k + 1 by omega]
    rw [e1, e2]
    by_cases hb : 1 < k + 1 ∧ size < k + 1
    · have n1 := off_pos (cs := cs) (k := 1) (by omega) hne
      have n2 := off_pos (cs := cs) (k := size) hs hne
      rw [if_pos hb.1, if_pos hb.2, if_pos ⟨n1, n2⟩]
      rw [if_pos (by omega), if_pos (by omega)]
      exact ⟨rfl, rfl, fun h => absurd (show size < cs.length by omega) h⟩
    · have hz : ¬ ((if 1 < k + 1 then off cs 1 else 0) ≠ 0 ∧ (if size < k + 1 then off cs size else 0) ≠ 0) := by
        rintro ⟨h1, h2⟩
        apply hb
        constructor
        · by_contra h; simp [h] at h1
        · by_contra h; simp [h] at h2
      rw [if_neg hz]
      exact ih (k + 1) (by omega) hb

theorem strSlice_prefix (cs : List Char) (k : Nat) :
    strSlice (utf8 cs) 0 (off cs k) = .ok (utf8 (cs.take k)) := by
  unfold strSlice
  rw [if_pos ⟨by omega, off_le cs k, by simp [isCharBoundary], boundary_off cs k⟩]
  simp [take_off]

theorem strSlice_suffix (cs : List Char) (k : Nat) :
    strSlice (utf8 cs) (off cs k) (utf8 cs).length = .ok (utf8 (cs.drop k)) := by
  unfold strSlice
  rw [if_pos ⟨off_le cs k, Nat.le_refl _, boundary_off cs k, by simp [isCharBoundary]⟩]
  rw [drop_off, List.take_of_length_le]
  rw [← drop_off]; simp

theorem strSlice_end (s : List UInt8) : strSlice s s.length s.length = .ok [] := by
  unfold strSlice
  rw [if_pos ⟨by omega, by omega, by simp [isCharBoundary], by simp [isCharBoundary]⟩]
  simp

/-- One step of the string iterator mirrors one step of the slice iterator over the characters. -/
theorem nextStr_sim (cs : List Char) (a b n : Nat) (hn : 1 ≤ n) :
    (if n ≤ cs.length then ∃ cs' n', (n' = a ∨ n' = n + 1) ∧
      MultiShingles.nextStr ⟨utf8 cs, a, b, n, 1⟩ = .ok (some (utf8 (cs.take n)), ⟨utf8 cs', a, b, n', 1⟩) ∧
      MultiShingles.nextSlice ⟨cs, a, b, n, 1⟩ = .ok (some (cs.take n), ⟨cs', a, b, n', 1⟩)
    else (∃ st, MultiShingles.nextStr ⟨utf8 cs, a, b, n, 1⟩ = .ok (none, st)) ∧
      ∃ st, MultiShingles.nextSlice ⟨cs, a, b, n, 1⟩ = .ok (none, st)) := by
  have hloop := strLoop_spec cs n hn cs.length 0 (by omega) (by omega)
  simp only [List.drop_zero, Nat.not_lt_zero, if_false] at hloop
  rw [← boundaries_utf8] at hloop
  -- the data after a step
  have hdata : strMove (utf8 cs) (if 1 < cs.length then off cs 1 else 0) = .ok (utf8 (cs.drop 1)) := by
    unfold strMove
    by_cases h1 : 1 < cs.length
    · have hne : cs ≠ [] := by intro e; simp [e] at h1
      rw [if_pos h1, if_pos (off_pos (by omega) hne), strSlice_suffix]
    · rw [if_neg h1, if_neg (by simp), strSlice_end, List.drop_of_length_le (by omega)]
      rfl
  generalize hr : strLoop 1 n (boundaries (utf8 cs)) 0 0 0 = r at hloop
  obtain ⟨h1, h2, h3⟩ := hloop
  by_cases hle : n ≤ cs.length
  · rw [if_pos hle]
    have hne : cs ≠ [] := by intro e; simp [e] at hle; omega
    have hret : strRet (utf8 cs) r.2.1 r.2.2 n = .ok (some (utf8 (cs.take n))) := by
      unfold strRet
      by_cases hlt : n < cs.length
      · rw [if_pos hlt] at h2
        rw [h2, if_pos (off_pos hn hne), strSlice_prefix]
        rfl
      · rw [if_neg hlt] at h2
        rw [h2, if_neg (by simp), if_pos (by rw [h3 hlt]; omega), List.take_of_length_le (by omega)]
    by_cases hw : n + 1 > b
    · refine ⟨cs.drop 1, a, Or.inl rfl, ?_, nextSlice_wrap hle (by omega) hw⟩
      unfold MultiShingles.nextStr
      simp only [hr]
      rw [hret]
      simp only [bind, Except.bind, if_pos hw]
      rw [h1, hdata]
      rfl
    · refine ⟨cs, n + 1, Or.inr rfl, ?_, nextSlice_step hle hw⟩
      unfold MultiShingles.nextStr
      simp only [hr]
      rw [hret]
      simp only [bind, Except.bind, if_neg hw]
      rfl
  · rw [if_neg hle]
    refine ⟨?_, ⟨_, nextSlice_end hle⟩⟩
    rw [if_neg (by omega)] at h2
    have hret : strRet (utf8 cs) r.2.1 r.2.2 n = .ok none := by
      unfold strRet
      rw [h2, if_neg (by simp), if_neg (by rw [h3 (by omega)]; omega)]
    unfold MultiShingles.nextStr
    simp only [hr]
    rw [hret]
    by_cases hw : n + 1 > b
    · simp only [bind, Except.bind, if_pos hw]
      rw [h1, hdata]
      exact ⟨_, rfl⟩
    · simp only [bind, Except.bind, if_neg hw]
      exact ⟨_, rfl⟩

/-- The whole iteration. -/
theorem collectStr_sim (a b : Nat) (ha : 1 ≤ a) (fuel : Nat) (cs : List Char) (n : Nat) (hn : 1 ≤ n) :
    collect MultiShingles.nextStr fuel ⟨utf8 cs, a, b, n, 1⟩ =
      (collect MultiShingles.nextSlice fuel ⟨cs, a, b, n, 1⟩).map fun r => r.map fun xs => xs.map utf8 := by
  induction fuel generalizing cs n with
  | zero => rfl
  | succ fuel ih =>
    have h := nextStr_sim cs a b n hn
    unfold collect
    split_ifs at h with hle
    · obtain ⟨cs', n', h1, h2, h3⟩ := h
      rw [h2, h3]
      simp only
      rw [ih cs' n' (by omega)]
      cases collect MultiShingles.nextSlice fuel ⟨cs', a, b, n', 1⟩ with
      | none => rfl
      | some r => cases r <;> rfl
    · obtain ⟨⟨st, h1⟩, ⟨st', h2⟩⟩ := h
      rw [h1, h2]
      rfl

end Verif
