import Verif.Lemmas.Text
import Mathlib.Data.List.TakeWhile

/-! # Properties C41 - C45: tokens and shingles -/
namespace Verif.Props
open Verif.Spec

/-! ## C41 -/

/-- C41: the tokens are non-empty and free of separators, and their concatenation is the text with the
separators deleted. The boxed variant yields the same tokens. -/
theorem C41_tokens (text : List Char) :
    (∀ t ∈ whitespaceSplit text, t ≠ [] ∧ ∀ c ∈ t, c ∉ separators) ∧
    (whitespaceSplit text).flatten = text.filter (fun c => decide (c ∉ separators)) ∧
    whitespaceSplitBoxed text = whitespaceSplit text := by
  obtain ⟨g, ps, h1, h2, h3, h4⟩ := exists_runs (fun c => decide (c ∈ separators)) text
  have htk : whitespaceSplit text = ps.map Prod.fst := by
    rw [whitespaceSplit_eq, h1, tk_seps h2, tk_runs ps h3 h4]
  refine ⟨?_, ?_, rfl⟩
  · rw [htk]
    intro t ht
    obtain ⟨q, hq, rfl⟩ := List.mem_map.mp ht
    refine ⟨(h3 q hq).1, fun c hc => ?_⟩
    simpa using (h3 q hq).2.1 c hc
  · rw [htk, h1, List.filter_append]
    have hg : g.filter (fun c => decide (c ∉ separators)) = [] := by
      rw [List.filter_eq_nil_iff]
      intro c hc
      simpa using h2 c hc
    rw [hg, List.nil_append]
    clear h1 h4 htk
    induction ps with
    | nil => rfl
    | cons q ps ih =>
      obtain ⟨_, e2, e3⟩ := h3 q (by simp)
      rw [List.map_cons, List.flatten_cons, ih fun q hq => h3 q (by simp [hq]), List.flatMap_cons,
        List.filter_append, List.filter_append]
      have f1 : q.1.filter (fun c => decide (c ∉ separators)) = q.1 := by
        rw [List.filter_eq_self]
        intro c hc; simpa using e2 c hc
      have f2 : q.2.filter (fun c => decide (c ∉ separators)) = [] := by
        rw [List.filter_eq_nil_iff]
        intro c hc; simpa using e3 c hc
      rw [f1, f2, List.append_nil]

/-- C41: the tokens are exactly the maximal separator-free runs, in order. -/
theorem C41_maximal_runs (text : List Char) (toks : List (List Char)) :
    MaximalRuns text toks ↔ toks = whitespaceSplit text := by
  rw [whitespaceSplit_eq]
  constructor
  · rintro ⟨g, ps, rfl, rfl, h2, h3, h4⟩
    rw [tk_seps (by simpa using h2), tk_runs ps (by simpa using h3) h4]
  · rintro rfl
    obtain ⟨g, ps, h1, h2, h3, h4⟩ := exists_runs (fun c => decide (c ∈ separators)) text
    refine ⟨g, ps, h1, ?_, by simpa using h2, by simpa using h3, h4⟩
    conv_lhs => rw [h1]
    rw [tk_seps h2, tk_runs ps h3 h4]

/-- C41: joining the tokens with any non-empty run of separators and splitting again gives the same tokens. -/
theorem C41_resplit (text g : List Char) (hg : g ≠ []) (hs : ∀ c ∈ g, c ∈ separators) :
    whitespaceSplit (g.intercalate (whitespaceSplit text)) = whitespaceSplit text := by
  have h := (C41_tokens text).1
  generalize whitespaceSplit text = toks at h
  rw [whitespaceSplit_eq]
  induction toks with
  | nil => rfl
  | cons t toks ih =>
    obtain ⟨h1, h2⟩ := h t (by simp)
    have ih := ih fun t ht => h t (by simp [ht])
    cases toks with
    | nil =>
      have : g.intercalate [t] = t ++ [] := by simp [List.intercalate]
      rw [this, tk_run h1 (by simpa using h2) (Or.inl rfl)]
      simp [tk, strSplit]
    | cons t' toks =>
      have : g.intercalate (t :: t' :: toks) = t ++ (g ++ g.intercalate (t' :: toks)) := by
        simp [List.intercalate, List.intersperse]
      obtain ⟨c, cs, rfl⟩ := List.exists_cons_of_ne_nil hg
      rw [this, tk_run (p := fun c => decide (c ∈ separators)) (rest := c :: cs ++ _) h1 (by simpa using h2)
        (Or.inr ⟨c, _, rfl, by simpa using hs c (by simp)⟩), tk_seps (by simpa using hs), ih]

/-- A text with leading, double and trailing separators and a non-ASCII space (which is not a separator). -/
example : whitespaceSplit " a-b,  c d! ".toList = ["a".toList, "b".toList, "c d".toList] := by
  decide +kernel

example : ("- ".toList ≠ []) ∧ ∀ c ∈ "- ".toList, c ∈ separators := by decide +kernel

/-! ## C42, C43 -/

/-- Iterating to exhaustion terminates without panic and yields `out`. -/
def Yields {σ ι : Type} (next : σ → Except Panic (Option ι × σ)) (s : σ) (out : List ι) : Prop :=
  ∃ n, ∀ fuel, n ≤ fuel → collect next fuel s = some (.ok out)

theorem Yields.of_collect {σ ι : Type} {next : σ → Except Panic (Option ι × σ)} {s : σ} {out : List ι} {n : Nat}
    (h : collect next n s = some (.ok out)) : Yields next s out := ⟨n, fun _ hf => collect_mono h hf⟩

theorem Yields.unique {σ ι : Type} {next : σ → Except Panic (Option ι × σ)} {s : σ} {out out' : List ι}
    (h : Yields next s out) (h' : Yields next s out') : out = out' := by
  obtain ⟨n, hn⟩ := h
  obtain ⟨m, hm⟩ := h'
  have := (hn (max n m) (by omega)).symm.trans (hm (max n m) (by omega))
  injection this with this
  injection this

/-- C43: the slice iterator yields, in order of position then size, the n-grams before the first pair that does
not fit (this also covers `from = 0`, as long as `to ≥ 1`). -/
theorem C43_slice_exact {α : Type} (l : List α) (a b : Nat) (h : 1 ≤ a ∨ 1 ≤ b) :
    Yields MultiShingles.nextSlice (MultiShingles.new l a b) (shinglesBeforeGap l a b) := by
  have := slice_shingles l a b h _ 0 a (by omega) (by omega) (by omega) (Nat.le_refl _)
  unfold shinglesBeforeGap
  rw [allPairs_eq]
  exact Yields.of_collect this

example : shinglesBeforeGap [1, 2, 3] 1 2 = [[1], [1, 2], [2], [2, 3], [3]] ∧
    shinglesBeforeGap [1, 2, 3] 2 1 = [[1, 2], [2, 3]] ∧
    shinglesBeforeGap [1, 2] 0 1 = [[], [1], [], [2], []] := by decide

/-- Before-relation on (position, size) pairs. -/
theorem allPairs_sorted (a b L : Nat) :
    (allPairs a b L).Pairwise fun q q' => q.1 < q'.1 ∨ (q.1 = q'.1 ∧ q.2 < q'.2) := by
  unfold allPairs
  rw [List.pairwise_flatMap]
  constructor
  · intro p _
    rw [List.pairwise_map]
    refine List.Pairwise.imp ?_ (List.pairwise_lt_range' (s := a) (n := b - a + 1))
    intro x y hxy
    exact Or.inr ⟨rfl, hxy⟩
  · refine List.Pairwise.imp ?_ (List.pairwise_lt_range (n := L + 1))
    intro p p' hpp q hq q' hq'
    obtain ⟨_, _, rfl⟩ := List.mem_map.mp hq
    obtain ⟨_, _, rfl⟩ := List.mem_map.mp hq'
    exact Or.inl hpp

theorem mem_allPairs {a b L p n : Nat} : (p, n) ∈ allPairs a b L ↔ p ≤ L ∧ a ≤ n ∧ n ≤ max a b := by
  unfold allPairs
  simp only [List.mem_flatMap, List.mem_range, List.mem_map, List.mem_range'_1, Prod.mk.injEq]
  constructor
  · rintro ⟨p', h1, n', h2, rfl, rfl⟩; omega
  · rintro ⟨h1, h2, h3⟩; exact ⟨p, by omega, n, by omega, rfl, rfl⟩

theorem mem_takeWhile_of_before {α : Type} {R : α → α → Prop} {P : α → Bool} {l : List α} (hR : l.Pairwise R)
    {x : α} (hx : x ∈ l) (hP : P x = true) (hbefore : ∀ y ∈ l, R y x → P y = true) : x ∈ l.takeWhile P := by
  induction l with
  | nil => cases hx
  | cons a l ih =>
    rw [List.pairwise_cons] at hR
    rcases List.mem_cons.mp hx with rfl | hx
    · rw [List.takeWhile_cons_of_pos hP]; simp
    · rw [List.takeWhile_cons_of_pos (hbefore a (by simp) (hR.1 x hx))]
      exact List.mem_cons_of_mem _ (ih hR.2 hx fun y hy => hbefore y (by simp [hy]))

theorem before_of_mem_takeWhile {α : Type} {R : α → α → Prop} {P : α → Bool} {l : List α} (hR : l.Pairwise R)
    (hasym : ∀ x y, R x y → ¬ R y x) {x y : α} (hx : x ∈ l.takeWhile P) (hy : y ∈ l) (hyx : R y x) :
    P y = true := by
  induction l with
  | nil => cases hy
  | cons a l ih =>
    rw [List.pairwise_cons] at hR
    by_cases ha : P a = true
    · rw [List.takeWhile_cons_of_pos ha] at hx
      rcases List.mem_cons.mp hy with hya | hy'
      · rw [hya]; exact ha
      · rcases List.mem_cons.mp hx with rfl | hx
        · exact absurd hyx (hasym _ _ (hR.1 y ‹_›))
        · exact ih hR.2 hx ‹_›
    · rw [List.takeWhile_cons_of_neg ha] at hx; cases hx

/-- C42 is false: the tail n-grams are lost when `to ≥ from + 2`. Here the 1-gram at position 1 is missing. -/
theorem C42_all_ngrams_false :
    ∃ (l : List Nat) (a b p n : Nat) (out : List (List Nat)), 1 ≤ a ∧ a ≤ n ∧ n ≤ b ∧ p + n ≤ l.length ∧
      Yields MultiShingles.nextSlice (MultiShingles.new l a b) out ∧ ngram l p n ∉ out :=
  ⟨[1, 2], 1, 3, 1, 1, [[1], [1, 2]], by decide, by decide, by decide, by decide,
    C43_slice_exact [1, 2] 1 3 (by decide), by decide⟩

/-- C42, the part that holds: if `to ≤ from + 1`, or the slice is not longer than `from`, every n-gram is
yielded. Missing: all other cases, where the claim fails, see `C42_tail_lost_partial`. -/
theorem C42_all_ngrams_partial {α : Type} (l : List α) (a b : Nat) (ha : 1 ≤ a) (hab : b ≤ a + 1 ∨ l.length ≤ a)
    (out : List (List α)) (hout : Yields MultiShingles.nextSlice (MultiShingles.new l a b) out)
    (p n : Nat) (h1 : a ≤ n) (h2 : n ≤ b) (h3 : p + n ≤ l.length) : ngram l p n ∈ out := by
  rw [hout.unique (C43_slice_exact l a b (Or.inl ha))]
  refine List.mem_map.mpr ⟨(p, n), ?_, rfl⟩
  apply mem_takeWhile_of_before (allPairs_sorted a b l.length) (mem_allPairs.mpr ⟨by omega, h1, by omega⟩)
  · simpa using h3
  · rintro ⟨p', n'⟩ hy hR
    have hy := mem_allPairs.mp hy
    simp only [decide_eq_true_eq] at hR ⊢
    omega

example : collect MultiShingles.nextSlice 20 (MultiShingles.new [1, 2, 3] 1 2) =
    some (.ok [[1], [1, 2], [2], [2, 3], [3]]) := by decide +kernel

/-- C42: in all other cases (with `from ≤ to`) the last n-gram of size `from` is lost, for a slice of distinct
elements. -/
theorem C42_tail_lost_partial {α : Type} (l : List α) (hnd : l.Nodup) (a b : Nat) (ha : 1 ≤ a) (hb : a + 2 ≤ b)
    (hl : a + 1 ≤ l.length) (out : List (List α))
    (hout : Yields MultiShingles.nextSlice (MultiShingles.new l a b) out) : ngram l (l.length - a) a ∉ out := by
  rw [hout.unique (C43_slice_exact l a b (Or.inl ha))]
  intro hm
  obtain ⟨⟨p, n⟩, h1, h2⟩ := List.mem_map.mp hm
  have hfit := List.mem_takeWhile_imp h1
  simp only [decide_eq_true_eq] at hfit
  have hp := mem_allPairs.mp ((List.takeWhile_sublist _).subset h1)
  -- the first elements agree, so the positions agree
  have hpos : p = l.length - a := by
    have e := congrArg (fun x => x[0]?) h2
    simp only [ngram] at e
    rw [List.getElem?_take_of_lt (by omega), List.getElem?_take_of_lt (by omega), List.getElem?_drop,
      List.getElem?_drop, Nat.add_zero, Nat.add_zero, List.getElem?_eq_getElem (by omega),
      List.getElem?_eq_getElem (by omega)] at e
    injection e with e
    exact (List.Nodup.getElem_inj_iff hnd).mp e
  have := before_of_mem_takeWhile (allPairs_sorted a b l.length) (by rintro ⟨x, y⟩ ⟨x', y'⟩ h; simp only at h ⊢; omega) h1
    (y := (l.length - a - 1, a + 2)) (mem_allPairs.mpr ⟨by omega, by omega, by omega⟩)
    (Or.inl (by show l.length - a - 1 < p; omega))
  simp only [decide_eq_true_eq] at this
  omega

/-- The hypotheses are met; the 1-gram `[3]` is lost. -/
example : [1, 2, 3].Nodup ∧ collect MultiShingles.nextSlice 20 (MultiShingles.new [1, 2, 3] 1 3) =
    some (.ok [[1], [1, 2], [1, 2, 3], [2], [2, 3]]) := by decide +kernel

/-! ## C44 -/

/-- C44: over a valid UTF-8 text the string iterator never panics, in particular never cuts a character, and
yields the encodings of the shingles of the character sequence. -/
theorem C44_str_exact (cs : List Char) (a b : Nat) (ha : 1 ≤ a) :
    Yields MultiShingles.nextStr (MultiShingles.new (utf8 cs) a b) ((shinglesBeforeGap cs a b).map utf8) := by
  obtain ⟨n, hn⟩ := C43_slice_exact cs a b (Or.inl ha)
  refine ⟨n, fun fuel hf => ?_⟩
  show collect MultiShingles.nextStr fuel ⟨utf8 cs, a, b, a, 1⟩ = _
  rw [collectStr_sim a b ha fuel cs a ha]
  have := hn fuel hf
  rw [show (⟨cs, a, b, a, 1⟩ : MultiShingles (List Char)) = MultiShingles.new cs a b from rfl, this]
  rfl

/-- C44: the same shingles as the slice iterator over the characters. -/
theorem C44_same_as_chars (cs : List Char) (a b : Nat) (ha : 1 ≤ a) (out : List (List Char))
    (h : Yields MultiShingles.nextSlice (MultiShingles.new cs a b) out) :
    Yields MultiShingles.nextStr (MultiShingles.new (utf8 cs) a b) (out.map utf8) := by
  rw [h.unique (C43_slice_exact cs a b (Or.inl ha))]
  exact C44_str_exact cs a b ha

/-- Characters of one to four bytes. -/
example : shinglesBeforeGap "aß€😀".toList 1 2 =
    ["a".toList, "aß".toList, "ß".toList, "ß€".toList, "€".toList, "€😀".toList, "😀".toList] ∧
    (utf8 "aß€😀".toList).length = 10 ∧
    collect MultiShingles.nextStr 20 (MultiShingles.new (utf8 "aß€😀".toList) 3 3) =
      some (.ok [utf8 "aß€".toList, utf8 "ß€😀".toList]) := by
  refine ⟨by decide +kernel, by decide +kernel, by decide +kernel⟩

/-! ## C45 -/

/-- C45 is false: with `from = to = 0` the slice iterator panics at the end of every slice, and the string
iterator over the empty string never ends. -/
theorem C45_terminates_false :
    (∀ (l : List Nat), ∃ n, collect MultiShingles.nextSlice n (MultiShingles.new l 0 0) = some (.error .index)) ∧
    ∀ fuel, collect MultiShingles.nextStr fuel (MultiShingles.new (utf8 []) 0 0) = none := by
  constructor
  · intro l
    refine ⟨l.length + 1, ?_⟩
    show collect MultiShingles.nextSlice _ ⟨l, 0, 0, 0, 1⟩ = _
    induction l with
    | nil => rfl
    | cons x l ih =>
      rw [List.length_cons, collect_some (nextSlice_wrap (by omega) (by simp) (by omega))]
      rw [show (x :: l).drop 1 = l from rfl, ih]
      rfl
  · intro fuel
    induction fuel with
    | zero => rfl
    | succ fuel ih =>
      have : MultiShingles.nextStr (MultiShingles.new (utf8 []) 0 0) =
        .ok (some [], MultiShingles.new (utf8 []) 0 0) := rfl
      rw [collect_some this, ih]
      rfl

/-- With size 0 a non-empty string gives `None` at once. -/
theorem nextStr_zero (cs : List Char) (hcs : cs ≠ []) (b : Nat) :
    ∃ st, MultiShingles.nextStr (MultiShingles.new (utf8 cs) 0 b) = .ok (none, st) := by
  have hloop : ∀ (l : List Nat) (pn k : Nat), 1 ≤ k →
      let r := strLoop 1 0 l pn 0 k
      (r.1 = pn ∨ r.1 ∈ l) ∧ r.2.1 = 0 ∧ r.2.2 = k + l.length := by
    intro l
    induction l with
    | nil => intro pn k _; exact ⟨Or.inl rfl, rfl, rfl⟩
    | cons i l ih =>
      intro pn k hk
      have hk0 : ¬ k = 0 := by omega
      simp only [strLoop, if_neg hk0]
      rw [if_neg (by simp)]
      obtain ⟨h1, h2, h3⟩ := ih (if k = 1 then i else pn) (k + 1) (by omega)
      refine ⟨?_, h2, by rw [h3]; simp; omega⟩
      rcases h1 with h1 | h1
      · rw [h1]
        by_cases hk1 : k = 1
        · simp [hk1]
        · simp [hk1]
      · right; simp [h1]
  have hb := boundaries_utf8 cs
  obtain ⟨c, cs', rfl⟩ := List.exists_cons_of_ne_nil hcs
  rw [List.length_cons, List.range_succ_eq_map, List.map_cons] at hb
  set rest := ((List.range cs'.length).map Nat.succ).map (off (c :: cs')) with hrest
  have h0 : off (c :: cs') 0 = 0 := rfl
  have hr : strLoop 1 0 (boundaries (utf8 (c :: cs'))) 0 0 0 = strLoop 1 0 rest 0 0 1 := by
    rw [hb, h0]; rfl
  obtain ⟨h1, h2, h3⟩ := hloop rest 0 1 (by omega)
  have hret : strRet (utf8 (c :: cs')) (strLoop 1 0 rest 0 0 1).2.1 (strLoop 1 0 rest 0 0 1).2.2 0 = .ok none := by
    unfold strRet
    rw [h2, if_neg (by simp), if_neg (by rw [h3]; omega)]
  have hmove : ∃ d, strMove (utf8 (c :: cs')) (strLoop 1 0 rest 0 0 1).1 = .ok d := by
    unfold strMove
    rcases h1 with h1 | h1
    · rw [h1, if_neg (by simp)]; exact ⟨_, strSlice_end _⟩
    · split_ifs with hz
      · obtain ⟨k, _, hk⟩ := List.mem_map.mp h1
        rw [← hk]
        exact ⟨_, strSlice_suffix (c :: cs') k⟩
      · exact ⟨_, strSlice_end _⟩
  obtain ⟨d, hd⟩ := hmove
  unfold MultiShingles.nextStr MultiShingles.new
  simp only [hr]
  rw [hret]
  by_cases hw : 0 + 1 > b
  · simp only [bind, Except.bind, if_pos hw]
    rw [hd]; exact ⟨_, rfl⟩
  · simp only [bind, Except.bind, if_neg hw]
    exact ⟨_, rfl⟩

/-- C45, the part that holds: over slices iteration terminates without panic unless `from = to = 0`; over
strings it does unless `from = to = 0` and the string is empty. Missing: these two cases, where it fails. -/
theorem C45_terminates_partial (a b : Nat) :
    (∀ {α : Type} (l : List α), ¬ (a = 0 ∧ b = 0) →
      ∃ out, Yields MultiShingles.nextSlice (MultiShingles.new l a b) out) ∧
    ∀ cs : List Char, ¬ (a = 0 ∧ b = 0 ∧ cs = []) →
      ∃ out, Yields MultiShingles.nextStr (MultiShingles.new (utf8 cs) a b) out := by
  constructor
  · intro α l h
    exact ⟨_, C43_slice_exact l a b (by omega)⟩
  · intro cs h
    by_cases ha : 1 ≤ a
    · exact ⟨_, C44_str_exact cs a b ha⟩
    · have ha0 : a = 0 := by omega
      subst ha0
      by_cases hcs : cs = []
      · subst hcs
        have hb : 1 ≤ b := by
          by_contra hb
          exact h ⟨rfl, by omega, rfl⟩
        refine ⟨[[]], Yields.of_collect (n := 2) ?_⟩
        have h1 : MultiShingles.nextStr (MultiShingles.new (utf8 []) 0 b) =
            .ok (some [], ⟨[], 0, b, 1, 1⟩) := by
          unfold MultiShingles.nextStr MultiShingles.new
          have hw : ¬ (0 + 1 > b) := by omega
          simp only [if_neg hw]
          rfl
        have h2 : ∃ st, MultiShingles.nextStr ⟨[], 0, b, 1, 1⟩ = .ok (none, st) := by
          have := nextStr_sim [] 0 b 1 (by omega)
          rw [if_neg (by simp)] at this
          exact this.1
        obtain ⟨st, h2⟩ := h2
        rw [collect_some h1, collect_none h2]
        rfl
      · obtain ⟨st, hst⟩ := nextStr_zero cs hcs b
        exact ⟨[], Yields.of_collect (n := 1) (collect_none hst 0)⟩

/-- Instances of the partial theorem with a zero size. -/
example : collect MultiShingles.nextSlice 10 (MultiShingles.new [7] 0 1) = some (.ok [[], [7], []]) ∧
    collect MultiShingles.nextStr 10 (MultiShingles.new (utf8 "ab".toList) 0 2) = some (.ok []) := by
  decide +kernel

end Verif.Props
