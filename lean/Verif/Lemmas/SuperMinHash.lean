import Verif.Model.SuperMinHash
import Verif.Lemmas.Ratio
import Mathlib.Tactic.Linarith
import Mathlib.Tactic.NormNum
import Mathlib.Tactic.Positivity

/-! Lemmas about SuperMinHash. -/
namespace Verif

/-! ### Values -/

/-- `r + p as f32` as a rational. -/
def superQ (r : ℚ) (p : Nat) : ℚ := rndQ b32 (r + rndQ b32 p)

theorem rndQ32_nat_le {p : Nat} {k : Nat} (h : p ≤ 2 ^ k) : rndQ b32 p ≤ 2 ^ k := by
  have h1 : (p : ℚ) ≤ 2 ^ k := by exact_mod_cast h
  have := rndQ_mono (f := b32) (by simp [b32]) (by positivity) h1
  have hr := repr_zpow b32_ok (k := (k : ℤ)) (by simp [b32])
  rw [zpow_natCast] at hr
  rwa [rndQ_of_repr (q := (2 : ℚ) ^ k) (by simp [b32]) hr] at this

theorem superVal_fin {r : ℚ} (h0 : 0 ≤ r) (h1 : r < 1) {p : Nat} (hp : p < 2 ^ 32) :
    Fl.add b32 (.fin r) (Fl.ofNat b32 p) = .fin (superQ r p) := by
  have hle := rndQ32_nat_le (p := p) (k := 32) hp.le
  have hn : 0 ≤ rndQ b32 (p : ℚ) := rndQ_nonneg (by positivity)
  unfold Fl.ofNat
  rw [rnd_of_bounds b32_ok (k := 32) (by positivity) (by simp [b32]) (by simp [b32]) (by exact_mod_cast hp.le)]
  simp only [Fl.add]
  rw [rnd_of_bounds b32_ok (k := 33) (by linarith) (by simp [b32]) (by simp [b32])]
  · rfl
  · have : (2 : ℚ) ^ (33 : ℤ) = 2 ^ 32 + 2 ^ 32 := by norm_num
    rw [this]
    have : (1 : ℚ) ≤ 2 ^ 32 := by norm_num
    linarith

theorem superQ_nonneg {r : ℚ} (h0 : 0 ≤ r) (p : Nat) : 0 ≤ superQ r p :=
  rndQ_nonneg (add_nonneg h0 (rndQ_nonneg (by positivity)))

/-- For fewer than 2^24 hashes `p as f32` is exact, and the sum lies between `p` and `p + 1`. -/
theorem superQ_bounds {r : ℚ} (h0 : 0 ≤ r) (h1 : r < 1) {p : Nat} (hp : p < 2 ^ 24) :
    (p : ℚ) ≤ superQ r p ∧ superQ r p ≤ p + 1 := by
  have e : rndQ b32 (p : ℚ) = p := rndQ_of_repr (by simp [b32]) (repr_nat b32_ok (by simp [b32]; omega))
  have e1 : rndQ b32 ((p + 1 : Nat) : ℚ) = (p + 1 : Nat) :=
    rndQ_of_repr (by simp [b32]) (repr_nat b32_ok (by simp [b32]; omega))
  unfold superQ
  rw [e]
  constructor
  · have := rndQ_mono (f := b32) (by simp [b32]) (q := (p : ℚ)) (q' := r + p) (by positivity) (by linarith)
    rwa [e] at this
  · have := rndQ_mono (f := b32) (by simp [b32]) (q := r + p) (q' := ((p + 1 : Nat) : ℚ))
      (by positivity) (by push_cast; linarith)
    rw [e1] at this
    push_cast at this
    exact this

theorem superInit_eq : superInit = .fin 100000000 := by decide +kernel

theorem fmin_fin (a b : ℚ) : Fl.fmin (.fin a) (.fin b) = .fin (min a b) := by
  have hlt : Fl.lt (.fin b) (.fin a) = true ↔ b < a := by
    simp [Fl.lt, Fl.cmp, compare_lt_iff_lt]
  simp only [Fl.fmin]
  by_cases h : b < a
  · rw [if_pos (hlt.mpr h), min_eq_right h.le]
  · rw [if_neg (fun hc => h (hlt.mp hc)), min_eq_left (not_lt.mp h)]

/-- The cast of a finite value. -/
def castQ (x : ℚ) : Nat := min ⌊x⌋.toNat (2 ^ 32 - 1)

theorem superCast_fin (x : ℚ) : (superCast (.fin x)).toNat = castQ x := by
  unfold superCast
  rw [UInt32.toNat_ofNat']
  change min ⌊x⌋.toNat (2 ^ 32 - 1) % 2 ^ 32 = min ⌊x⌋.toNat (2 ^ 32 - 1)
  have : min ⌊x⌋.toNat (2 ^ 32 - 1) ≤ 2 ^ 32 - 1 := min_le_right _ _
  exact Nat.mod_eq_of_lt (by omega)

theorem castQ_mono {x y : ℚ} (h : x ≤ y) : castQ x ≤ castQ y :=
  min_le_min (Int.toNat_le_toNat (Int.floor_le_floor h)) le_rfl

theorem castQ_min (x y : ℚ) : castQ (min x y) = min (castQ x) (castQ y) := by
  rcases le_total x y with h | h
  · rw [min_eq_left h, min_eq_left (castQ_mono h)]
  · rw [min_eq_right h, min_eq_right (castQ_mono h)]

theorem castQ_between {x : ℚ} {p : Nat} (hp : p < 2 ^ 24) (h1 : (p : ℚ) ≤ x) (h2 : x ≤ p + 1) :
    castQ x = p ∨ castQ x = p + 1 := by
  have a : (p : ℤ) ≤ ⌊x⌋ := Int.le_floor.mpr (by exact_mod_cast h1)
  have b : ⌊x⌋ ≤ (p : ℤ) + 1 := by
    have : ⌊x⌋ ≤ ⌊((p + 1 : ℤ) : ℚ)⌋ := Int.floor_le_floor (by push_cast; exact h2)
    rwa [Int.floor_intCast] at this
  unfold castQ
  omega

namespace SuperMinHasher
variable {Tok : Type}

/-! ### V1 -/

/-- The values one item contributes. -/
def rowQ (g : SuperRng) : List Nat → g.State → List ℚ
  | [], _ => []
  | p :: ps, s => superQ (g.unit s).1 p :: rowQ g ps (g.unit s).2

theorem rowQ_length (g : SuperRng) (ps : List Nat) (s : g.State) : (rowQ g ps s).length = ps.length := by
  induction ps generalizing s with
  | nil => rfl
  | cons p ps ih => simp [rowQ, ih]

theorem rowQ_get (g : SuperRng) (ps : List Nat) (s : g.State) (j : Nat) (hj : j < ps.length) :
    ∃ r, 0 ≤ r ∧ r < 1 ∧ (rowQ g ps s)[j]? = some (superQ r ps[j]) := by
  induction ps generalizing s j with
  | nil => simp at hj
  | cons p ps ih =>
    cases j with
    | zero => exact ⟨(g.unit s).1, (g.unit_range s).1, (g.unit_range s).2, by simp [rowQ]⟩
    | succ j =>
      obtain ⟨r, h0, h1, h⟩ := ih (g.unit s).2 j (by simpa using hj)
      exact ⟨r, h0, h1, by simpa [rowQ] using h⟩

theorem row1_ok (g : SuperRng) (ps : List Nat) (ms : List ℚ) (s : g.State) (hl : ps.length = ms.length)
    (hp : ∀ p ∈ ps, p < 2 ^ 32) :
    row1 g ps (ms.map .fin) s = .ok ((List.zipWith min ms (rowQ g ps s)).map .fin) := by
  induction ps generalizing ms s with
  | nil =>
    cases ms with
    | nil => rfl
    | cons m ms => simp at hl
  | cons p ps ih =>
    cases ms with
    | nil => simp at hl
    | cons m ms =>
      simp only [List.map_cons, row1]
      rw [ih ms _ (by simpa using hl) (fun p h => hp p (List.mem_cons_of_mem _ h))]
      simp only [bind, Except.bind, pure, Except.pure]
      rw [superVal_fin (g.unit_range s).1 (g.unit_range s).2 (hp p List.mem_cons_self), fmin_fin]
      rfl

theorem row1_short (g : SuperRng) (ps : List Nat) (ms : List Fl) (s : g.State) (hl : ps.length < ms.length) :
    row1 g ps ms s = .error .index := by
  induction ps generalizing ms s with
  | nil =>
    cases ms with
    | nil => simp at hl
    | cons m ms => rfl
  | cons p ps ih =>
    cases ms with
    | nil => simp at hl
    | cons m ms =>
      simp only [row1]
      rw [ih ms _ (by simpa using hl)]
      rfl

/-- The values of a token. -/
def tokQ (g : SuperRng) (m : SuperMinHasher Tok) (t : Tok) : List ℚ :=
  let p := g.shuffle (List.range m.numHashes) (g.seedFromU64 (m.hash t))
  rowQ g p.1 p.2

theorem tokQ_length (g : SuperRng) (m : SuperMinHasher Tok) (t : Tok) : (tokQ g m t).length = m.numHashes := by
  unfold tokQ
  rw [rowQ_length, (g.shuffle_perm _ _).length_eq, List.length_range]

theorem item1_ok (g : SuperRng) (m : SuperMinHasher Tok) (hn : m.numHashes < 2 ^ 32) (ms : List ℚ)
    (hl : ms.length = m.numHashes) (t : Tok) :
    item1 g m (ms.map .fin) t = .ok ((List.zipWith min ms (tokQ g m t)).map .fin) := by
  unfold item1 tokQ
  rw [Nat.mod_eq_of_lt hn]
  have hperm := g.shuffle_perm (List.range m.numHashes) (g.seedFromU64 (m.hash t))
  refine row1_ok g _ _ _ (by rw [hperm.length_eq, List.length_range, hl]) ?_
  intro p hp
  have := List.mem_range.mp (hperm.mem_iff.mp hp)
  omega

/-- The final values. -/
def finalQ (g : SuperRng) (m : SuperMinHasher Tok) (iter : List Tok) : List ℚ :=
  iter.foldl (fun ms t => List.zipWith min ms (tokQ g m t)) (List.replicate m.numHashes 100000000)

theorem fold1 (g : SuperRng) (m : SuperMinHasher Tok) (hn : m.numHashes < 2 ^ 32) (iter : List Tok) (ms : List ℚ)
    (hl : ms.length = m.numHashes) :
    iter.foldlM (item1 g m) (ms.map .fin) =
      .ok ((iter.foldl (fun ms t => List.zipWith min ms (tokQ g m t)) ms).map .fin) := by
  induction iter generalizing ms with
  | nil => rfl
  | cons t ts ih =>
    rw [List.foldlM_cons, item1_ok g m hn ms hl t]
    simp only [bind, Except.bind, List.foldl_cons]
    exact ih _ (by rw [List.length_zipWith, tokQ_length, hl, min_self])

theorem sig1_eq (g : SuperRng) (m : SuperMinHasher Tok) (hn : m.numHashes < 2 ^ 32) (iter : List Tok) :
    createSignature1 g m iter = .ok (((finalQ g m iter).map .fin).map superCast) := by
  unfold createSignature1
  have e : List.replicate m.numHashes superInit = (List.replicate m.numHashes (100000000 : ℚ)).map .fin := by
    rw [List.map_replicate, superInit_eq]
  rw [e, fold1 g m hn iter _ (by simp)]
  rfl

theorem sig1_panics (g : SuperRng) (m : SuperMinHasher Tok) (hn : 2 ^ 32 ≤ m.numHashes) (t : Tok) (ts : List Tok) :
    createSignature1 g m (t :: ts) = .error .index := by
  unfold createSignature1
  rw [List.foldlM_cons]
  have : item1 g m (List.replicate m.numHashes superInit) t = .error .index := by
    unfold item1
    refine row1_short g _ _ _ ?_
    rw [(g.shuffle_perm _ _).length_eq, List.length_range, List.length_replicate]
    have : m.numHashes % 2 ^ 32 < 2 ^ 32 := Nat.mod_lt _ (by norm_num)
    omega
  rw [this]
  rfl

/-- One position of the fold. -/
def posQ (v : Tok → ℚ) (iter : List Tok) (x : ℚ) : ℚ := iter.foldl (fun x t => min x (v t)) x

theorem posQ_le (v : Tok → ℚ) (iter : List Tok) (x : ℚ) : posQ v iter x ≤ x := by
  unfold posQ
  induction iter generalizing x with
  | nil => exact le_rfl
  | cons t ts ih => exact (ih _).trans (min_le_left _ _)

theorem posQ_le_mem (v : Tok → ℚ) (iter : List Tok) (x : ℚ) {t : Tok} (h : t ∈ iter) : posQ v iter x ≤ v t := by
  induction iter generalizing x with
  | nil => cases h
  | cons u us ih =>
    rcases List.mem_cons.mp h with rfl | h
    · exact (posQ_le v us _).trans (min_le_right _ _)
    · exact ih _ h

theorem posQ_cases (v : Tok → ℚ) (iter : List Tok) (x : ℚ) : posQ v iter x = x ∨ ∃ t ∈ iter, posQ v iter x = v t := by
  induction iter generalizing x with
  | nil => exact Or.inl rfl
  | cons u us ih =>
    have e : posQ v (u :: us) x = posQ v us (min x (v u)) := rfl
    rw [e]
    rcases ih (min x (v u)) with h | ⟨t, ht, h⟩
    · rcases min_choice x (v u) with h' | h'
      · exact Or.inl (h.trans h')
      · exact Or.inr ⟨u, List.mem_cons_self, h.trans h'⟩
    · exact Or.inr ⟨t, List.mem_cons_of_mem _ ht, h⟩

theorem posQ_congr (v : Tok → ℚ) {l l' : List Tok} (h : ∀ t, t ∈ l ↔ t ∈ l') (x : ℚ) : posQ v l x = posQ v l' x := by
  have key : ∀ a b : List Tok, (∀ t, t ∈ a → t ∈ b) → posQ v b x ≤ posQ v a x := by
    intro a b hab
    rcases posQ_cases v a x with e | ⟨t, ht, e⟩
    · rw [e]; exact posQ_le _ _ _
    · rw [e]; exact posQ_le_mem _ _ _ (hab t ht)
  exact le_antisymm (key _ _ fun t ht => (h t).mpr ht) (key _ _ fun t ht => (h t).mp ht)

theorem posQ_append (v : Tok → ℚ) (l l' : List Tok) (x : ℚ) :
    posQ v (l ++ l') x = min (posQ v l x) (posQ v l' x) := by
  apply le_antisymm
  · apply le_min
    · rcases posQ_cases v l x with e | ⟨t, ht, e⟩
      · rw [e]; exact posQ_le _ _ _
      · rw [e]; exact posQ_le_mem _ _ _ (by simp [ht])
    · rcases posQ_cases v l' x with e | ⟨t, ht, e⟩
      · rw [e]; exact posQ_le _ _ _
      · rw [e]; exact posQ_le_mem _ _ _ (by simp [ht])
  · rcases posQ_cases v (l ++ l') x with e | ⟨t, ht, e⟩
    · rw [e]; exact min_le_of_left_le (posQ_le _ _ _)
    · rw [e]
      rcases List.mem_append.mp ht with h | h
      · exact min_le_of_left_le (posQ_le_mem _ _ _ h)
      · exact min_le_of_right_le (posQ_le_mem _ _ _ h)

theorem finalQ_eq (g : SuperRng) (m : SuperMinHasher Tok) (iter : List Tok) :
    finalQ g m iter =
      (List.range m.numHashes).map fun j => posQ (fun t => (tokQ g m t).getD j 0) iter 100000000 := by
  have key : ∀ ms : List ℚ, ms.length = m.numHashes →
      iter.foldl (fun ms t => List.zipWith min ms (tokQ g m t)) ms =
        (List.range m.numHashes).map fun j => posQ (fun t => (tokQ g m t).getD j 0) iter (ms.getD j 0) := by
    induction iter with
    | nil =>
      intro ms hl
      apply List.ext_getElem
      · simp [hl]
      · intro j h1 h2
        have h3 : j < ms.length := h1
        simp [posQ, List.getD_eq_getElem?_getD, h3]
    | cons t ts ih =>
      intro ms hl
      rw [List.foldl_cons, ih _ (by rw [List.length_zipWith, tokQ_length, hl, min_self])]
      apply List.map_congr_left
      intro j hj
      have hj := List.mem_range.mp hj
      have h1 : j < ms.length := by omega
      have h2 : j < (tokQ g m t).length := by rw [tokQ_length]; exact hj
      simp only [posQ, List.foldl_cons]
      congr 1
      rw [List.getD_eq_getElem?_getD, List.getD_eq_getElem?_getD, List.getD_eq_getElem?_getD,
        List.getElem?_eq_getElem h1, List.getElem?_eq_getElem h2,
        List.getElem?_eq_getElem (by rw [List.length_zipWith]; omega)]
      simp
  rw [finalQ, key _ (by simp)]
  apply List.map_congr_left
  intro j hj
  have hj := List.mem_range.mp hj
  simp [List.getD_eq_getElem?_getD, hj]

/-- A token assigns the positions a permutation, up to rounding of the sum. -/
theorem tokQ_bounds (g : SuperRng) (m : SuperMinHasher Tok) (hn : m.numHashes ≤ 2 ^ 24) (t : Tok) :
    ∃ π : List Nat, π.Perm (List.range m.numHashes) ∧ ∀ (j p : Nat), π[j]? = some p →
      (p : ℚ) ≤ (tokQ g m t).getD j 0 ∧ (tokQ g m t).getD j 0 ≤ p + 1 := by
  refine ⟨(g.shuffle (List.range m.numHashes) (g.seedFromU64 (m.hash t))).1, g.shuffle_perm _ _, ?_⟩
  intro j p hp
  obtain ⟨hj, rfl⟩ := List.getElem?_eq_some_iff.mp hp
  obtain ⟨r, h0, h1, h⟩ := rowQ_get g _ (g.shuffle (List.range m.numHashes) (g.seedFromU64 (m.hash t))).2 j hj
  have : (tokQ g m t).getD j 0 = superQ r (g.shuffle (List.range m.numHashes) (g.seedFromU64 (m.hash t))).1[j] := by
    unfold tokQ
    rw [List.getD_eq_getElem?_getD, h]
    rfl
  rw [this]
  refine superQ_bounds h0 h1 ?_
  have := List.mem_range.mp ((g.shuffle_perm (List.range m.numHashes) _).mem_iff.mp (List.getElem_mem hj))
  omega

/-! ### V2 -/

theorem indexE_lt {α : Type} {l : List α} {i : Nat} (h : i < l.length) : indexE l i = .ok l[i] := by
  unfold indexE
  rw [List.getElem?_eq_getElem h]

theorem setE_lt {α : Type} {l : List α} {i : Nat} (h : i < l.length) (x : α) : setE l i x = .ok (l.set i x) := by
  unfold setE
  rw [if_pos h]

theorem sum_take_set (l : List Int) (i k : Nat) (hi : i < l.length) (v : Int) :
    ((l.set i v).take k).sum = (l.take k).sum + if i < k then v - l[i] else 0 := by
  induction l generalizing i k with
  | nil => simp at hi
  | cons x xs ih =>
    cases k with
    | zero => simp
    | succ k =>
      cases i with
      | zero => simp; omega
      | succ i =>
        have := ih i k (by simpa using hi)
        simp only [List.set_cons_succ, List.take_succ_cons, List.sum_cons, this, List.getElem_cons_succ,
          Nat.succ_lt_succ_iff]
        omega

/-- What holds of the local variables between two iterations: no access is out of range, and the part of `b` up to `a`
has a positive sum, so that the search for the next `a` ends. -/
structure Ok2 (m : Nat) (l : Locals) : Prop where
  hh : l.h.length = m
  hq : l.q.length = m
  hp : l.p.length = m
  hb : l.b.length = m
  ha : l.a < m
  hpm : ∀ x ∈ l.p, x < m
  hs : 1 ≤ (l.b.take (l.a + 1)).sum

theorem lowerA_ok (b : List Int) (a : Nat) (ha : a < b.length) (hs : 1 ≤ (b.take (a + 1)).sum) :
    ∃ a', lowerA b a = .ok a' ∧ a' ≤ a ∧ 1 ≤ (b.take (a' + 1)).sum := by
  induction a with
  | zero =>
    refine ⟨0, ?_, le_rfl, hs⟩
    have h : b[0] ≠ 0 := by
      intro h0
      rw [List.take_add_one, List.take_zero, List.getElem?_eq_getElem ha, h0] at hs
      simp at hs
    simp only [lowerA, indexE_lt ha, bind, Except.bind, if_neg h]
    rfl
  | succ a ih =>
    simp only [lowerA, indexE_lt ha, bind, Except.bind]
    by_cases h : b[a + 1] = 0
    · rw [if_pos h]
      rw [List.take_add_one, List.getElem?_eq_getElem ha, h] at hs
      simp only [Option.toList_some, List.sum_append, List.sum_cons, List.sum_nil, add_zero] at hs
      obtain ⟨a', h1, h2, h3⟩ := ih (by omega) hs
      exact ⟨a', h1, by omega, h3⟩
    · rw [if_neg h]
      exact ⟨a + 1, rfl, le_rfl, hs⟩

theorem mem_set_lt {l : List Nat} {i x m : Nat} (h : ∀ y ∈ l, y < m) (hx : x < m) : ∀ y ∈ l.set i x, y < m := by
  intro y hy
  rcases List.mem_or_eq_of_mem_set hy with h' | rfl
  · exact h y h'
  · exact hx

theorem resetP_ok {m i j : Nat} {l : Locals} (h : Ok2 m l) (hj : j < m) :
    ∃ q p, resetP i j l = .ok { l with q := q, p := p } ∧ Ok2 m { l with q := q, p := p } := by
  unfold resetP
  rw [indexE_lt (by rw [h.hq]; exact hj)]
  simp only [bind, Except.bind]
  split
  · rw [setE_lt (by rw [h.hq]; exact hj), setE_lt (by rw [h.hp]; exact hj)]
    exact ⟨_, _, rfl, ⟨h.hh, by simpa using h.hq, by simpa using h.hp, h.hb, h.ha, mem_set_lt h.hpm hj, h.hs⟩⟩
  · exact ⟨l.q, l.p, rfl, h⟩

theorem swapP_ok {m j k : Nat} {l : Locals} (h : Ok2 m l) (hj : j < m) (hk : k < m) :
    ∃ p, swapP j k l = .ok { l with p := p } ∧ Ok2 m { l with p := p } := by
  unfold swapP
  rw [indexE_lt (by rw [h.hp]; exact hj), indexE_lt (by rw [h.hp]; exact hk)]
  simp only [bind, Except.bind]
  rw [setE_lt (by rw [h.hp]; exact hj)]
  simp only
  rw [setE_lt (by rw [List.length_set, h.hp]; exact hk)]
  exact ⟨_, rfl, ⟨h.hh, h.hq, by simpa using h.hp, h.hb, h.ha,
    mem_set_lt (mem_set_lt h.hpm (h.hpm _ (List.getElem_mem _))) (h.hpm _ (List.getElem_mem _)), h.hs⟩⟩

theorem update_ok {m j : Nat} {l : Locals} (r : ℚ) (h : Ok2 m l) (hj : j ≤ l.a) :
    ∃ l', update m j r l = .ok l' ∧ Ok2 m l' ∧ l'.a ≤ l.a ∧ l'.p = l.p := by
  have hjm : j < m := lt_of_le_of_lt hj h.ha
  have hpj : l.p[j]'(by rw [h.hp]; exact hjm) < m := h.hpm _ (List.getElem_mem _)
  unfold update
  rw [indexE_lt (by rw [h.hp]; exact hjm)]
  simp only [bind, Except.bind]
  rw [indexE_lt (by rw [h.hh]; exact hpj)]
  simp only
  split
  · rw [setE_lt (by rw [h.hh]; exact hpj)]
    simp only
    split
    · rename_i hlt
      have hj2 : min ((l.h[l.p[j]'(by rw [h.hp]; exact hjm)]'(by rw [h.hh]; exact hpj)).toUnsigned (2 ^ 64 - 1))
          (m - 1) < m := by omega
      generalize min ((l.h[l.p[j]'(by rw [h.hp]; exact hjm)]'(by rw [h.hh]; exact hpj)).toUnsigned (2 ^ 64 - 1))
          (m - 1) = j2 at hlt hj2
      rw [indexE_lt (by rw [h.hb]; exact hj2)]
      simp only
      rw [setE_lt (by rw [h.hb]; exact hj2)]
      simp only
      rw [indexE_lt (by rw [List.length_set, h.hb]; exact hjm)]
      simp only
      rw [setE_lt (by rw [List.length_set, h.hb]; exact hjm)]
      simp only
      have hsum : 1 ≤ ((((l.b.set j2 (l.b[j2]'(by rw [h.hb]; exact hj2) - 1)).set j
          ((l.b.set j2 (l.b[j2]'(by rw [h.hb]; exact hj2) - 1))[j]'(by rw [List.length_set, h.hb]; exact hjm)
            + 1))).take (l.a + 1)).sum := by
        rw [sum_take_set _ _ _ (by rw [List.length_set, h.hb]; exact hjm),
          sum_take_set _ _ _ (by rw [h.hb]; exact hj2), if_pos (show j < l.a + 1 by omega)]
        have := h.hs
        split <;> omega
      obtain ⟨a', e, h1, h2⟩ := lowerA_ok _ l.a (by simp only [List.length_set, h.hb]; exact h.ha) hsum
      rw [e]
      exact ⟨_, rfl, ⟨by simpa using h.hh, h.hq, h.hp, by simpa using h.hb, lt_of_le_of_lt h1 h.ha, h.hpm, h2⟩, h1, rfl⟩
    · exact ⟨_, rfl, ⟨by simpa using h.hh, h.hq, h.hp, h.hb, h.ha, h.hpm, h.hs⟩, le_rfl, rfl⟩
  · exact ⟨_, rfl, h, le_rfl, rfl⟩

/-- One iteration of the loop. -/
def iter2 (m i j : Nat) (r : ℚ) (k : Nat) (l : Locals) : Except Panic Locals := do
  let l ← resetP i j l
  let l ← resetP i k l
  let l ← swapP j k l
  update m j r l

theorem loop2_succ (g : SuperRng) (m i fuel j : Nat) (s : g.State) (l : Locals) (hj : j ≤ l.a) (hm : j < m) :
    loop2 g m i (fuel + 1) j s l =
      (iter2 m i j (g.unit s).1 (g.uniform j m (g.unit s).2).1 l).bind fun l =>
        loop2 g m i fuel (j + 1) (g.uniform j m (g.unit s).2).2 l := by
  simp only [loop2, if_pos hj, if_pos hm, iter2, bind]
  cases resetP i j l with
  | error e => rfl
  | ok l =>
    simp only [Except.bind]
    cases resetP i (g.uniform j m (g.unit s).2).1 l with
    | error e => rfl
    | ok l =>
      simp only
      cases swapP j (g.uniform j m (g.unit s).2).1 l with
      | error e => rfl
      | ok l => rfl

theorem iter2_ok {m i j k : Nat} {l : Locals} (r : ℚ) (h : Ok2 m l) (hj : j ≤ l.a) (hk : k < m) :
    ∃ l', iter2 m i j r k l = .ok l' ∧ Ok2 m l' ∧ l'.a ≤ l.a := by
  have hjm : j < m := lt_of_le_of_lt hj h.ha
  obtain ⟨q1, p1, e1, h1⟩ := resetP_ok (i := i) h hjm
  obtain ⟨q2, p2, e2, h2⟩ := resetP_ok (i := i) h1 hk
  obtain ⟨p3, e3, h3⟩ := swapP_ok h2 hjm hk
  obtain ⟨l', e4, h4, h5, _⟩ := update_ok r h3 hj
  refine ⟨l', ?_, h4, h5⟩
  unfold iter2
  rw [e1]
  simp only [bind, Except.bind]
  rw [e2]
  simp only
  rw [e3]
  exact e4

theorem loop2_ok (g : SuperRng) (m i fuel j : Nat) (s : g.State) (l : Locals) (h : Ok2 m l) (h0 : 0 < fuel)
    (hf : l.a + 1 < fuel + j) : ∃ l', loop2 g m i fuel j s l = .ok l' ∧ Ok2 m l' := by
  induction fuel generalizing j s l with
  | zero => omega
  | succ fuel ih =>
    by_cases hj : j ≤ l.a
    · have hjm : j < m := lt_of_le_of_lt hj h.ha
      rw [loop2_succ g m i fuel j s l hj hjm]
      obtain ⟨l', e, h1, h2⟩ := iter2_ok (i := i) (g.unit s).1 h hj (g.uniform_range j m (g.unit s).2 hjm).2
      rw [e]
      exact ih _ _ _ h1 (by omega) (by omega)
    · refine ⟨l, ?_, h⟩
      simp only [loop2, if_neg hj]

/-- The variables before the first item. -/
def start2 (n : Nat) : Locals :=
  { h := List.replicate n superInit, a := n - 1, q := List.replicate n 0, p := List.replicate n 0,
    b := (List.replicate n (-1)).set (n - 1) n }

theorem start2_ok {n : Nat} (hn : 0 < n) : Ok2 n (start2 n) := by
  refine ⟨by simp [start2], by simp [start2], by simp [start2], by simp [start2], by simp [start2]; omega, ?_, ?_⟩
  · intro x hx
    simp only [start2, List.mem_replicate] at hx
    omega
  · simp only [start2]
    rw [sum_take_set _ _ _ (by simp; omega), if_pos (by omega), List.take_replicate]
    simp

theorem fold2_ok (g : SuperRng) (m : SuperMinHasher Tok) (xs : List (Tok × Nat)) (l : Locals) (h : Ok2 m.numHashes l) :
    ∃ l', xs.foldlM (item2 g m) l = .ok l' ∧ Ok2 m.numHashes l' := by
  induction xs generalizing l with
  | nil => exact ⟨l, rfl, h⟩
  | cons x xs ih =>
    have := h.ha
    obtain ⟨l', e, h'⟩ := loop2_ok g m.numHashes x.2 (m.numHashes + 1) 0 (g.seedFromU64 (m.hash x.1)) l h
      (by omega) (by omega)
    rw [List.foldlM_cons, item2, e]
    exact ih l' h'

theorem sig2_eq (g : SuperRng) (m : SuperMinHasher Tok) (hn : 0 < m.numHashes) (iter : List Tok) :
    createSignature2 g m iter =
      (iter.zipIdx.foldlM (item2 g m) (start2 m.numHashes)).bind fun l => .ok (l.h.map superCast) := by
  unfold createSignature2
  simp only [if_neg (by omega : ¬ m.numHashes = 0)]
  rfl

/-! #### Values of V2 -/

/-- The sum `r + j as f32` for any `j`. -/
theorem superVal_cases {r : ℚ} (h0 : 0 ≤ r) (j : Nat) :
    Fl.add b32 (.fin r) (Fl.ofNat b32 j) = .pinf ∨
      ∃ x, Fl.add b32 (.fin r) (Fl.ofNat b32 j) = .fin x ∧ 0 ≤ x ∧ (1 ≤ j → 1 ≤ x) := by
  have hpos : ∀ q : ℚ, 0 ≤ q → rnd b32 q = .pinf ∨ rnd b32 q = .fin (rndQ b32 q) := by
    intro q hq
    unfold rnd
    split
    · exact Or.inl rfl
    · rw [if_neg]
      · exact Or.inr rfl
      · have h1 := rndQ_nonneg (f := b32) hq
        have h2 := two_zpow_pos b32.emax
        linarith
  have hone : ∀ q : ℚ, 1 ≤ q → 1 ≤ rndQ b32 q := by
    intro q hq
    have := rndQ_mono (f := b32) (by simp [b32]) (by norm_num : (0 : ℚ) ≤ 1) hq
    rwa [rndQ_one b32_ok] at this
  rcases hpos (j : ℚ) (by positivity) with e | e
  · left; unfold Fl.ofNat; rw [e]; rfl
  · have hj : 0 ≤ rndQ b32 (j : ℚ) := rndQ_nonneg (by positivity)
    rcases hpos (r + rndQ b32 (j : ℚ)) (by linarith) with e' | e'
    · left; unfold Fl.ofNat; rw [e]; exact e'
    · right
      refine ⟨_, by unfold Fl.ofNat; rw [e]; exact e', rndQ_nonneg (by linarith), fun h => hone _ ?_⟩
      have := hone (j : ℚ) (by exact_mod_cast h)
      linarith

theorem lt_fin {a b : ℚ} : Fl.lt (.fin a) (.fin b) = true ↔ a < b := by
  simp [Fl.lt, Fl.cmp, compare_lt_iff_lt]

theorem lt_pinf {b : ℚ} : Fl.lt .pinf (.fin b) = false := by
  simp [Fl.lt, Fl.cmp]

/-- The effect of an update on the slots. -/
theorem update_h {m j : Nat} {l l' : Locals} {r : ℚ} (e : update m j r l = .ok l') :
    ∃ pj old, l.p[j]? = some pj ∧ l.h[pj]? = some old ∧ l'.p = l.p ∧ l'.q = l.q ∧
      l'.h = if Fl.lt (Fl.add b32 (.fin r) (Fl.ofNat b32 j)) old then
        l.h.set pj (Fl.add b32 (.fin r) (Fl.ofNat b32 j)) else l.h := by
  unfold update at e
  simp only [bind, Except.bind] at e
  unfold indexE at e
  split at e
  · cases e
  rename_i pj hpj
  split at hpj <;> cases hpj
  rename_i hpj
  split at e
  · cases e
  rename_i old hold
  split at hold <;> cases hold
  rename_i hold
  refine ⟨pj, old, hpj, hold, ?_⟩
  split at e
  · rename_i hlt
    rw [if_pos hlt]
    split at e
    · cases e
    rename_i h' hh'
    unfold setE at hh'
    split at hh' <;> cases hh'
    split at e
    · split at e
      · cases e
      split at e
      · cases e
      split at e
      · cases e
      split at e
      · cases e
      split at e
      · cases e
      cases e
      exact ⟨rfl, rfl, rfl⟩
    · cases e
      exact ⟨rfl, rfl, rfl⟩
  · rename_i hlt
    rw [if_neg hlt]
    cases e
    exact ⟨rfl, rfl, rfl⟩

/-- The slots only decrease. -/
def Below (h' h : List Fl) : Prop :=
  List.Forall₂ (fun x' x => ∃ a b : ℚ, x' = Fl.fin a ∧ x = Fl.fin b ∧ a ≤ b) h' h

theorem Below.trans {a b c : List Fl} (h1 : Below a b) (h2 : Below b c) : Below a c := by
  unfold Below at *
  induction h1 generalizing c with
  | nil => exact h2
  | cons hx _ ih =>
    cases h2 with
    | cons hy hrest =>
      obtain ⟨p, q, rfl, rfl, h⟩ := hx
      obtain ⟨q', r, e, rfl, h'⟩ := hy
      cases e
      exact List.Forall₂.cons ⟨p, r, rfl, rfl, h.trans h'⟩ (ih hrest)

theorem Below.left {h' h : List Fl} (hb : Below h' h) : Below h' h' := by
  unfold Below at *
  induction hb with
  | nil => exact List.Forall₂.nil
  | cons hx _ ih =>
    obtain ⟨p, q, rfl, rfl, h⟩ := hx
    exact List.Forall₂.cons ⟨p, p, rfl, rfl, le_rfl⟩ ih

theorem Below.get {h' h : List Fl} (hb : Below h' h) (i : Nat) {x : Fl} (hx : h[i]? = some x) :
    ∃ a b : ℚ, h'[i]? = some (.fin a) ∧ x = .fin b ∧ a ≤ b := by
  unfold Below at hb
  induction hb generalizing i with
  | nil => simp at hx
  | cons hxy _ ih =>
    cases i with
    | zero =>
      obtain ⟨p, q, rfl, rfl, h⟩ := hxy
      simp only [List.getElem?_cons_zero, Option.some.injEq] at hx
      exact ⟨p, q, by simp, hx.symm, h⟩
    | succ i =>
      simp only [List.getElem?_cons_succ] at hx ⊢
      exact ih i hx

theorem Below.set {h : List Fl} (hb : Below h h) {i : Nat} {v : Fl} {old : Fl} (ho : h[i]? = some old) {a : ℚ}
    (hv : v = .fin a) (hlt : Fl.lt v old = true) : Below (h.set i v) h := by
  unfold Below at *
  induction h generalizing i with
  | nil => exact hb
  | cons x xs ih =>
    cases hb with
    | cons hx hrest =>
      cases i with
      | zero =>
        obtain ⟨p, q, rfl, e, _⟩ := hx
        simp only [List.getElem?_cons_zero, Option.some.injEq] at ho
        subst ho hv
        exact List.Forall₂.cons ⟨a, p, rfl, rfl, (lt_fin.mp hlt).le⟩ hrest
      | succ i =>
        simp only [List.getElem?_cons_succ] at ho
        exact List.Forall₂.cons hx (ih hrest ho)

theorem iter2_split {m i j k : Nat} {r : ℚ} {l l' : Locals} (h : Ok2 m l) (hj : j < m) (hk : k < m)
    (e : iter2 m i j r k l = .ok l') :
    ∃ q p, Ok2 m { l with q := q, p := p } ∧ update m j r { l with q := q, p := p } = .ok l' := by
  obtain ⟨q1, p1, e1, h1⟩ := resetP_ok (i := i) h hj
  obtain ⟨q2, p2, e2, h2⟩ := resetP_ok (i := i) h1 hk
  obtain ⟨p3, e3, h3⟩ := swapP_ok h2 hj hk
  refine ⟨q2, p3, h3, ?_⟩
  unfold iter2 at e
  rw [e1] at e
  simp only [bind, Except.bind] at e
  rw [e2] at e
  simp only at e
  rw [e3] at e
  exact e

theorem update_below {m j : Nat} {r : ℚ} (h0 : 0 ≤ r) {l l' : Locals} (hb : Below l.h l.h)
    (e : update m j r l = .ok l') : Below l'.h l.h := by
  obtain ⟨pj, old, _, ho, _, _, hh⟩ := update_h e
  rw [hh]
  split
  · rename_i hlt
    rcases superVal_cases h0 j with hv | ⟨x, hv, _⟩
    · obtain ⟨a, b, ha, rfl, _⟩ := Below.get hb pj ho
      rw [hv, lt_pinf] at hlt
      cases hlt
    · exact Below.set hb ho hv hlt
  · exact hb

theorem loop2_below (g : SuperRng) (m i fuel j : Nat) (s : g.State) (l l' : Locals) (h : Ok2 m l) (hb : Below l.h l.h)
    (e : loop2 g m i fuel j s l = .ok l') : Below l'.h l.h := by
  induction fuel generalizing j s l with
  | zero => cases e
  | succ fuel ih =>
    by_cases hj : j ≤ l.a
    · have hjm : j < m := lt_of_le_of_lt hj h.ha
      rw [loop2_succ g m i fuel j s l hj hjm] at e
      have hk := (g.uniform_range j m (g.unit s).2 hjm).2
      obtain ⟨l1, e1, h1, _⟩ := iter2_ok (i := i) (g.unit s).1 h hj hk
      obtain ⟨q, p, _, e2⟩ := iter2_split h hjm hk e1
      have hb1 := update_below (g.unit_range s).1 (l := { l with q := q, p := p }) hb e2
      rw [e1] at e
      exact Below.trans (ih _ _ _ h1 hb1.left e) hb1
    · simp only [loop2, if_neg hj] at e
      cases e
      exact hb

theorem fold2_below (g : SuperRng) (m : SuperMinHasher Tok) (xs : List (Tok × Nat)) (l l' : Locals)
    (h : Ok2 m.numHashes l) (hb : Below l.h l.h) (e : xs.foldlM (item2 g m) l = .ok l') : Below l'.h l.h := by
  induction xs generalizing l with
  | nil => cases e; exact hb
  | cons x xs ih =>
    have := h.ha
    obtain ⟨l1, e1, h1⟩ := loop2_ok g m.numHashes x.2 (m.numHashes + 1) 0 (g.seedFromU64 (m.hash x.1)) l h
      (by omega) (by omega)
    rw [List.foldlM_cons, item2, e1] at e
    have hb1 := loop2_below g _ _ _ _ _ _ _ h hb e1
    exact Below.trans (ih l1 h1 hb1.left e) hb1

theorem start2_below (n : Nat) : Below (start2 n).h (start2 n).h := by
  unfold Below start2
  rw [superInit_eq]
  simp only
  induction n with
  | zero => exact List.Forall₂.nil
  | succ n ih => exact List.Forall₂.cons ⟨_, _, rfl, rfl, le_rfl⟩ ih

/-! #### The first item of V2 -/

theorem replicate_set {α : Type} (n i : Nat) (x : α) : (List.replicate n x).set i x = List.replicate n x := by
  apply List.ext_getElem
  · simp
  · intro j h1 h2
    simp [List.getElem_set]

theorem resetP_first {m j : Nat} {l : Locals} (hq : l.q = List.replicate m 0) (hj : j < m) : resetP 0 j l = .ok l := by
  unfold resetP
  rw [indexE_lt (by rw [hq, List.length_replicate]; exact hj)]
  simp only [bind, Except.bind, hq, List.getElem_replicate, ne_eq, not_true_eq_false, if_false]
  rfl

theorem swapP_first {m j k : Nat} {l : Locals} (hp : l.p = List.replicate m 0) (hj : j < m) (hk : k < m) :
    swapP j k l = .ok l := by
  unfold swapP
  rw [indexE_lt (by rw [hp, List.length_replicate]; exact hj), indexE_lt (by rw [hp, List.length_replicate]; exact hk)]
  simp only [bind, Except.bind, hp, List.getElem_replicate]
  rw [setE_lt (by rw [List.length_replicate]; exact hj), replicate_set]
  simp only
  rw [setE_lt (by rw [List.length_replicate]; exact hk), replicate_set, ← hp]
  rfl

theorem iter2_first {m j k : Nat} {r : ℚ} {l : Locals} (hq : l.q = List.replicate m 0) (hp : l.p = List.replicate m 0)
    (hj : j < m) (hk : k < m) : iter2 m 0 j r k l = update m j r l := by
  unfold iter2
  rw [resetP_first hq hj]
  simp only [bind, Except.bind]
  rw [resetP_first hq hk]
  simp only
  rw [swapP_first hp hj hk]

/-- An update that does not lower the slot leaves everything as it is. -/
theorem update_keep {m j : Nat} {r : ℚ} {l : Locals} {pj : Nat} {old : Fl} (hp : l.p[j]? = some pj)
    (ho : l.h[pj]? = some old) (hlt : Fl.lt (Fl.add b32 (.fin r) (Fl.ofNat b32 j)) old = false) :
    update m j r l = .ok l := by
  unfold update indexE
  rw [hp]
  simp only [bind, Except.bind]
  rw [ho]
  simp only [hlt]
  rfl

/-- After slot 0 has got its first value, the rest of the first item does nothing. -/
theorem loop2_rest (g : SuperRng) (m fuel j : Nat) (s : g.State) (l : Locals) (h : Ok2 m l)
    (hq : l.q = List.replicate m 0) (hp : l.p = List.replicate m 0) {x : ℚ} (hx : l.h[0]? = some (.fin x)) (hx1 : x < 1)
    (hj1 : 1 ≤ j) (h0 : 0 < fuel) (hf : l.a + 1 < fuel + j) : loop2 g m 0 fuel j s l = .ok l := by
  induction fuel generalizing j s with
  | zero => omega
  | succ fuel ih =>
    by_cases hj : j ≤ l.a
    · have hjm : j < m := lt_of_le_of_lt hj h.ha
      rw [loop2_succ g m 0 fuel j s l hj hjm, iter2_first hq hp hjm (g.uniform_range j m (g.unit s).2 hjm).2,
        update_keep (pj := 0) (old := .fin x)]
      · exact ih _ _ (by omega) (by omega) (by omega)
      · rw [hp, List.getElem?_eq_getElem (by simpa using hjm), List.getElem_replicate]
      · exact hx
      · rcases superVal_cases (g.unit_range s).1 j with e | ⟨y, e, _, hy⟩
        · rw [e, lt_pinf]
        · rw [e, Bool.eq_false_iff]
          intro hc
          have := lt_fin.mp hc
          have := hy hj1
          linarith
    · simp only [loop2, if_neg hj]

theorem lowerA_stay {b : List Int} {a : Nat} (ha : a < b.length) (h : b[a] ≠ 0) : lowerA b a = .ok a := by
  cases a with
  | zero =>
    simp only [lowerA, indexE_lt ha, bind, Except.bind, if_neg h]
    rfl
  | succ a =>
    simp only [lowerA, indexE_lt ha, bind, Except.bind, if_neg h]
    rfl

/-- The first update sets slot 0 and leaves `a` at the last index. -/
theorem update_start {n : Nat} (hn : 0 < n) {r : ℚ} (hr : r < 1)
    (hval : Fl.add b32 (.fin r) (Fl.ofNat b32 0) = .fin r) :
    ∃ b, update n 0 r (start2 n) = .ok { start2 n with h := (start2 n).h.set 0 (.fin r), b := b } := by
  have hlt : Fl.lt (Fl.fin r) superInit = true := by
    rw [superInit_eq, lt_fin]; linarith
  have hbl : (start2 n).b.length = n := by simp [start2]
  have hlast : (start2 n).b[n - 1]'(by rw [hbl]; omega) = n := by simp [start2]
  unfold update
  rw [indexE_lt (by simpa [start2] using hn)]
  simp only [bind, Except.bind]
  have h1 : (start2 n).p[0]'(by simpa [start2] using hn) = 0 := by simp [start2]
  rw [h1, indexE_lt (by simpa [start2] using hn)]
  have h2 : (start2 n).h[0]'(by simpa [start2] using hn) = superInit := by simp [start2]
  simp only [h2, hval, hlt, if_true]
  rw [setE_lt (by simpa [start2] using hn)]
  simp only
  split
  · rename_i hj2
    have hj2n : min (superInit.toUnsigned (2 ^ 64 - 1)) (n - 1) < n := by omega
    generalize min (superInit.toUnsigned (2 ^ 64 - 1)) (n - 1) = j2 at hj2 hj2n
    rw [indexE_lt (by rw [hbl]; exact hj2n)]
    simp only
    rw [setE_lt (by rw [hbl]; exact hj2n)]
    simp only
    rw [indexE_lt (by rw [List.length_set, hbl]; exact hn)]
    simp only
    rw [setE_lt (by rw [List.length_set, hbl]; exact hn)]
    simp only
    have ha : (start2 n).a = n - 1 := rfl
    rw [ha, lowerA_stay]
    · exact ⟨_, rfl⟩
    · simp only [List.length_set, hbl]; omega
    · rw [List.getElem_set_ne (by omega)]
      by_cases hjn : j2 = n - 1
      · subst hjn
        rw [List.getElem_set_self, hlast]
        omega
      · rw [List.getElem_set_ne hjn, hlast]
        omega
  · exact ⟨(start2 n).b, rfl⟩

/-- The variables after the first item: only slot 0 has a value. -/
theorem first2 (g : SuperRng) (m : SuperMinHasher Tok) (hn : 0 < m.numHashes) (t : Tok) :
    ∃ b, item2 g m (start2 m.numHashes) (t, 0) = .ok { start2 m.numHashes with
        h := (start2 m.numHashes).h.set 0 (.fin (g.unit (g.seedFromU64 (m.hash t))).1), b := b } ∧
      Ok2 m.numHashes { start2 m.numHashes with
        h := (start2 m.numHashes).h.set 0 (.fin (g.unit (g.seedFromU64 (m.hash t))).1), b := b } ∧
      update m.numHashes 0 (g.unit (g.seedFromU64 (m.hash t))).1 (start2 m.numHashes) = .ok { start2 m.numHashes with
        h := (start2 m.numHashes).h.set 0 (.fin (g.unit (g.seedFromU64 (m.hash t))).1), b := b } := by
  obtain ⟨n, hash⟩ : ∃ n, m.numHashes = n := ⟨_, rfl⟩
  rw [hash] at hn ⊢
  have hok := start2_ok hn
  unfold item2
  rw [hash]
  simp only
  generalize g.seedFromU64 (m.hash t) = s
  obtain ⟨hr0, hr1⟩ := g.unit_range s
  have hval : Fl.add b32 (.fin (g.unit s).1) (Fl.ofNat b32 0) = .fin (g.unit s).1 := by
    have : Fl.ofNat b32 0 = .fin 0 := by decide +kernel
    rw [this]
    simp only [Fl.add, add_zero]
    exact g.unit_single s
  rw [loop2_succ g n 0 n 0 s _ (Nat.zero_le _) hn, iter2_first rfl rfl hn (g.uniform_range 0 n (g.unit s).2 hn).2]
  obtain ⟨b, e⟩ := update_start hn hr1 hval
  obtain ⟨l', e', hl', _⟩ := update_ok (g.unit s).1 hok (Nat.zero_le _)
  rw [e, Except.ok.injEq] at e'
  rw [← e'] at hl'
  refine ⟨b, ?_, hl', e⟩
  rw [e]
  have hlen : 0 < (start2 n).h.length := by simpa [start2] using hn
  exact loop2_rest g n n 1 _ _ hl' rfl rfl (x := (g.unit s).1) (by simp [hlen]) hr1 le_rfl hn (by simp [start2]; omega)

/-! #### The second item of V2 -/

theorem resetP_new {i j : Nat} {l : Locals} (hq : j < l.q.length) (hp : j < l.p.length) (h : l.q[j] ≠ i) :
    resetP i j l = .ok { l with q := l.q.set j i, p := l.p.set j j } := by
  unfold resetP
  rw [indexE_lt hq]
  simp only [bind, Except.bind, if_pos h]
  rw [setE_lt hq, setE_lt hp]
  rfl

theorem resetP_old {i j : Nat} {l : Locals} (hq : j < l.q.length) (h : l.q[j] = i) : resetP i j l = .ok l := by
  unfold resetP
  rw [indexE_lt hq]
  simp only [bind, Except.bind, h, ne_eq, not_true_eq_false, if_false]
  rfl

/-- The slot of an iteration whose two indices are new to the item is the drawn one. -/
theorem prep {m i j k : Nat} {l : Locals} (hj : j < m) (hk : k < m) (hq : l.q.length = m) (hp : l.p.length = m)
    (hj' : l.q[j]'(by rw [hq]; exact hj) ≠ i) (hk' : l.q[k]'(by rw [hq]; exact hk) ≠ i) (r : ℚ) :
    ∃ p, iter2 m i j r k l = update m j r { l with q := (l.q.set j i).set k i, p := p } ∧
      p[j]? = some k := by
  unfold iter2
  rw [resetP_new (by rw [hq]; exact hj) (by rw [hp]; exact hj) hj']
  simp only [bind, Except.bind]
  by_cases hjk : k = j
  · subst hjk
    rw [resetP_old (by simpa [hq] using hk) (by simp)]
    simp only
    unfold swapP
    rw [indexE_lt (by simpa [hp] using hk)]
    simp only [bind, Except.bind, List.getElem_set_self]
    rw [setE_lt (by simpa [hp] using hk)]
    simp only
    rw [setE_lt (by simpa [hp] using hk)]
    simp only [pure, Except.pure]
    refine ⟨(l.p.set k k).set k k, by simp only [List.set_set], ?_⟩
    have : k < l.p.length := by rw [hp]; exact hk
    simp [this]
  · have hq2 : (l.q.set j i)[k]'(by simpa [hq] using hk) ≠ i := by
      rw [List.getElem_set_ne (fun h => hjk h.symm)]
      exact hk'
    rw [resetP_new (by simpa [hq] using hk) (by simpa [hp] using hk) hq2]
    simp only
    unfold swapP
    rw [indexE_lt (by simpa [hp] using hj), indexE_lt (by simpa [hp] using hk)]
    simp only [bind, Except.bind]
    rw [setE_lt (by simpa [hp] using hj)]
    simp only
    rw [setE_lt (by simpa [hp] using hk)]
    simp only [pure, Except.pure]
    refine ⟨_, rfl, ?_⟩
    have h1 : j < l.p.length := by rw [hp]; exact hj
    simp [hjk, h1]

/-- Repeating the only token of a document changes its signature: another slot than slot 0 gets a small value. -/
theorem second2 (g : SuperRng) (m : SuperMinHasher Tok) (hn : 2 ≤ m.numHashes) (t : Tok) (l : Locals)
    (b : List Int) (hl : l = { start2 m.numHashes with
        h := (start2 m.numHashes).h.set 0 (.fin (g.unit (g.seedFromU64 (m.hash t))).1), b := b })
    (hok : Ok2 m.numHashes l) :
    ∃ l', item2 g m l (t, 1) = .ok l' ∧ ∃ k x, 1 ≤ k ∧ l'.h[k]? = some (.fin x) ∧ x ≤ 2 := by
  obtain ⟨n, hash⟩ : ∃ n, m.numHashes = n := ⟨_, rfl⟩
  rw [hash] at hn hl hok
  unfold item2
  rw [hash]
  simp only
  revert hl
  generalize g.seedFromU64 (m.hash t) = s
  intro hl
  obtain ⟨hr0, hr1⟩ := g.unit_range s
  have hn0 : 0 < n := by omega
  have hval : Fl.add b32 (.fin (g.unit s).1) (Fl.ofNat b32 0) = .fin (g.unit s).1 := by
    have : Fl.ofNat b32 0 = .fin 0 := by decide +kernel
    rw [this]
    simp only [Fl.add, add_zero]
    exact g.unit_single s
  have hfin : Below l.h l.h := by
    rw [hl]
    refine (Below.set (start2_below n) (i := 0) (old := superInit) (a := (g.unit s).1) ?_ rfl ?_).left
    · simp [start2, hn0]
    · rw [superInit_eq, lt_fin]; linarith
  have hslot : ∀ k, 1 ≤ k → k < n → l.h[k]? = some superInit := by
    intro k h1 h2
    rw [hl]
    simp only [start2]
    rw [List.getElem?_set_ne (by omega)]
    simp [h2]
  have hqe : ∀ k (h : k < l.q.length), l.q[k] ≠ 1 := by
    intro k h
    have : l.q = List.replicate n 0 := by rw [hl]; rfl
    simp [this]
  -- the first iteration
  rw [loop2_succ g n 1 n 0 s l (Nat.zero_le _) hn0]
  have hk := g.uniform_range 0 n (g.unit s).2 hn0
  obtain ⟨l1, e1, hok1, ha1⟩ := iter2_ok (i := 1) (g.unit s).1 hok (Nat.zero_le _) hk.2
  obtain ⟨p, ep, hp0⟩ := prep (i := 1) hn0 hk.2 hok.hq hok.hp (hqe _ _) (hqe _ _) (g.unit s).1
  have e1' := ep.symm.trans e1
  have hb1 : Below l1.h l.h := update_below hr0 (l := { l with q := _, p := p }) hfin e1'
  obtain ⟨pj, old, hpj, hold, _, hqe1, hh⟩ := update_h e1'
  have hpk : pj = (g.uniform 0 n (g.unit s).2).1 := by
    rw [hp0] at hpj; exact (Option.some.inj hpj).symm
  rw [e1]
  by_cases hk0 : 1 ≤ pj
  · -- a slot other than 0 has been set
    obtain ⟨l', e', hok'⟩ := loop2_ok g n 1 n 1 (g.uniform 0 n (g.unit s).2).2 l1 hok1 hn0
      (by have := hok1.ha; omega)
    refine ⟨l', e', pj, ?_⟩
    have hb2 := loop2_below g _ _ _ _ _ _ _ hok1 hb1.left e'
    have hpn : pj < n := by rw [hpk]; exact hk.2
    have ho : old = superInit := by
      have := hslot pj hk0 hpn
      rw [show l.h[pj]? = some old from hold] at this
      exact Option.some.inj this
    rw [hval, ho, if_pos (by rw [superInit_eq, lt_fin]; linarith)] at hh
    have hg : l1.h[pj]? = some (.fin (g.unit s).1) := by
      rw [hh]
      have : pj < l.h.length := by rw [hok.hh]; exact hpn
      simp [this]
    obtain ⟨x, y, hx, hy, hxy⟩ := Below.get hb2 pj hg
    cases hy
    exact ⟨x, hk0, hx, by linarith⟩
  · -- slot 0 again: nothing changes, and the second iteration sets another slot
    have hpj0 : pj = 0 := by omega
    have ho : old = .fin (g.unit s).1 := by
      have h0 : l.h[0]? = some (.fin (g.unit s).1) := by
        rw [hl]
        have : 0 < (start2 n).h.length := by simpa [start2] using hn0
        simp [this]
      rw [hpj0] at hold
      exact Option.some.inj (hold.symm.trans h0)
    have hnlt : Fl.lt (Fl.fin (g.unit s).1) (Fl.fin (g.unit s).1) = false := by
      rw [Bool.eq_false_iff]
      intro hc
      exact lt_irrefl _ (lt_fin.mp hc)
    have hl1 : l1 = { l with q := (l.q.set 0 1).set (g.uniform 0 n (g.unit s).2).1 1, p := p } := by
      rw [update_keep (pj := pj) (old := old) hpj hold (by rw [hval, ho]; exact hnlt), Except.ok.injEq] at e1'
      exact e1'.symm
    have hq1 : ∀ k (h : k < l1.q.length), 1 ≤ k → l1.q[k] ≠ 1 := by
      intro k h h1
      have : l1.q = (l.q.set 0 1).set 0 1 := by rw [hl1, ← hpk, hpj0]
      simp only [this]
      rw [List.getElem_set_ne (by omega), List.getElem_set_ne (by omega)]
      exact hqe k _
    have ha : l1.a = n - 1 := by rw [hl1, hl]; rfl
    have hh1 : l1.h = l.h := by rw [hl1]
    obtain ⟨f, hf⟩ : ∃ f, n = f + 1 := ⟨n - 1, by omega⟩
    change ∃ l', loop2 g n 1 n 1 (g.uniform 0 n (g.unit s).2).2 l1 = .ok l' ∧ _
    generalize (g.uniform 0 n (g.unit s).2).2 = s2
    conv in loop2 g n 1 n 1 s2 l1 => rw [show loop2 g n 1 n 1 s2 l1 = loop2 g n 1 (f + 1) 1 s2 l1 by rw [← hf]]
    rw [loop2_succ g n 1 f 1 s2 l1 (by omega) (by omega)]
    have hk2 := g.uniform_range 1 n (g.unit s2).2 (by omega)
    obtain ⟨l2, e2, hok2, ha2⟩ := iter2_ok (i := 1) (g.unit s2).1 hok1 (by omega : 1 ≤ l1.a) hk2.2
    obtain ⟨p2, ep2, hp2⟩ := prep (i := 1) (by omega : 1 < n) hk2.2 hok1.hq hok1.hp (hq1 _ _ le_rfl) (hq1 _ _ hk2.1)
      (g.unit s2).1
    have e2' := ep2.symm.trans e2
    have hb2 : Below l2.h l1.h := update_below (g.unit_range s2).1 (l := { l1 with q := _, p := p2 }) hb1.left e2'
    obtain ⟨pj2, old2, hpj2, hold2, _, _, hh2⟩ := update_h e2'
    have hpk2 : pj2 = (g.uniform 1 n (g.unit s2).2).1 := by
      rw [hp2] at hpj2; exact (Option.some.inj hpj2).symm
    rw [e2]
    obtain ⟨l', e', hok'⟩ := loop2_ok g n 1 f 2 (g.uniform 1 n (g.unit s2).2).2 l2 hok2 (by omega)
      (by have := hok2.ha; omega)
    refine ⟨l', e', pj2, ?_⟩
    have hb3 := loop2_below g _ _ _ _ _ _ _ hok2 hb2.left e'
    have ho2 : old2 = superInit := by
      have := hslot pj2 (by rw [hpk2]; exact hk2.1) (by rw [hpk2]; exact hk2.2)
      rw [← hh1, show l1.h[pj2]? = some old2 from hold2] at this
      exact Option.some.inj this
    have hb := superQ_bounds (g.unit_range s2).1 (g.unit_range s2).2 (p := 1) (by norm_num)
    rw [superVal_fin (g.unit_range s2).1 (g.unit_range s2).2 (by norm_num), ho2,
      if_pos (by rw [superInit_eq, lt_fin]; norm_num at hb; linarith [hb.2])] at hh2
    have hg : l2.h[pj2]? = some (.fin (superQ (g.unit s2).1 1)) := by
      rw [hh2]
      have : pj2 < l1.h.length := by rw [hok1.hh, hpk2]; exact hk2.2
      simp [this]
    obtain ⟨x, y, hx, hy, hxy⟩ := Below.get hb3 pj2 hg
    cases hy
    exact ⟨x, by rw [hpk2]; exact hk2.1, hx, by norm_num at hb; linarith [hb.2]⟩

end SuperMinHasher
end Verif
