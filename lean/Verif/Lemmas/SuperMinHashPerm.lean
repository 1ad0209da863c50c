import Verif.Lemmas.SuperMinHash
import Mathlib.Logic.Equiv.Basic
import Mathlib.Data.Nat.Count

/-! # The order in which `SuperMinHash32V2` visits the slots -/
namespace Verif
namespace SuperMinHasher

variable {Tok : Type}

/-- The state of the generator before iteration `j`. -/
def stAt (g : SuperRng) (n : Nat) (s : g.State) : Nat → g.State
  | 0 => s
  | j + 1 => (g.uniform j n (g.unit (stAt g n s j)).2).2

/-- The index drawn in iteration `j`. -/
def kAt (g : SuperRng) (n : Nat) (s : g.State) (j : Nat) : Nat := (g.uniform j n (g.unit (stAt g n s j)).2).1

/-- The number drawn in iteration `j`. -/
def rAt (g : SuperRng) (n : Nat) (s : g.State) (j : Nat) : ℚ := (g.unit (stAt g n s j)).1

/-- The permutation after `j` iterations. -/
def permAt (g : SuperRng) (n : Nat) (s : g.State) : Nat → Equiv.Perm Nat
  | 0 => Equiv.refl _
  | j + 1 => (Equiv.swap j (kAt g n s j)).trans (permAt g n s j)

theorem kAt_range (g : SuperRng) (n : Nat) (s : g.State) {j : Nat} (h : j < n) : j ≤ kAt g n s j ∧ kAt g n s j < n :=
  g.uniform_range j n _ h

theorem permAt_succ (g : SuperRng) (n : Nat) (s : g.State) (j x : Nat) :
    permAt g n s (j + 1) x = permAt g n s j (Equiv.swap j (kAt g n s j) x) := rfl

theorem permAt_lt (g : SuperRng) (n : Nat) (s : g.State) {j : Nat} (hj : j ≤ n) {x : Nat} (hx : x < n) :
    permAt g n s j x < n := by
  induction j generalizing x with
  | zero => exact hx
  | succ j ih =>
    rw [permAt_succ]
    apply ih (by omega)
    have := kAt_range g n s (show j < n by omega)
    rw [Equiv.swap_apply_def]
    split
    · omega
    · split <;> omega

theorem permAt_ge (g : SuperRng) (n : Nat) (s : g.State) {j : Nat} (hj : j ≤ n) {x : Nat} (hx : n ≤ x) :
    permAt g n s j x = x := by
  induction j generalizing x with
  | zero => rfl
  | succ j ih =>
    have := kAt_range g n s (show j < n by omega)
    rw [permAt_succ, Equiv.swap_apply_of_ne_of_ne (by omega) (by omega), ih (by omega) hx]

/-- What iteration `j` has put at index `j` stays there. -/
theorem permAt_fixed (g : SuperRng) (n : Nat) (s : g.State) {j k : Nat} (hjk : j < k) (hk : k ≤ n) :
    permAt g n s k j = permAt g n s (j + 1) j := by
  induction k with
  | zero => omega
  | succ k ih =>
    by_cases h : j = k
    · rw [h]
    · have := kAt_range g n s (show k < n by omega)
      rw [permAt_succ, Equiv.swap_apply_of_ne_of_ne (by omega) (by omega), ih (by omega) (by omega)]

theorem permAt_symm_lt (g : SuperRng) (n : Nat) (s : g.State) {c : Nat} (hc : c < n) :
    (permAt g n s n).symm c < n := by
  by_contra h
  have := permAt_ge g n s le_rfl (not_lt.mp h)
  rw [Equiv.apply_symm_apply] at this
  omega

/-- The vector `p` of item `i`, with the entries not yet reset read as the identity, is the permutation. -/
def Lazy (n i : Nat) (l : Locals) (P : Equiv.Perm Nat) : Prop :=
  ∀ x < n, (l.q[x]? = some i → l.p[x]? = some (P x)) ∧ (l.q[x]? ≠ some i → P x = x)

theorem resetP_lazy {n i j : Nat} {l : Locals} {P : Equiv.Perm Nat} (h : Ok2 n l) (hl : Lazy n i l P) (hj : j < n)
    (hq : ∀ x ∈ l.q, x ≤ i) :
    ∃ q p, resetP i j l = .ok { l with q := q, p := p } ∧ Ok2 n { l with q := q, p := p } ∧
      Lazy n i { l with q := q, p := p } P ∧ (∀ x ∈ q, x ≤ i) ∧ q[j]? = some i ∧
      ∀ x : Nat, l.q[x]? = some i → q[x]? = some i := by
  have hjq : j < l.q.length := by rw [h.hq]; exact hj
  have hjp : j < l.p.length := by rw [h.hp]; exact hj
  by_cases he : l.q[j] = i
  · refine ⟨l.q, l.p, resetP_old hjq he, h, hl, hq, ?_, fun _ h => h⟩
    rw [List.getElem?_eq_getElem hjq, he]
  · refine ⟨_, _, resetP_new hjq hjp he, ⟨h.hh, by simpa using h.hq, by simpa using h.hp, h.hb, h.ha,
      mem_set_lt h.hpm hj, h.hs⟩, ?_, ?_, ?_, ?_⟩
    · intro x hx
      by_cases hxj : x = j
      · subst hxj
        have := (hl x hx).2 (by rw [List.getElem?_eq_getElem hjq]; simpa using he)
        constructor
        · intro _
          simp [hjp, this]
        · intro _; exact this
      · have hne : ¬ j = x := fun h => hxj h.symm
        simp only [List.getElem?_set_ne hne]
        exact hl x hx
    · intro x hx
      rcases List.mem_or_eq_of_mem_set hx with h' | rfl
      · exact hq x h'
      · exact le_rfl
    · simp [hjq]
    · intro x hx
      by_cases hxj : x = j
      · subst hxj; simp [hjq]
      · rw [List.getElem?_set_ne (fun h => hxj h.symm)]
        exact hx

theorem swapP_lazy {n i j k : Nat} {l : Locals} {P : Equiv.Perm Nat} (h : Ok2 n l) (hl : Lazy n i l P) (hj : j < n)
    (hk : k < n) (hqj : l.q[j]? = some i) (hqk : l.q[k]? = some i) :
    ∃ p, swapP j k l = .ok { l with p := p } ∧ Ok2 n { l with p := p } ∧
      Lazy n i { l with p := p } ((Equiv.swap j k).trans P) := by
  have hjp : j < l.p.length := by rw [h.hp]; exact hj
  have hkp : k < l.p.length := by rw [h.hp]; exact hk
  have e : swapP j k l = .ok { l with p := (l.p.set j l.p[k]).set k l.p[j] } := by
    unfold swapP
    rw [indexE_lt hjp, indexE_lt hkp]
    simp only [bind, Except.bind]
    rw [setE_lt hjp]
    simp only
    rw [setE_lt (by rw [List.length_set]; exact hkp)]
    rfl
  have hPj : l.p[j] = P j := by
    have := (hl j hj).1 hqj
    rw [List.getElem?_eq_getElem hjp] at this
    exact Option.some.inj this
  have hPk : l.p[k] = P k := by
    have := (hl k hk).1 hqk
    rw [List.getElem?_eq_getElem hkp] at this
    exact Option.some.inj this
  obtain ⟨p, e', hok⟩ := swapP_ok h hj hk
  have hp : p = (l.p.set j l.p[k]).set k l.p[j] := by
    rw [e, Except.ok.injEq, Locals.mk.injEq] at e'
    exact e'.2.2.2.1.symm
  refine ⟨p, e', hok, fun x hx => ?_⟩
  simp only [Equiv.trans_apply, hp]
  by_cases hxk : x = k
  · subst hxk
    refine ⟨fun _ => ?_, fun hc => absurd hqk hc⟩
    rw [Equiv.swap_apply_right, ← hPj]
    simp [hkp]
  · by_cases hxj : x = j
    · subst hxj
      refine ⟨fun _ => ?_, fun hc => absurd hqj hc⟩
      rw [Equiv.swap_apply_left, ← hPk, List.getElem?_set_ne (fun h => hxk h.symm)]
      simp [hjp]
    · rw [Equiv.swap_apply_of_ne_of_ne hxj hxk, List.getElem?_set_ne (fun h => hxk h.symm),
        List.getElem?_set_ne (fun h => hxj h.symm)]
      exact hl x hx

theorem iter2_lazy {n i j k : Nat} {r : ℚ} {l : Locals} {P : Equiv.Perm Nat} (h : Ok2 n l) (hl : Lazy n i l P)
    (hj : j < n) (hk : k < n) (hq : ∀ x ∈ l.q, x ≤ i) :
    ∃ q p, iter2 n i j r k l = update n j r { l with q := q, p := p } ∧ Ok2 n { l with q := q, p := p } ∧
      Lazy n i { l with q := q, p := p } ((Equiv.swap j k).trans P) ∧ (∀ x ∈ q, x ≤ i) ∧ p[j]? = some (P k) := by
  obtain ⟨q1, p1, e1, h1, l1, hq1, hj1, _⟩ := resetP_lazy h hl hj hq
  obtain ⟨q2, p2, e2, h2, l2, hq2, hk2, hkeep⟩ := resetP_lazy h1 l1 hk hq1
  obtain ⟨p3, e3, h3, l3⟩ := swapP_lazy h2 l2 hj hk (hkeep j hj1) hk2
  refine ⟨q2, p3, ?_, h3, l3, hq2, ?_⟩
  · unfold iter2
    rw [e1]
    simp only [bind, Except.bind]
    rw [e2]
    simp only
    rw [e3]
  · have := (l3 j hj).1 (hkeep j hj1)
    simpa using this

/-- Induction over the iterations of an item: iteration `j` updates the slot given by the final permutation. -/
theorem loop2_inv (g : SuperRng) (n i : Nat) (s : g.State) (Q : Nat → List Fl → Nat → List Int → Prop)
    (hstep : ∀ j l l', j ≤ l.a → Ok2 n l → Q j l.h l.a l.b → l.p[j]? = some (permAt g n s n j) →
      update n j (rAt g n s j) l = .ok l' → Q (j + 1) l'.h l'.a l'.b)
    (fuel j : Nat) (l l' : Locals) (h : Ok2 n l) (hl : Lazy n i l (permAt g n s j)) (hq : ∀ x ∈ l.q, x ≤ i)
    (hQ : Q j l.h l.a l.b) (e : loop2 g n i fuel j (stAt g n s j) l = .ok l') :
    ∃ j', l'.a < j' ∧ Q j' l'.h l'.a l'.b ∧ ∀ x ∈ l'.q, x ≤ i := by
  induction fuel generalizing j l with
  | zero => cases e
  | succ fuel ih =>
    by_cases hj : j ≤ l.a
    · have hjn : j < n := lt_of_le_of_lt hj h.ha
      rw [loop2_succ g n i fuel j _ l hj hjn] at e
      have hk := kAt_range g n s hjn
      obtain ⟨q, p, e1, h1, l1, hq1, hp⟩ := iter2_lazy (r := rAt g n s j) h hl hjn hk.2 hq
      obtain ⟨l2, e2, h2, _⟩ := update_ok (rAt g n s j) h1 hj
      have e3 : iter2 n i j (g.unit (stAt g n s j)).1 (g.uniform j n (g.unit (stAt g n s j)).2).1 l = .ok l2 :=
        e1.trans e2
      rw [e3] at e
      obtain ⟨_, _, _, _, hpe, hqe, _⟩ := update_h e2
      refine ih (j + 1) l2 h2 ?_ ?_ ?_ e
      · intro x hx
        rw [hpe, hqe]
        exact l1 x hx
      · rw [hqe]; exact hq1
      · refine hstep j { l with q := q, p := p } l2 hj h1 hQ ?_ e2
        change p[j]? = _
        rw [hp, permAt_fixed g n s hjn le_rfl, permAt_succ, Equiv.swap_apply_left]
    · simp only [loop2, if_neg hj] at e
      cases e
      exact ⟨j, not_le.mp hj, hQ, hq⟩

/-- The value which a token gives to a slot. -/
def slotQ (g : SuperRng) (m : SuperMinHasher Tok) (t : Tok) (c : Nat) : ℚ :=
  superQ (rAt g m.numHashes (g.seedFromU64 (m.hash t)) ((permAt g m.numHashes (g.seedFromU64 (m.hash t)) m.numHashes).symm c))
    ((permAt g m.numHashes (g.seedFromU64 (m.hash t)) m.numHashes).symm c)

/-- Every slot but slot 0 holds its initial value or the value of one of the tokens. -/
def Att (g : SuperRng) (m : SuperMinHasher Tok) (us : List Tok) (h : List Fl) : Prop :=
  ∀ c x, 1 ≤ c → h[c]? = some x → x = superInit ∨ ∃ u ∈ us, x = .fin (slotQ g m u c)

theorem rAt_range (g : SuperRng) (n : Nat) (s : g.State) (j : Nat) : 0 ≤ rAt g n s j ∧ rAt g n s j < 1 :=
  g.unit_range _

theorem lazy_start {n i : Nat} {l : Locals} (hq : ∀ x ∈ l.q, x < i) : Lazy n i l (Equiv.refl _) := by
  intro x _
  refine ⟨fun h => ?_, fun _ => rfl⟩
  have := hq i (List.mem_of_getElem? h)
  omega

theorem item2_att (g : SuperRng) (m : SuperMinHasher Tok) (hn : m.numHashes ≤ 2 ^ 24) (us : List Tok) (t : Tok) (i : Nat)
    (ht : t ∈ us) (l l' : Locals) (h : Ok2 m.numHashes l) (hq : ∀ x ∈ l.q, x < i) (ha : Att g m us l.h)
    (e : item2 g m l (t, i) = .ok l') : Att g m us l'.h ∧ ∀ x ∈ l'.q, x ≤ i := by
  have := loop2_inv g m.numHashes i (g.seedFromU64 (m.hash t)) (fun _ h _ _ => Att g m us h) ?_
    (m.numHashes + 1) 0 l l' h (lazy_start hq) (fun x hx => (hq x hx).le) ha e
  · obtain ⟨j, _, h1, h2⟩ := this
    exact ⟨h1, h2⟩
  · intro j l l' hj hok hQ hp eu
    obtain ⟨pj, old, hpj, _, _, _, hh⟩ := update_h eu
    have hjn : j < m.numHashes := lt_of_le_of_lt hj hok.ha
    rw [hp, Option.some.injEq] at hpj
    rw [hh]
    split
    · intro c x hc hx
      by_cases hcp : pj = c
      · right
        subst hcp
        refine ⟨t, ht, ?_⟩
        rw [List.getElem?_set_self'] at hx
        cases hg : l.h[pj]? with
        | none => rw [hg] at hx; cases hx
        | some y =>
          rw [hg] at hx
          obtain rfl := Option.some.inj hx
          rw [superVal_fin (rAt_range ..).1 (rAt_range ..).2 (by omega), slotQ, ← hpj, Equiv.symm_apply_apply]
          rfl
      · rw [List.getElem?_set_ne hcp] at hx
        exact hQ c x hc hx
    · exact hQ

/-! #### The second item covers all slots -/

theorem toUnsigned_init : superInit.toUnsigned (2 ^ 64 - 1) = 100000000 := by decide +kernel

/-- An update of a slot with the initial value. -/
theorem update_init {n j pj : Nat} {r : ℚ} {l l' : Locals} (h : Ok2 n l) (hn : n ≤ 2 ^ 24) (hj : j < n)
    (h0 : 0 ≤ r) (h1 : r < 1) (hp : l.p[j]? = some pj) (ho : l.h[pj]? = some superInit)
    (e : update n j r l = .ok l') :
    l'.h = l.h.set pj (.fin (superQ r j)) ∧
      (j = n - 1 → l'.a = l.a ∧ l'.b = l.b) ∧
      (j < n - 1 → ∃ v, l.b[n - 1]? = some v ∧ l'.b[n - 1]? = some (v - 1) ∧ lowerA l'.b l.a = .ok l'.a) := by
  obtain ⟨pj', old, hp', ho', _, _, hh⟩ := update_h e
  rw [hp, Option.some.injEq] at hp'
  subst hp'
  rw [ho, Option.some.injEq] at ho'
  subst ho'
  have hb := superQ_bounds h0 h1 (show j < 2 ^ 24 by omega)
  have hj' : (j : ℚ) < 16777216 := by
    have : j < 16777216 := by omega
    exact_mod_cast this
  have hv := superVal_fin h0 h1 (show j < 2 ^ 32 by omega)
  have hlt : Fl.lt (Fl.fin (superQ r j)) superInit = true := by
    rw [superInit_eq, lt_fin]; linarith [hb.2]
  rw [hv, if_pos hlt] at hh
  refine ⟨hh, ?_⟩
  have hpl : pj < l.h.length := (List.getElem?_eq_some_iff.mp ho).1
  have hj2 : min (superInit.toUnsigned (2 ^ 64 - 1)) (n - 1) = n - 1 := by
    rw [toUnsigned_init]; omega
  unfold update at e
  simp only [bind, Except.bind] at e
  rw [show indexE l.p j = .ok pj by unfold indexE; rw [hp]] at e
  simp only at e
  rw [show indexE l.h pj = .ok superInit by unfold indexE; rw [ho]] at e
  simp only [hv, if_pos hlt, hj2] at e
  rw [setE_lt hpl] at e
  simp only at e
  have hbl : n - 1 < l.b.length := by rw [h.hb]; omega
  by_cases hjn : j < n - 1
  · refine ⟨fun hc => by omega, fun _ => ⟨l.b[n - 1], List.getElem?_eq_getElem hbl, ?_⟩⟩
    rw [if_pos hjn, indexE_lt hbl] at e
    simp only at e
    rw [setE_lt hbl] at e
    simp only at e
    have hjb : j < l.b.length := by rw [h.hb]; exact hj
    rw [indexE_lt (by rw [List.length_set]; exact hjb)] at e
    simp only at e
    rw [setE_lt (by rw [List.length_set]; exact hjb)] at e
    simp only at e
    split at e
    · cases e
    rename_i a' ea
    cases e
    refine ⟨?_, ea⟩
    simp only
    rw [List.getElem?_set_ne (by omega), List.getElem?_set_self hbl]
  · rw [if_neg hjn] at e
    cases e
    exact ⟨fun _ => ⟨rfl, rfl⟩, fun hc => absurd hc hjn⟩

/-- An update of a slot with a value below 1 changes at most the slot. -/
theorem update_small {n j pj : Nat} {r y : ℚ} {l l' : Locals} (hp : l.p[j]? = some pj)
    (ho : l.h[pj]? = some (.fin y)) (hy : y < 1) (e : update n j r l = .ok l') :
    l'.a = l.a ∧ l'.b = l.b ∧ ∀ c, c ≠ pj → l'.h[c]? = l.h[c]? := by
  by_cases hlt : Fl.lt (Fl.add b32 (.fin r) (Fl.ofNat b32 j)) (.fin y) = true
  · have hpl : pj < l.h.length := (List.getElem?_eq_some_iff.mp ho).1
    have h0 : Fl.toUnsigned (2 ^ 64 - 1) (.fin y) = 0 := by
      have : ⌊y⌋ ≤ 0 := by
        by_contra hc
        have h2 : (1 : ℤ) ≤ ⌊y⌋ := by omega
        have h3 : (1 : ℚ) ≤ y := by
          have := Int.le_floor.mp h2
          exact_mod_cast this
        linarith
      simp only [Fl.toUnsigned]
      omega
    unfold update at e
    simp only [bind, Except.bind] at e
    rw [show indexE l.p j = .ok pj by unfold indexE; rw [hp]] at e
    simp only at e
    rw [show indexE l.h pj = .ok (.fin y) by unfold indexE; rw [ho]] at e
    simp only [if_pos hlt] at e
    rw [setE_lt hpl, h0] at e
    simp only [Nat.zero_min, Nat.not_lt_zero, if_false] at e
    cases e
    exact ⟨rfl, rfl, fun c hc => List.getElem?_set_ne (fun h => hc h.symm)⟩
  · rw [update_keep hp ho (by simpa using hlt)] at e
    cases e
    exact ⟨rfl, rfl, fun _ _ => rfl⟩

/-- The slot `c` has got a value. -/
def Asg (h : List Fl) (c : Nat) : Prop := ∃ y : ℚ, h[c]? = some (.fin y) ∧ y < 100000000

theorem Asg.below {h h' : List Fl} {c : Nat} (ha : Asg h c) (hb : Below h' h) : Asg h' c := by
  obtain ⟨y, hy, hlt⟩ := ha
  obtain ⟨a, b, h1, h2, h3⟩ := Below.get hb c hy
  cases h2
  exact ⟨a, h1, by linarith⟩

/-- While the second item is processed: all slots have got a value, or `a` is still the last index, the slots already
visited have got a value, and `b` counts the others. -/
def Cov (n : Nat) (P : Equiv.Perm Nat) (j : Nat) (h : List Fl) (a : Nat) (b : List Int) : Prop :=
  j ≤ n ∧ Below h h ∧ ((∀ c, 1 ≤ c → c < n → Asg h c) ∨
    (a = n - 1 ∧ (j ≤ n - 1 → b[n - 1]? = some ((n : Int) - 1 - Nat.count (fun x => P x ≠ 0) j)) ∧
      (∀ x < j, P x ≠ 0 → Asg h (P x)) ∧
      (∀ c, 1 ≤ c → c < n → (∀ x < j, P x ≠ c) → h[c]? = some superInit) ∧
      ∃ y : ℚ, h[0]? = some (.fin y) ∧ y < 1))

theorem cov_step {n j : Nat} {P : Equiv.Perm Nat} {r : ℚ} {l l' : Locals} (hn2 : 2 ≤ n) (hn : n ≤ 2 ^ 24)
    (hP : ∀ x < n, P x < n) (hP' : ∀ c < n, P.symm c < n)
    (h0 : 0 ≤ r) (h1 : r < 1) (hj : j ≤ l.a) (hok : Ok2 n l)
    (hQ : Cov n P j l.h l.a l.b) (hp : l.p[j]? = some (P j)) (e : update n j r l = .ok l') :
    Cov n P (j + 1) l'.h l'.a l'.b := by
  have hjn : j < n := lt_of_le_of_lt hj hok.ha
  obtain ⟨_, hb, hQ⟩ := hQ
  have hb' := update_below h0 hb e
  refine ⟨hjn, hb'.left, ?_⟩
  rcases hQ with hA | ⟨ha, hbc, hvis, hinit, y, hy0, hy1⟩
  · exact Or.inl fun c h1 h2 => (hA c h1 h2).below hb'
  obtain ⟨y0, y0', hy0l, hye, hyle⟩ := Below.get hb' 0 hy0
  cases hye
  by_cases hz : P j = 0
  · -- slot 0
    rw [hz] at hp
    obtain ⟨ea, eb, eh⟩ := update_small hp hy0 hy1 e
    right
    refine ⟨ea.trans ha, fun hle => ?_, fun x hx hxn => ?_, fun c hc1 hc2 hc => ?_, y0, hy0l, by linarith⟩
    · rw [eb, hbc (by omega), Nat.count_succ, if_neg (by simpa using hz)]
      simp
    · have hxj : x ≠ j := fun h => hxn (h ▸ hz)
      exact (hvis x (by omega) hxn).below hb'
    · rw [eh c (by omega)]
      exact hinit c hc1 hc2 fun x hx => hc x (by omega)
  · -- another slot
    have hPj := hP j hjn
    have ho := hinit (P j) (by omega) hPj fun x hx hxe => by
      have := P.injective hxe
      omega
    obtain ⟨eh, elast, eearly⟩ := update_init hok hn hjn h0 h1 hp ho e
    have hq := superQ_bounds h0 h1 (show j < 2 ^ 24 by omega)
    have hj' : (j : ℚ) < 16777216 := by
      have : j < 16777216 := by omega
      exact_mod_cast this
    have hpl : P j < l.h.length := by rw [hok.hh]; exact hPj
    have hnew : Asg l'.h (P j) := ⟨superQ r j, by rw [eh]; simp [hpl], by linarith [hq.2]⟩
    have hvis' : ∀ x < j + 1, P x ≠ 0 → Asg l'.h (P x) := by
      intro x hx hxn
      by_cases hxj : x = j
      · rw [hxj]; exact hnew
      · exact (hvis x (by omega) hxn).below hb'
    have hinit' : ∀ c, 1 ≤ c → c < n → (∀ x < j + 1, P x ≠ c) → l'.h[c]? = some superInit := by
      intro c hc1 hc2 hc
      rw [eh, List.getElem?_set_ne (hc j (by omega))]
      exact hinit c hc1 hc2 fun x hx => hc x (by omega)
    by_cases hjl : j < n - 1
    · obtain ⟨v, hv, hv', hlow⟩ := eearly hjl
      rw [hbc (by omega), Option.some.injEq] at hv
      have hcnt : Nat.count (fun x => P x ≠ 0) (j + 1) = Nat.count (fun x => P x ≠ 0) j + 1 := by
        rw [Nat.count_succ, if_pos hz]
      by_cases hall : Nat.count (fun x => P x ≠ 0) (j + 1) = n - 1
      · left
        have hle := Nat.count_le (p := fun x => P x ≠ 0) (n := j + 1)
        have hjn1 : j + 1 = n - 1 := by omega
        have hforall := Nat.count_iff_forall.mp (hall.trans hjn1.symm)
        have hlast : P (n - 1) = 0 := by
          have hs := hP' 0 (by omega)
          by_contra hne
          have hs2 : P.symm 0 ≠ n - 1 := fun h => hne (by rw [← h, Equiv.apply_symm_apply])
          exact hforall (n' := P.symm 0) (by omega) (Equiv.apply_symm_apply _ _)
        intro c hc1 hc2
        have hs := hP' c hc2
        have hs2 : P.symm c ≠ n - 1 := fun h => by
          rw [← h, Equiv.apply_symm_apply] at hlast
          omega
        have := hvis' (P.symm c) (by omega) (by rw [Equiv.apply_symm_apply]; omega)
        rwa [Equiv.apply_symm_apply] at this
      · right
        have hle := Nat.count_le (p := fun x => P x ≠ 0) (n := j + 1)
        have hlen : l.a < l'.b.length := by
          rw [ha]
          exact (List.getElem?_eq_some_iff.mp hv').1
        rw [lowerA_stay hlen, Except.ok.injEq] at hlow
        · refine ⟨by rw [← hlow, ha], fun _ => ?_, hvis', hinit', y0, hy0l, by linarith⟩
          rw [hv', ← hv, hcnt]
          congr 1
          push_cast
          ring
        · intro hc
          have : l'.b[n - 1]? = some 0 := by
            rw [← hc, ← List.getElem?_eq_getElem hlen, ha]
          rw [hv', ← hv, Option.some.injEq] at this
          omega
    · have hje : j = n - 1 := by omega
      obtain ⟨ea, eb⟩ := elast hje
      right
      exact ⟨ea.trans ha, fun hc => by omega, hvis', hinit', y0, hy0l, by linarith⟩

/-- After the second item every slot but slot 0 has got a value. -/
theorem item2_cover (g : SuperRng) (m : SuperMinHasher Tok) (hn2 : 2 ≤ m.numHashes) (hn : m.numHashes ≤ 2 ^ 24) (t : Tok)
    (l l' : Locals) (h : Ok2 m.numHashes l) (hq : ∀ x ∈ l.q, x < 1) (hb : Below l.h l.h) (ha : l.a = m.numHashes - 1)
    (hbn : l.b[m.numHashes - 1]? = some ((m.numHashes : Int) - 1))
    (hinit : ∀ c, 1 ≤ c → c < m.numHashes → l.h[c]? = some superInit) {y : ℚ} (hy : l.h[0]? = some (.fin y)) (hy1 : y < 1)
    (e : item2 g m l (t, 1) = .ok l') : ∀ c, 1 ≤ c → c < m.numHashes → Asg l'.h c := by
  have := loop2_inv g m.numHashes 1 (g.seedFromU64 (m.hash t))
    (Cov m.numHashes (permAt g m.numHashes (g.seedFromU64 (m.hash t)) m.numHashes)) ?_
    (m.numHashes + 1) 0 l l' h (lazy_start hq) (fun x hx => (hq x hx).le) ?_ e
  · obtain ⟨j, hj, ⟨hjn, _, hA | ⟨ha', _, hvis, _⟩⟩, _⟩ := this
    · exact hA
    · intro c h1 h2
      have hs := permAt_symm_lt g m.numHashes (g.seedFromU64 (m.hash t)) h2
      have := hvis ((permAt g m.numHashes (g.seedFromU64 (m.hash t)) m.numHashes).symm c) (by omega)
        (by rw [Equiv.apply_symm_apply]; omega)
      rwa [Equiv.apply_symm_apply] at this
  · intro j l l' hj hok hQ hp eu
    exact cov_step hn2 hn (fun x hx => permAt_lt g _ _ le_rfl hx) (fun c hc => permAt_symm_lt g _ _ hc)
      (rAt_range ..).1 (rAt_range ..).2 hj hok hQ hp eu
  · refine ⟨Nat.zero_le _, hb, Or.inr ⟨ha, fun _ => by simpa using hbn, fun x hx => by omega, fun c h1 h2 _ => hinit c h1 h2,
      y, hy, hy1⟩⟩

theorem fold2_att (g : SuperRng) (m : SuperMinHasher Tok) (hn : m.numHashes ≤ 2 ^ 24) (us : List Tok) (xs : List Tok)
    (i : Nat) (hx : ∀ x ∈ xs, x ∈ us) (l l' : Locals) (h : Ok2 m.numHashes l) (hq : ∀ x ∈ l.q, x < i)
    (ha : Att g m us l.h) (e : (xs.zipIdx i).foldlM (item2 g m) l = .ok l') : Att g m us l'.h := by
  induction xs generalizing i l with
  | nil => cases e; exact ha
  | cons x xs ih =>
    have := h.ha
    obtain ⟨l1, e1, h1⟩ := loop2_ok g m.numHashes i (m.numHashes + 1) 0 (g.seedFromU64 (m.hash x)) l h
      (by omega) (by omega)
    have e1' : item2 g m l (x, i) = .ok l1 := e1
    obtain ⟨ha1, hq1⟩ := item2_att g m hn us x i (hx x List.mem_cons_self) l l1 h hq ha e1'
    rw [List.zipIdx_cons, List.foldlM_cons, e1'] at e
    exact ih (i + 1) (fun y hy => hx y (List.mem_cons_of_mem _ hy)) l1 h1 (fun y hy => by have := hq1 y hy; omega) ha1 e

/-- The slots after a document of at least two tokens. -/
theorem fold2_values (g : SuperRng) (m : SuperMinHasher Tok) (hn2 : 2 ≤ m.numHashes) (hn : m.numHashes ≤ 2 ^ 24)
    (t : Tok) (us : List Tok) (hus : us ≠ []) :
    ∃ l, (t :: us).zipIdx.foldlM (item2 g m) (start2 m.numHashes) = .ok l ∧ Ok2 m.numHashes l ∧
      (∃ y : ℚ, l.h[0]? = some (.fin y) ∧ y < 1) ∧
      ∀ c, 1 ≤ c → c < m.numHashes → ∃ u ∈ us, l.h[c]? = some (.fin (slotQ g m u c)) := by
  obtain ⟨b, e1, h1, eu⟩ := first2 g m (by omega) t
  have hr := g.unit_range (g.seedFromU64 (m.hash t))
  obtain ⟨_, _, hearly⟩ := update_init (start2_ok (by omega)) hn (by omega) hr.1 hr.2 (pj := 0)
    (by simp only [start2]; rw [List.getElem?_replicate, if_pos (by omega)])
    (by simp only [start2]; rw [List.getElem?_replicate, if_pos (by omega)]) eu
  obtain ⟨v, hv, hv', _⟩ := hearly (by omega)
  have hv1 : v = m.numHashes := by
    simp only [start2] at hv
    rw [List.getElem?_set_self (by simp; omega), Option.some.injEq] at hv
    exact hv.symm
  simp only [hv1] at hv'
  have hb1 := update_below hr.1 (start2_below m.numHashes) eu
  revert e1 h1 hv' hb1
  generalize hl1 : ({ start2 m.numHashes with
    h := (start2 m.numHashes).h.set 0 (.fin (g.unit (g.seedFromU64 (m.hash t))).1), b := b } : Locals) = l1
  intro e1 h1 hv' hb1
  have hh1 : l1.h = (start2 m.numHashes).h.set 0 (.fin (g.unit (g.seedFromU64 (m.hash t))).1) := by rw [← hl1]
  have hq1 : ∀ x ∈ l1.q, x < 1 := by
    intro x hx
    rw [← hl1] at hx
    simp only [start2, List.mem_replicate] at hx
    omega
  have hinit : ∀ c, 1 ≤ c → c < m.numHashes → l1.h[c]? = some superInit := by
    intro c hc1 hc2
    rw [hh1, List.getElem?_set_ne (by omega)]
    simp [start2, hc2]
  have hz : l1.h[0]? = some (.fin (g.unit (g.seedFromU64 (m.hash t))).1) := by
    have : 0 < (start2 m.numHashes).h.length := by simp [start2]; omega
    rw [hh1]
    simp [this]
  have hatt1 : Att g m us l1.h := by
    intro c x hc hx
    left
    have hlt : c < m.numHashes := by
      rw [← h1.hh]
      exact (List.getElem?_eq_some_iff.mp hx).1
    rw [hinit c hc hlt] at hx
    exact (Option.some.inj hx).symm
  obtain ⟨l', e', h'⟩ := fold2_ok g m (us.zipIdx 1) l1 h1
  have hatt := fold2_att g m hn us us 1 (fun _ h => h) l1 l' h1 hq1 hatt1 e'
  have hbl := fold2_below g m _ l1 l' h1 hb1.left e'
  obtain ⟨y, y', hy, hy', hle⟩ := Below.get hbl 0 hz
  cases hy'
  refine ⟨l', ?_, h', ⟨y, hy, by linarith [hr.2]⟩, ?_⟩
  · rw [List.zipIdx_cons, List.foldlM_cons, e1]
    exact e'
  · intro c hc1 hc2
    obtain ⟨u, rest, rfl⟩ := List.exists_cons_of_ne_nil hus
    have ha := h1.ha
    obtain ⟨l2, e2, h2⟩ := loop2_ok g m.numHashes 1 (m.numHashes + 1) 0 (g.seedFromU64 (m.hash u)) l1 h1
      (by omega) (by omega)
    have e2' : item2 g m l1 (u, 1) = .ok l2 := e2
    have hcov := item2_cover g m hn2 hn u l1 l2 h1 hq1 hb1.left (by rw [← hl1]; rfl) (by rw [← hl1]; exact hv') hinit hz hr.2 e2'
      c hc1 hc2
    rw [List.zipIdx_cons, List.foldlM_cons, e2'] at e'
    have hb2 := loop2_below g _ _ _ _ _ _ _ h1 hb1.left e2
    obtain ⟨z, hz1, hz2⟩ := hcov.below (fold2_below g m _ l2 l' h2 hb2.left e')
    rcases hatt c _ hc1 hz1 with hi | ⟨u', hu', hi⟩
    · rw [superInit_eq] at hi
      cases hi
      exact absurd hz2 (lt_irrefl _)
    · exact ⟨u', hu', by rw [hz1, hi]⟩

end SuperMinHasher
end Verif
