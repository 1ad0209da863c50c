import Verif.Lemmas.SuperMinHashPerm

/-! # Properties C90, C91: SuperMinHash -/
namespace Verif.Props
open Verif.SuperMinHasher

variable {Tok : Type}

/-- A generator for the examples. -/
def exSuperRng : SuperRng where
  State := Nat
  seedFromU64 := fun s => s.toNat
  uniform := fun lo hi s => (lo + s % (hi - lo), s * 5 + 3)
  uniform_range := fun lo hi s h => ⟨Nat.le_add_right _ _, by have := Nat.mod_lt s (show 0 < hi - lo by omega); omega⟩
  shuffle := fun l s => (if s % 2 = 0 then l else l.reverse, s * 7 + 1)
  unit := fun s => (if s % 3 = 0 then 1 / 2 else 1 / 4, s + 1)
  shuffle_perm := fun l s => by
    change List.Perm (if s % 2 = 0 then l else l.reverse) l
    split
    · exact List.Perm.refl _
    · exact List.reverse_perm _
  unit_range := fun s => by
    change 0 ≤ (if s % 3 = 0 then (1 / 2 : ℚ) else 1 / 4) ∧ (if s % 3 = 0 then (1 / 2 : ℚ) else 1 / 4) < 1
    split <;> norm_num
  unit_single := fun s => by
    change rnd b32 (if s % 3 = 0 then (1 / 2 : ℚ) else 1 / 4) = .fin (if s % 3 = 0 then (1 / 2 : ℚ) else 1 / 4)
    split <;> decide +kernel

/-- A hasher for the examples. -/
def exSuper (n : Nat) : SuperMinHasher Nat := ⟨fun t => UInt64.ofNat t, n⟩

/-! ## C90: `SuperMinHasher32V1` -/

/-- C90: `create_signature` returns, and with `num_hashes` components, exactly when there is nothing to hash or
`num_hashes` fits into 32 bits. -/
theorem C90_returns_iff (g : SuperRng) (m : SuperMinHasher Tok) (toks : List Tok) :
    (∃ s, createSignature1 g m toks = .ok s ∧ s.length = m.numHashes) ↔ toks = [] ∨ m.numHashes < 2 ^ 32 := by
  constructor
  · rintro ⟨s, e, _⟩
    by_contra hc
    rw [not_or] at hc
    obtain ⟨h1, h2⟩ := hc
    cases toks with
    | nil => exact h1 rfl
    | cons t ts =>
      rw [sig1_panics g m (not_lt.mp h2)] at e
      cases e
  · rintro (rfl | h)
    · exact ⟨_, rfl, by simp⟩
    · exact ⟨_, sig1_eq g m h toks, by simp [finalQ_eq]⟩

/-- C90: the signature depends only on the set of tokens. -/
theorem C90_token_set (g : SuperRng) (m : SuperMinHasher Tok) (l l' : List Tok) (h : ∀ t, t ∈ l ↔ t ∈ l') :
    createSignature1 g m l = createSignature1 g m l' := by
  by_cases hn : m.numHashes < 2 ^ 32
  · rw [sig1_eq g m hn, sig1_eq g m hn, finalQ_eq, finalQ_eq]
    simp only [posQ_congr _ h]
  · cases l with
    | nil =>
      cases l' with
      | nil => rfl
      | cons t ts => exact absurd ((h t).mpr List.mem_cons_self) (by simp)
    | cons t ts =>
      cases l' with
      | nil => exact absurd ((h t).mp List.mem_cons_self) (by simp)
      | cons u us => rw [sig1_panics g m (not_lt.mp hn), sig1_panics g m (not_lt.mp hn)]

/-- C90: the signature of a union is the component-wise minimum (also if one of the sets is empty). -/
theorem C90_union_min (g : SuperRng) (m : SuperMinHasher Tok) (hn : m.numHashes < 2 ^ 32) (l1 l2 : List Tok) :
    ∃ s1 s2 s12, createSignature1 g m l1 = .ok s1 ∧ createSignature1 g m l2 = .ok s2 ∧
      createSignature1 g m (l1 ++ l2) = .ok s12 ∧ s1.length = m.numHashes ∧ s2.length = m.numHashes ∧
      s12.map UInt32.toNat = List.zipWith (fun x y => min x.toNat y.toNat) s1 s2 := by
  refine ⟨_, _, _, sig1_eq g m hn l1, sig1_eq g m hn l2, sig1_eq g m hn (l1 ++ l2), by simp [finalQ_eq],
    by simp [finalQ_eq], ?_⟩
  rw [finalQ_eq, finalQ_eq, finalQ_eq]
  apply List.ext_getElem
  · simp
  · intro j h1 h2
    simp only [List.getElem_map, List.getElem_zipWith, List.getElem_range]
    rw [superCast_fin, superCast_fin, superCast_fin, posQ_append, castQ_min]

/-- C90: a document without tokens. -/
theorem C90_empty (g : SuperRng) (m : SuperMinHasher Tok) :
    createSignature1 g m [] = .ok (List.replicate m.numHashes 100000000) := by
  change Except.ok ((List.replicate m.numHashes superInit).map superCast) = _
  rw [List.map_replicate, show superCast superInit = 100000000 by decide +kernel]

/-- C90: every token ranks the positions: `rank t` is, up to one (rounding of the `f32` sum), a permutation of the
positions, it depends only on the token, and every component of a signature is the least rank of a token there. -/
theorem C90_minima (g : SuperRng) (m : SuperMinHasher Tok) (hn : m.numHashes ≤ 2 ^ 24) :
    ∃ rank : Tok → Nat → Nat,
      (∀ t, ∃ π : List Nat, π.Perm (List.range m.numHashes) ∧
        ∀ (j p : Nat), π[j]? = some p → rank t j = p ∨ rank t j = p + 1) ∧
      ∀ toks, toks ≠ [] → ∃ s, createSignature1 g m toks = .ok s ∧ s.length = m.numHashes ∧
        ∀ (j : Nat) (x : UInt32), s[j]? = some x → (∃ t ∈ toks, x.toNat = rank t j) ∧ ∀ t ∈ toks, x.toNat ≤ rank t j := by
  refine ⟨fun t j => castQ ((tokQ g m t).getD j 0), fun t => ?_, fun toks htoks => ?_⟩
  · obtain ⟨π, h1, h2⟩ := tokQ_bounds g m hn t
    refine ⟨π, h1, fun j p hp => ?_⟩
    obtain ⟨ha, hb⟩ := h2 j p hp
    have : p < m.numHashes := List.mem_range.mp (h1.mem_iff.mp (List.mem_of_getElem? hp))
    exact castQ_between (by omega) ha hb
  · refine ⟨_, sig1_eq g m (by omega) toks, by simp [finalQ_eq], fun j x hx => ?_⟩
    have hj : j < m.numHashes := by
      by_contra hc
      rw [List.getElem?_eq_none (by simp [finalQ_eq]; omega)] at hx
      cases hx
    simp only [finalQ_eq, List.getElem?_map, List.getElem?_range hj, Option.map_some, Option.some.injEq] at hx
    subst hx
    rw [superCast_fin]
    constructor
    · rcases posQ_cases (fun t => (tokQ g m t).getD j 0) toks 100000000 with h | ⟨t, ht, h⟩
      · obtain ⟨t, ht⟩ := List.exists_mem_of_ne_nil _ htoks
        have hle := posQ_le_mem (fun t => (tokQ g m t).getD j 0) toks 100000000 ht
        obtain ⟨π, h1, h2⟩ := tokQ_bounds g m hn t
        have hjl : j < π.length := by rw [h1.length_eq, List.length_range]; exact hj
        have hb := (h2 j _ (List.getElem?_eq_getElem hjl)).2
        have hp : π[j] < m.numHashes := List.mem_range.mp (h1.mem_iff.mp (List.getElem_mem hjl))
        have hp' : ((π[j] : Nat) : ℚ) < 16777216 := by
          have : π[j] < 16777216 := by omega
          exact_mod_cast this
        rw [h] at hle
        linarith
      · exact ⟨t, ht, by rw [h]⟩
    · intro t ht
      exact castQ_mono (posQ_le_mem (fun t => (tokQ g m t).getD j 0) toks 100000000 ht)

/-- C90: no component of a document with tokens agrees with a document without tokens. -/
theorem C90_empty_differs (g : SuperRng) (m : SuperMinHasher Tok) (hn : m.numHashes ≤ 2 ^ 24) (toks : List Tok)
    (h : toks ≠ []) : ∃ s, createSignature1 g m toks = .ok s ∧ ∀ x ∈ s, x ≠ 100000000 := by
  obtain ⟨rank, h1, h2⟩ := C90_minima g m hn
  obtain ⟨s, e, hl, hs⟩ := h2 toks h
  refine ⟨s, e, fun x hx hc => ?_⟩
  obtain ⟨j, hj, rfl⟩ := List.getElem_of_mem hx
  obtain ⟨⟨t, ht, hr⟩, _⟩ := hs j _ (List.getElem?_eq_getElem hj)
  obtain ⟨π, hπ, hp⟩ := h1 t
  have hjl : j < π.length := by rw [hπ.length_eq, List.length_range]; omega
  have hlt : π[j] < m.numHashes := List.mem_range.mp (hπ.mem_iff.mp (List.getElem_mem hjl))
  have hr' := hp j _ (List.getElem?_eq_getElem hjl)
  rw [hc] at hr
  have h8 : (100000000 : UInt32).toNat = 100000000 := by decide
  omega

/-- Signatures of the example: of {2, 5}, of {2}, of {5} and of nothing. -/
example : [[2, 5, 2], [2], [5], []].map (createSignature1 exSuperRng (exSuper 4)) =
    [.ok [0, 1, 1, 0], .ok [0, 1, 2, 3], .ok [3, 2, 1, 0], .ok [100000000, 100000000, 100000000, 100000000]] := by
  decide +kernel

/-- The hypotheses of C90 are met. -/
example : (exSuper 4).numHashes ≤ 2 ^ 24 ∧ ([2, 5] : List Nat) ≠ [] ∧ (∀ t : Nat, t ∈ [2, 5, 2] ↔ t ∈ [5, 2]) := by
  refine ⟨by decide, by decide, fun t => ?_⟩
  simp only [List.mem_cons, List.not_mem_nil, or_false]
  omega

/-! ## C91: `SuperMinHash32V2` -/

/-- C91: `create_signature` returns, with `num_hashes` components, exactly when `num_hashes` is not 0. -/
theorem C91_returns_iff (g : SuperRng) (m : SuperMinHasher Tok) (toks : List Tok) :
    (∃ s, createSignature2 g m toks = .ok s ∧ s.length = m.numHashes) ↔ m.numHashes ≠ 0 := by
  constructor
  · rintro ⟨s, e, _⟩ hc
    unfold createSignature2 at e
    simp only [if_pos hc] at e
    cases e
  · intro h
    obtain ⟨l, e, hl⟩ := fold2_ok g m toks.zipIdx (start2 m.numHashes) (start2_ok (by omega))
    refine ⟨l.h.map superCast, ?_, by rw [List.length_map, hl.hh]⟩
    rw [sig2_eq g m (by omega), e]
    rfl

/-- The signature of one token. -/
theorem sig2_single (g : SuperRng) (m : SuperMinHasher Tok) (hn : 1 ≤ m.numHashes) (t : Tok) :
    createSignature2 g m [t] = .ok (0 :: List.replicate (m.numHashes - 1) 100000000) := by
  obtain ⟨b, e, _⟩ := first2 g m hn t
  rw [sig2_eq g m hn]
  simp only [List.zipIdx_cons, List.zipIdx_nil, List.foldlM_cons, List.foldlM_nil, e, bind, Except.bind, pure, Except.pure]
  obtain ⟨k, hk⟩ : ∃ k, m.numHashes = k + 1 := ⟨m.numHashes - 1, by omega⟩
  congr 1
  rw [hk]
  simp only [start2, List.replicate_succ, List.set_cons_zero, List.map_cons, List.map_replicate, Nat.add_sub_cancel]
  have h1 : superCast (.fin (g.unit (g.seedFromU64 (m.hash t))).1) = 0 := by
    apply UInt32.toNat_inj.mp
    rw [superCast_fin]
    have hr := g.unit_range (g.seedFromU64 (m.hash t))
    have : ⌊(g.unit (g.seedFromU64 (m.hash t))).1⌋ = 0 := Int.floor_eq_zero_iff.mpr ⟨hr.1, hr.2⟩
    simp [castQ, this]
  rw [h1, show superCast superInit = 100000000 by decide +kernel]

/-- C91 is false of the code: for every generator, hasher and number of hashes, two documents of one token each have the
same signature, hence similarity 1, whatever the tokens are. -/
theorem C91_single_tokens_false (g : SuperRng) (m : SuperMinHasher Tok) (hn : 1 ≤ m.numHashes) (t u : Tok) :
    ∃ s, createSignature2 g m [t] = .ok s ∧ createSignature2 g m [u] = .ok s :=
  ⟨_, sig2_single g m hn t, sig2_single g m hn u⟩

/-- C91 is false of the code: for every generator and hasher and at least two hashes, repeating the only token of a
document changes its signature. -/
theorem C91_token_set_false (g : SuperRng) (m : SuperMinHasher Tok) (hn : 2 ≤ m.numHashes) (t : Tok) :
    (∀ u, u ∈ [t] ↔ u ∈ [t, t]) ∧ createSignature2 g m [t] ≠ createSignature2 g m [t, t] := by
  refine ⟨fun u => by simp, fun hc => ?_⟩
  obtain ⟨b, e, hok, _⟩ := first2 g m (by omega) t
  obtain ⟨l', e', k, x, hk, hx, hx2⟩ := second2 g m hn t _ b rfl hok
  rw [sig2_single g m (by omega), sig2_eq g m (by omega)] at hc
  simp only [List.zipIdx_cons, List.zipIdx_nil, List.foldlM_cons, List.foldlM_nil, e, bind, Except.bind, pure, Except.pure,
    Nat.zero_add] at hc
  rw [e'] at hc
  simp only [Except.ok.injEq] at hc
  have h1 : (l'.h.map superCast)[k]? = some (superCast (.fin x)) := by simp [hx]
  rw [← hc] at h1
  obtain ⟨k, rfl⟩ : ∃ k', k = k' + 1 := ⟨k - 1, by omega⟩
  simp only [List.getElem?_cons_succ] at h1
  have h2 := List.eq_of_mem_replicate (List.mem_of_getElem? h1)
  have h3 := superCast_fin x
  rw [h2] at h3
  have h4 : castQ x ≤ castQ 2 := castQ_mono hx2
  have h5 : castQ 2 = 2 := by decide +kernel
  have h6 : (100000000 : UInt32).toNat = 100000000 := by decide
  omega

/-- C91, the part that holds: tokens at the end never raise a component. Missing: independence of order and repetitions,
which fails. -/
theorem C91_decreasing_partial (g : SuperRng) (m : SuperMinHasher Tok) (hn : 1 ≤ m.numHashes) (l l' : List Tok) :
    ∃ s s', createSignature2 g m l = .ok s ∧ createSignature2 g m (l ++ l') = .ok s' ∧
      s.length = m.numHashes ∧ s'.length = m.numHashes ∧
      ∀ (j : Nat) (x y : UInt32), s[j]? = some x → s'[j]? = some y → y.toNat ≤ x.toNat := by
  obtain ⟨a, e, ha⟩ := fold2_ok g m l.zipIdx (start2 m.numHashes) (start2_ok hn)
  have hb := fold2_below g m l.zipIdx (start2 m.numHashes) a (start2_ok hn) (start2_below _) e
  obtain ⟨a', e', ha'⟩ := fold2_ok g m (l'.zipIdx l.length) a ha
  have hb' := fold2_below g m _ a a' ha hb.left e'
  refine ⟨a.h.map superCast, a'.h.map superCast, ?_, ?_, by rw [List.length_map, ha.hh], by rw [List.length_map, ha'.hh], ?_⟩
  · rw [sig2_eq g m hn, e]
    rfl
  · rw [sig2_eq g m hn, List.zipIdx_append, List.foldlM_append, e]
    simp only [bind, Except.bind, Nat.zero_add]
    rw [e']
  · intro j x y hx hy
    simp only [List.getElem?_map, Option.map_eq_some_iff] at hx hy
    obtain ⟨u, hu, rfl⟩ := hx
    obtain ⟨v, hv, rfl⟩ := hy
    obtain ⟨p, q, hp, rfl, hpq⟩ := Below.get hb' j hu
    rw [hv, Option.some.injEq] at hp
    subst hp
    rw [superCast_fin, superCast_fin]
    exact castQ_mono hpq

/-- C91, the part that holds, on the values: every token ranks the components, `rank u` is, up to one (rounding of the
`f32` sum), a permutation of the components, and depends only on the token. In a document of at least two tokens
component 0 is 0, and every other component is the rank given to it by one of the tokens after the first, and at most
the rank given to it by the second. Missing: component 0 and the first token, and that the rank is the least one. -/
theorem C91_values_partial (g : SuperRng) (m : SuperMinHasher Tok) (hn2 : 2 ≤ m.numHashes) (hn : m.numHashes ≤ 2 ^ 24) :
    ∃ rank : Tok → Nat → Nat,
      (∀ t, ∃ π : List Nat, π.Perm (List.range m.numHashes) ∧
        ∀ (j p : Nat), π[j]? = some p → rank t j = p ∨ rank t j = p + 1) ∧
      ∀ (t u : Tok) (us : List Tok), ∃ s, createSignature2 g m (t :: u :: us) = .ok s ∧ s.length = m.numHashes ∧
        s[0]? = some 0 ∧ ∀ (c : Nat) (x : UInt32), 1 ≤ c → s[c]? = some x →
          (∃ v ∈ u :: us, x.toNat = rank v c) ∧ x.toNat ≤ rank u c := by
  have key : ∀ (t u : Tok) (us : List Tok), ∃ s, createSignature2 g m (t :: u :: us) = .ok s ∧ s.length = m.numHashes ∧
      s[0]? = some 0 ∧ ∀ (c : Nat) (x : UInt32), 1 ≤ c → s[c]? = some x → ∃ v ∈ u :: us, x.toNat = castQ (slotQ g m v c) := by
    intro t u us
    obtain ⟨l, e, hl, ⟨y, hy, hy1⟩, hv⟩ := fold2_values g m hn2 hn t (u :: us) (by simp)
    refine ⟨l.h.map superCast, by rw [sig2_eq g m (by omega), e]; rfl, by rw [List.length_map, hl.hh], ?_, ?_⟩
    · rw [List.getElem?_map, hy, Option.map_some, Option.some.injEq]
      apply UInt32.toNat_inj.mp
      rw [superCast_fin]
      have : ⌊y⌋ ≤ 0 := by
        have := Int.floor_lt.mpr (show y < ((1 : ℤ) : ℚ) by exact_mod_cast hy1)
        omega
      simp [castQ]
      omega
    · intro c x hc hx
      have hcn : c < m.numHashes := by
        have := (List.getElem?_eq_some_iff.mp hx).1
        rwa [List.length_map, hl.hh] at this
      obtain ⟨v, hv1, hv2⟩ := hv c hc hcn
      rw [List.getElem?_map, hv2, Option.map_some, Option.some.injEq] at hx
      exact ⟨v, hv1, by rw [← hx, superCast_fin]⟩
  refine ⟨fun t c => castQ (slotQ g m t c), fun t => ?_, fun t u us => ?_⟩
  · refine ⟨(List.range m.numHashes).map (permAt g m.numHashes (g.seedFromU64 (m.hash t)) m.numHashes).symm, ?_, ?_⟩
    · rw [List.perm_ext_iff_of_nodup (List.Nodup.map (Equiv.injective _) List.nodup_range) List.nodup_range]
      intro x
      simp only [List.mem_map, List.mem_range]
      constructor
      · rintro ⟨c, hc, rfl⟩
        exact permAt_symm_lt g _ _ hc
      · intro hx
        exact ⟨_, permAt_lt g _ (g.seedFromU64 (m.hash t)) le_rfl hx, Equiv.symm_apply_apply _ _⟩
    · intro c p hp
      have hc : c < m.numHashes := by
        have := (List.getElem?_eq_some_iff.mp hp).1
        simpa using this
      rw [List.getElem?_map, List.getElem?_range hc, Option.map_some, Option.some.injEq] at hp
      have hpn := permAt_symm_lt g m.numHashes (g.seedFromU64 (m.hash t)) hc
      rw [hp] at hpn
      simp only [slotQ, hp]
      obtain ⟨h1, h2⟩ := superQ_bounds (rAt_range g m.numHashes (g.seedFromU64 (m.hash t)) p).1 (rAt_range ..).2
        (show p < 2 ^ 24 by omega)
      exact castQ_between (by omega) h1 h2
  · obtain ⟨s, e, hl, h0, hs⟩ := key t u us
    refine ⟨s, e, hl, h0, fun c x hc hx => ⟨hs c x hc hx, ?_⟩⟩
    obtain ⟨s2, e2, hl2, _, hs2⟩ := key t u []
    obtain ⟨a, a', ea, ea', _, _, hle⟩ := C91_decreasing_partial g m (by omega) [t, u] us
    have h1 : a = s2 := Except.ok.inj (ea.symm.trans e2)
    have h2 : a' = s := Except.ok.inj (ea'.symm.trans e)
    subst h1 h2
    have hcl : c < a.length := by
      have := (List.getElem?_eq_some_iff.mp hx).1
      omega
    obtain ⟨v, hv, hv2⟩ := hs2 c _ hc (List.getElem?_eq_getElem hcl)
    simp only [List.mem_singleton] at hv
    subst hv
    exact (hle c _ _ (List.getElem?_eq_getElem hcl) hx).trans hv2.le

/-- C91 is false of the code: for every generator and hasher, the first of two tokens does not matter, so two documents
of two tokens each that share only the last one have similarity 1. -/
theorem C91_two_tokens_false (g : SuperRng) (m : SuperMinHasher Tok) (hn2 : 2 ≤ m.numHashes) (hn : m.numHashes ≤ 2 ^ 24)
    (t t' u : Tok) : ∃ s, createSignature2 g m [t, u] = .ok s ∧ createSignature2 g m [t', u] = .ok s := by
  obtain ⟨rank, _, h⟩ := C91_values_partial g m hn2 hn
  obtain ⟨s, e, hl, h0, hs⟩ := h t u []
  obtain ⟨s', e', hl', h0', hs'⟩ := h t' u []
  refine ⟨s, e, ?_⟩
  rw [e']
  congr 1
  apply List.ext_getElem (by omega)
  intro c h1 h2
  rcases Nat.eq_zero_or_pos c with rfl | hc
  · rw [List.getElem?_eq_getElem h1, Option.some.injEq] at h0'
    rw [List.getElem?_eq_getElem h2, Option.some.injEq] at h0
    rw [h0, h0']
  · obtain ⟨⟨v, hv, e1⟩, _⟩ := hs c _ hc (List.getElem?_eq_getElem h2)
    obtain ⟨⟨v', hv', e1'⟩, _⟩ := hs' c _ hc (List.getElem?_eq_getElem h1)
    simp only [List.mem_singleton] at hv hv'
    subst hv hv'
    exact UInt32.toNat_inj.mp (e1'.trans e1.symm)

/-- C91 is false of the code: a component can be larger than the rank given to it by a token of the document. Here the
last token alone after the first gives 1 to component 2, and two more tokens before it raise the component to 2. -/
theorem C91_least_false : ∃ (g : SuperRng) (m : SuperMinHasher Nat) (t u v w : Nat) (s s' : List UInt32),
    createSignature2 g m [t, w] = .ok s ∧ createSignature2 g m [t, u, v, w] = .ok s' ∧ s[2]? = some 1 ∧ s'[2]? = some 2 :=
  ⟨exSuperRng, exSuper 4, 0, 0, 7, 11, [0, 2, 1, 3], [0, 0, 2, 1], by decide +kernel, by decide +kernel, rfl, rfl⟩

/-- The violations on concrete documents: {2} and {5} agree, [2] differs from [2, 2], and [2, 5]
from [5, 2]. -/
example : [[2], [5], [2, 2], [2, 5], [5, 2]].map (createSignature2 exSuperRng (exSuper 3)) =
    [.ok [0, 100000000, 100000000], .ok [0, 100000000, 100000000], .ok [0, 2, 1], .ok [0, 1, 2], .ok [0, 2, 1]] := by
  decide +kernel

/-- The hypotheses of `C91_values_partial` and `C91_two_tokens_false` are met, the first of two tokens does not matter, and
a third token counts. -/
example : 2 ≤ (exSuper 4).numHashes ∧ (exSuper 4).numHashes ≤ 2 ^ 24 ∧
    [[2, 7], [9, 7], [2, 7, 4]].map (createSignature2 exSuperRng (exSuper 4)) =
      [.ok [0, 3, 2, 1], .ok [0, 3, 2, 1], .ok [0, 0, 2, 1]] := by
  refine ⟨by decide, by decide, ?_⟩
  decide +kernel

end Verif.Props
