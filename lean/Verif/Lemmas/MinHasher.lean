import Verif.Model.MinHasher
import Verif.Spec.Coefficients
import Verif.Lemmas.Similarity

namespace Verif

/-! ### Minimum -/

theorem min32_eq_some {l : List UInt32} {m : UInt32} :
    min32 l = some m ↔ m ∈ l ∧ ∀ x ∈ l, m.toNat ≤ x.toNat := by
  have h := minBy_spec (fun x : UInt32 => x.toNat) l
  constructor
  · intro hm; exact h.2 m hm
  · rintro ⟨hm, hle⟩
    unfold min32
    cases hr : minBy (fun x y : UInt32 => compare x.toNat y.toNat) l with
    | none => rw [h.1.mp hr] at hm; simp at hm
    | some r =>
      obtain ⟨hr1, hr2⟩ := h.2 r hr
      congr 1
      exact UInt32.toNat_inj.mp (le_antisymm (hr2 m hm) (hle r hr1))

theorem min32_isSome {l : List UInt32} (h : l ≠ []) : ∃ m, min32 l = some m := by
  cases hm : min32 l with
  | some m => exact ⟨m, rfl⟩
  | none => exact absurd ((minBy_spec (fun x : UInt32 => x.toNat) l).1.mp hm) h

theorem min32_congr {l l' : List UInt32} (h : ∀ x, x ∈ l ↔ x ∈ l') : min32 l = min32 l' := by
  ext m
  simp only [min32_eq_some]
  constructor <;> rintro ⟨a, b⟩
  · exact ⟨(h m).mp a, fun x hx => b x ((h x).mpr hx)⟩
  · exact ⟨(h m).mpr a, fun x hx => b x ((h x).mp hx)⟩

theorem min64_eq_some {l : List UInt64} {m : UInt64} :
    min64 l = some m ↔ m ∈ l ∧ ∀ x ∈ l, m.toNat ≤ x.toNat := by
  have h := minBy_spec (fun x : UInt64 => x.toNat) l
  constructor
  · intro hm; exact h.2 m hm
  · rintro ⟨hm, hle⟩
    unfold min64
    cases hr : minBy (fun x y : UInt64 => compare x.toNat y.toNat) l with
    | none => rw [h.1.mp hr] at hm; simp at hm
    | some r =>
      obtain ⟨hr1, hr2⟩ := h.2 r hr
      congr 1
      exact UInt64.toNat_inj.mp (le_antisymm (hr2 m hm) (hle r hr1))

theorem min64_isSome {l : List UInt64} (h : l ≠ []) : ∃ m, min64 l = some m := by
  cases hm : min64 l with
  | some m => exact ⟨m, rfl⟩
  | none => exact absurd ((minBy_spec (fun x : UInt64 => x.toNat) l).1.mp hm) h

theorem min64_congr {l l' : List UInt64} (h : ∀ x, x ∈ l ↔ x ∈ l') : min64 l = min64 l' := by
  ext m
  simp only [min64_eq_some]
  constructor <;> rintro ⟨a, b⟩
  · exact ⟨(h m).mp a, fun x hx => b x ((h x).mpr hx)⟩
  · exact ⟨(h m).mpr a, fun x hx => b x ((h x).mp hx)⟩

/-! ### Signatures as maps over the coefficient pairs -/

variable {Tok V : Type}

/-- The (untruncated) component of the signature for one coefficient pair. -/
def comp32 (hash : Tok → UInt64) (toks : List Tok) (ab : UInt32 × UInt32) : UInt32 :=
  (min32 (toks.map fun t => affine32 ab.1 ab.2 (hash t).toUInt32)).getD 0

def comp64 (hash : Tok → UInt64) (toks : List Tok) (ab : UInt64 × UInt64) : UInt64 :=
  (min64 (toks.map fun t => affine64 ab.1 ab.2 (hash t))).getD 0

theorem comp32_spec (hash : Tok → UInt64) {toks : List Tok} (h : toks ≠ []) (ab : UInt32 × UInt32) :
    (∃ t ∈ toks, comp32 hash toks ab = affine32 ab.1 ab.2 (hash t).toUInt32) ∧
    ∀ t ∈ toks, (comp32 hash toks ab).toNat ≤ (affine32 ab.1 ab.2 (hash t).toUInt32).toNat := by
  obtain ⟨m, hm⟩ := min32_isSome (l := toks.map fun t => affine32 ab.1 ab.2 (hash t).toUInt32)
    (by simpa using h)
  have hc : comp32 hash toks ab = m := by unfold comp32; rw [hm]; rfl
  obtain ⟨h1, h2⟩ := min32_eq_some.mp hm
  rw [hc]
  constructor
  · obtain ⟨t, ht, e⟩ := List.mem_map.mp h1
    exact ⟨t, ht, e.symm⟩
  · intro t ht
    exact h2 _ (List.mem_map_of_mem (f := fun t => affine32 ab.1 ab.2 (hash t).toUInt32) ht)

theorem comp64_spec (hash : Tok → UInt64) {toks : List Tok} (h : toks ≠ []) (ab : UInt64 × UInt64) :
    (∃ t ∈ toks, comp64 hash toks ab = affine64 ab.1 ab.2 (hash t)) ∧
    ∀ t ∈ toks, (comp64 hash toks ab).toNat ≤ (affine64 ab.1 ab.2 (hash t)).toNat := by
  obtain ⟨m, hm⟩ := min64_isSome (l := toks.map fun t => affine64 ab.1 ab.2 (hash t))
    (by simpa using h)
  have hc : comp64 hash toks ab = m := by unfold comp64; rw [hm]; rfl
  obtain ⟨h1, h2⟩ := min64_eq_some.mp hm
  rw [hc]
  constructor
  · obtain ⟨t, ht, e⟩ := List.mem_map.mp h1
    exact ⟨t, ht, e.symm⟩
  · intro t ht
    exact h2 _ (List.mem_map_of_mem (f := fun t => affine64 ab.1 ab.2 (hash t)) ht)

theorem createSignature_cons (cast : UInt32 → V) (zero : V) (m : MinHasherN Tok) {toks : List Tok}
    (h : toks ≠ []) :
    m.createSignature cast zero toks =
      .ok ((m.a.zip m.b).map fun ab => cast (comp32 m.hash toks ab)) := by
  unfold MinHasherN.createSignature
  have hl : (toks.map fun item => (m.hash item).toUInt32).length > 0 := by
    simpa using List.length_pos_of_ne_nil h
  simp only
  rw [if_pos hl]
  apply mapM_ok_of_forall
  intro ab _
  obtain ⟨v, hv⟩ := min32_isSome (l := toks.map fun t => affine32 ab.1 ab.2 (m.hash t).toUInt32)
    (by simpa using h)
  have e : (toks.map fun item => (m.hash item).toUInt32).map (fun hash => affine32 ab.1 ab.2 hash)
      = toks.map fun t => affine32 ab.1 ab.2 (m.hash t).toUInt32 := by
    simp [Function.comp_def]
  rw [e, hv]
  unfold comp32
  rw [hv]
  rfl

theorem createSignature_nil (cast : UInt32 → V) (zero : V) (m : MinHasherN Tok) :
    m.createSignature cast zero [] = .ok (List.replicate m.numHashes zero) := by
  simp [MinHasherN.createSignature]

theorem createSignature64_cons (m : MinHasher64 Tok) {toks : List Tok} (h : toks ≠ []) :
    m.createSignature toks = .ok ((m.a.zip m.b).map (comp64 m.hash toks)) := by
  unfold MinHasher64.createSignature
  have hl : (toks.map m.hash).length > 0 := by
    simpa using List.length_pos_of_ne_nil h
  simp only
  rw [if_pos hl]
  apply mapM_ok_of_forall
  intro ab _
  obtain ⟨v, hv⟩ := min64_isSome (l := toks.map fun t => affine64 ab.1 ab.2 (m.hash t))
    (by simpa using h)
  have e : (toks.map m.hash).map (fun hash => affine64 ab.1 ab.2 hash)
      = toks.map fun t => affine64 ab.1 ab.2 (m.hash t) := by
    simp [Function.comp_def]
  rw [e, hv]
  unfold comp64
  rw [hv]
  rfl

theorem createSignature64_nil (m : MinHasher64 Tok) :
    m.createSignature [] = .ok (List.replicate m.numHashes 0) := by
  simp [MinHasher64.createSignature]

/-! ### Constructors -/

theorem sampleN_length (g : Rng) (lo hi n : Nat) (s : g.State) : (g.sampleN lo hi n s).1.length = n := by
  induction n generalizing s with
  | zero => rfl
  | succ n ih => simp [Rng.sampleN, ih]

/-- The samples of `sampleN` are successive draws. -/
theorem sampleN_drawn (g : Rng) (lo hi n : Nat) (s : g.State) :
    Spec.Drawn g lo hi s (g.sampleN lo hi n s).1 (g.sampleN lo hi n s).2 := by
  induction n generalizing s with
  | zero => exact .done s
  | succ n ih => exact .next (ih _)

/-- Successive draws are determined by their number. -/
theorem Drawn_eq {g : Rng} {lo hi : Nat} {s s' : g.State} {xs : List Nat} (h : Spec.Drawn g lo hi s xs s') :
    g.sampleN lo hi xs.length s = (xs, s') := by
  induction h with
  | done s => rfl
  | next rest ih => simp only [List.length_cons, Rng.sampleN, ih]

/-- `DrawsLists` in terms of `sampleN`. -/
theorem drawsLists_iff (g : Rng) (p n : Nat) (seed : UInt64) {a b : List Nat} (ha : a.length = n) (hb : b.length = n) :
    Spec.DrawsLists g p seed a b ↔ (g.sampleN 1 p n (g.seedFromU64 seed)).1 = a ∧
      (g.sampleN 0 p n (g.sampleN 1 p n (g.seedFromU64 seed)).2).1 = b := by
  constructor
  · rintro ⟨s1, s2, h1, h2⟩
    have e1 := Drawn_eq h1
    have e2 := Drawn_eq h2
    rw [ha] at e1
    rw [hb] at e2
    rw [e1]
    exact ⟨rfl, by rw [e2]⟩
  · rintro ⟨rfl, rfl⟩
    exact ⟨_, _, sampleN_drawn g 1 p n _, sampleN_drawn g 0 p n _⟩

theorem sampleN_range (g : Rng) (lo hi n : Nat) (h : lo < hi) (s : g.State) :
    ∀ x ∈ (g.sampleN lo hi n s).1, lo ≤ x ∧ x < hi := by
  induction n generalizing s with
  | zero => simp [Rng.sampleN]
  | succ n ih =>
    intro x hx
    simp only [Rng.sampleN, List.mem_cons] at hx
    rcases hx with rfl | hx
    · exact g.uniform_range lo hi s h
    · exact ih _ x hx

theorem new32_a_length (g : Rng) (n : Nat) (hash : Tok → UInt64) (seed : UInt64) :
    (MinHasherN.newWithHasherAndSeed g n hash seed).a.length = n := by
  simp [MinHasherN.newWithHasherAndSeed, sampleN_length]

theorem new32_b_length (g : Rng) (n : Nat) (hash : Tok → UInt64) (seed : UInt64) :
    (MinHasherN.newWithHasherAndSeed g n hash seed).b.length = n := by
  simp [MinHasherN.newWithHasherAndSeed, sampleN_length]

theorem new64_a_length (g : Rng) (n : Nat) (hash : Tok → UInt64) (seed : UInt64) :
    (MinHasher64.newWithHasherAndSeed g n hash seed).a.length = n := by
  simp [MinHasher64.newWithHasherAndSeed, sampleN_length]

theorem new64_b_length (g : Rng) (n : Nat) (hash : Tok → UInt64) (seed : UInt64) :
    (MinHasher64.newWithHasherAndSeed g n hash seed).b.length = n := by
  simp [MinHasher64.newWithHasherAndSeed, sampleN_length]

/-- Length of a signature made by a hasher from the constructor, 64 bit. -/
theorem sig64_length (g : Rng) (n : Nat) (hash : Tok → UInt64) (seed : UInt64) (toks : List Tok) :
    ∃ s, (MinHasher64.newWithHasherAndSeed g n hash seed).createSignature toks = .ok s ∧ s.length = n := by
  by_cases h : toks = []
  · subst h
    exact ⟨_, createSignature64_nil _, by simp [MinHasher64.newWithHasherAndSeed]⟩
  · refine ⟨_, createSignature64_cons _ h, ?_⟩
    rw [List.length_map, List.length_zip, new64_a_length, new64_b_length, min_self]

theorem sigN_length (cast : UInt32 → V) (zero : V) (g : Rng) (n : Nat) (hash : Tok → UInt64)
    (seed : UInt64) (toks : List Tok) :
    ∃ s, (MinHasherN.newWithHasherAndSeed g n hash seed).createSignature cast zero toks = .ok s ∧
      s.length = n := by
  by_cases h : toks = []
  · subst h
    exact ⟨_, createSignature_nil _ _ _, by simp [MinHasherN.newWithHasherAndSeed]⟩
  · refine ⟨_, createSignature_cons _ _ _ h, ?_⟩
    rw [List.length_map, List.length_zip, new32_a_length, new32_b_length, min_self]

/-! ### In-place creation -/

theorem intoVecLoop_eq (m : MinHasher64 Tok) {toks : List Tok} (h : toks ≠ []) :
    ∀ (ret : List UInt64) (i : Nat), i + ret.length ≤ m.a.length → i + ret.length ≤ m.b.length →
    m.intoVecLoop (toks.map m.hash) i ret =
      .ok ((((m.a.zip m.b).drop i).take ret.length).map (comp64 m.hash toks)) := by
  intro ret
  induction ret with
  | nil => intro i _ _; simp [MinHasher64.intoVecLoop]
  | cons x rest ih =>
    intro i ha hb
    simp only [List.length_cons] at ha hb
    unfold MinHasher64.intoVecLoop
    have hia : i < m.a.length := by omega
    have hib : i < m.b.length := by omega
    have e1 : indexE m.a i = .ok m.a[i] := by
      unfold indexE; rw [List.getElem?_eq_getElem hia]
    have e2 : indexE m.b i = .ok m.b[i] := by
      unfold indexE; rw [List.getElem?_eq_getElem hib]
    have e3 : ((toks.map m.hash).mapM fun hash => do
        let a ← indexE m.a i
        let b ← indexE m.b i
        pure (affine64 a b hash)) =
        .ok ((toks.map m.hash).map fun hash => affine64 m.a[i] m.b[i] hash) := by
      apply mapM_ok_of_forall
      intro hsh _
      rw [e1, e2]; rfl
    rw [e3]
    obtain ⟨v, hv⟩ := min64_isSome (l := toks.map fun t => affine64 m.a[i] m.b[i] (m.hash t))
      (by simpa using h)
    have e4 : (toks.map m.hash).map (fun hash => affine64 m.a[i] m.b[i] hash)
        = toks.map fun t => affine64 m.a[i] m.b[i] (m.hash t) := by
      simp [Function.comp_def]
    have e5 : comp64 m.hash toks (m.a[i], m.b[i]) = v := by unfold comp64; rw [hv]; rfl
    have e6 := ih (i + 1) (by omega) (by omega)
    have hiz : i < (m.a.zip m.b).length := by rw [List.length_zip]; omega
    have e7 : (m.a.zip m.b).drop i = (m.a[i], m.b[i]) :: (m.a.zip m.b).drop (i + 1) := by
      rw [List.drop_eq_getElem_cons hiz]
      simp
    rw [e7, e4]
    simp only [List.length_cons, List.take_succ_cons, List.map_cons, e5]
    show (do
      let h ← unwrap (min64 (toks.map fun t => affine64 m.a[i] m.b[i] (m.hash t)))
      let tl ← m.intoVecLoop (toks.map m.hash) (i + 1) rest
      pure (h :: tl)) = _
    rw [hv, e6]
    rfl

end Verif
