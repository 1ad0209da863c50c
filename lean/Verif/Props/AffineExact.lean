import Verif.Props.ExactProbability
import Verif.Props.AffineAccuracy
import Verif.Props.HashSize

/-!
# Property C146: the probability of an answer with the crate's own hash family

The coefficients of the components are drawn independently, so the components of two signatures agree independently with
one probability, and the answers are events of coins with this probability.
-/
set_option linter.unusedSectionVars false
namespace Verif.Props
open Verif.Spec

theorem ok_one {α : Type} {x : α} {Q : α → Prop} : (∃ s, (Except.ok x : Except Panic α) = .ok s ∧ Q s) ↔ Q x := by
  simp

theorem ok_pair {α : Type} {x y : α} {Q : α → α → Prop} :
    (∃ s s', (Except.ok x : Except Panic α) = .ok s ∧ (Except.ok y : Except Panic α) = .ok s' ∧ Q s s') ↔ Q x y := by
  constructor
  · rintro ⟨s, s', h1, h2, h⟩
    cases h1
    cases h2
    exact h
  · intro h
    exact ⟨_, _, rfl, rfl, h⟩

theorem ok_result {α β : Type} {y : α} {Q : α → β → Prop} :
    (∃ s r, (Except.ok y : Except Panic α) = .ok s ∧ Q s r) ↔ ∃ r, Q y r := by
  constructor
  · rintro ⟨s, r, h1, h⟩
    cases h1
    exact ⟨r, h⟩
  · rintro ⟨r, h⟩
    exact ⟨_, r, rfl, h⟩

section family
variable {P V Id : Type} [Fintype P] [DecidableEq V] [DecidableEq Id]
variable {C : Type} [IdContainer C Id] [LawfulIdContainer C Id]

theorem family_independent (n : Nat) (f f' : P → V) (hP : 0 < Fintype.card P) (F : (Fin n → Bool) → Prop) :
    proportion (fun ω : Fin n → P => F fun i =>
      decide ((List.ofFn fun i => f (ω i))[i.val]? = (List.ofFn fun i => f' (ω i))[i.val]?)) =
    coins (proportion fun c => f c = f' c) F := by
  classical
  rw [← proportion_coins _ hP]
  congr 1
  funext ω
  congr 1
  funext i
  rw [decide_eq_decide]
  simp [List.getElem?_ofFn]

theorem family_first (n : Nat) (h0 : 0 < n) (f f' : P → V) (hP : 0 < Fintype.card P) :
    proportion (fun ω : Fin n → P => (List.ofFn fun i => f (ω i))[0]? = (List.ofFn fun i => f' (ω i))[0]?) =
      proportion fun c => f c = f' c := by
  rw [← proportion_entry n ⟨0, h0⟩ (fun c => f c = f' c) hP]
  congr 1
  funext ω
  simp [List.getElem?_ofFn, h0]

theorem agree_heads {n : Nat} (s s' : Fin n → V) :
    heads (fun i : Fin n => decide ((List.ofFn s)[i.val]? = (List.ofFn s')[i.val]?)) =
      agree (List.ofFn s) (List.ofFn s') := by
  rw [agree_ofFn]
  unfold heads
  congr 1
  ext i
  simp [List.getElem?_ofFn]

theorem family_answer (b r : Nat) (t : Fl) (h : List V → UInt64) (id : Id) (s s' : Fin (b * r) → V)
    (ops : List (Op V Id)) (h0 : 0 < b * r) (hn : b * r ≤ 2 ^ 53) (hl : RightLengths (b * r) ops)
    (hlive : live (b * r) ops id = some (List.ofFn s)) :
    let E := Accepted b r t fun i => decide ((List.ofFn s)[i.val]? = (List.ofFn s')[i.val]?)
    (E → ∃ res, (After C b r t h ops).query (List.ofFn s') = .ok res ∧ id ∈ res.elems) ∧
    (Clean (b * r) ops → (∃ res, (After C b r t h ops).query (List.ofFn s') = .ok res ∧ id ∈ res.elems) →
      E ∨ ∃ i < b, bandOf r (List.ofFn s) i ≠ bandOf r (List.ofFn s') i ∧
        h (bandOf r (List.ofFn s) i) = h (bandOf r (List.ofFn s') i)) := by
  intro E
  have hlen : ∀ F : Fin (b * r) → V, (List.ofFn F).length = b * r := fun F => List.length_ofFn
  obtain ⟨x, hx, hnear⟩ := C08_nearest_double (List.ofFn s) (List.ofFn s') (by rw [hlen, hlen]) (by rw [hlen]; exact h0)
    (by rw [hlen]; exact hn)
  rw [hlen] at hnear
  obtain ⟨res, hres, _⟩ := C17_query_returns (C := C) b r t h ops (List.ofFn s') hl (hlen s')
  constructor
  · rintro ⟨⟨i, hi, hrow⟩, y, hy, hge⟩
    rw [agree_heads] at hy
    rw [nearest_unique hy hnear] at hge
    refine ⟨res, hres, C17_complete b r t h ops _ res (.inl hres) id _ _ hlive ⟨i, hi, fun j h1 h2 => ?_⟩ hx hge⟩
    have hj : j < b * r := lt_of_lt_of_le h2 (Nat.mul_le_mul_right r hi)
    exact of_decide_eq_true (hrow ⟨j, hj⟩ h1 h2)
  · rintro hc ⟨res', hres', hid⟩
    obtain ⟨s0, v, hs, ⟨i, hi, hband⟩, hv, hge⟩ := (C18_exact b r t h ops _ hc res' hres' id).mp hid
    rw [hlive, Option.some.injEq] at hs
    subst hs
    by_cases he : bandOf r (List.ofFn s) i = bandOf r (List.ofFn s') i
    · left
      refine ⟨⟨i, hi, fun j h1 h2 => decide_eq_true (sameBand_of_bandOf he j.val h1 h2)⟩, x, ?_, ?_⟩
      · rw [agree_heads]
        exact hnear
      · rw [hx, Except.ok.injEq] at hv
        rwa [hv]
    · exact .inr ⟨i, hi, he, hband⟩

theorem family_bounds (b r : Nat) (t : Fl) (h : List V → UInt64) (id : Id) (f f' : P → V) (hP : 0 < Fintype.card P)
    (ops : (Fin (b * r) → P) → List (Op V Id)) (h0 : 0 < b * r) (hn : b * r ≤ 2 ^ 53)
    (hl : ∀ ω, RightLengths (b * r) (ops ω))
    (hlive : ∀ ω, live (b * r) (ops ω) id = some (List.ofFn fun i => f (ω i))) :
    coins (proportion fun c => f c = f' c) (Accepted b r t) ≤
      proportion (fun ω : Fin (b * r) → P =>
        ∃ res, (After C b r t h (ops ω)).query (List.ofFn fun i => f' (ω i)) = .ok res ∧ id ∈ res.elems) ∧
    ((∀ ω, Clean (b * r) (ops ω)) → proportion (fun ω : Fin (b * r) → P =>
        ∃ res, (After C b r t h (ops ω)).query (List.ofFn fun i => f' (ω i)) = .ok res ∧ id ∈ res.elems) ≤
      coins (proportion fun c => f c = f' c) (Accepted b r t) +
        proportion (fun ω : Fin (b * r) → P => ∃ i < b,
          bandOf r (List.ofFn fun i => f (ω i)) i ≠ bandOf r (List.ofFn fun i => f' (ω i)) i ∧
          h (bandOf r (List.ofFn fun i => f (ω i)) i) = h (bandOf r (List.ofFn fun i => f' (ω i)) i))) := by
  rw [← family_independent (b * r) f f' hP (Accepted b r t)]
  have key := fun ω : Fin (b * r) → P => family_answer (C := C) b r t h id (fun i => f (ω i)) (fun i => f' (ω i)) (ops ω)
    h0 hn (hl ω) (hlive ω)
  refine ⟨proportion_mono fun ω hω => (key ω).1 hω, fun hc => ?_⟩
  refine le_trans (proportion_mono fun ω hω => (key ω).2 (hc ω) hω) (proportion_or _ _)

end family

section index
variable {Tok Id : Type} [DecidableEq Tok] [DecidableEq Id]
variable {C : Type} [IdContainer C Id] [LawfulIdContainer C Id]

/-- C146: draw the coefficients of `MinHasher64V1` uniformly. The components of the signatures of two documents agree
independently, each with the probability `q` with which the first one does. -/
theorem C146_independent_64 (n : Nat) (h0 : 0 < n) (hash : Tok → UInt64) (seed : UInt64)
    (g : (Fin n → Coeff (2 ^ 61 - 1)) → Rng) (hg : ∀ ω, Draws (2 ^ 61 - 1) n (g ω) seed ω) (A B : List Tok) (hA : A ≠ [])
    (hB : B ≠ []) (q : ℝ)
    (hq : proportion (fun ω => ∃ s s', (MinHasher64.newWithHasherAndSeed (g ω) n hash seed).createSignature A = .ok s ∧
      (MinHasher64.newWithHasherAndSeed (g ω) n hash seed).createSignature B = .ok s' ∧ s[0]? = s'[0]?) = q)
    (F : (Fin n → Bool) → Prop) :
    proportion (fun ω => ∃ s s', (MinHasher64.newWithHasherAndSeed (g ω) n hash seed).createSignature A = .ok s ∧
      (MinHasher64.newWithHasherAndSeed (g ω) n hash seed).createSignature B = .ok s' ∧
      F fun i => decide (s[i.val]? = s'[i.val]?)) = coins q F := by
  simp only [draws_sig64 (hg _) hash hA, draws_sig64 (hg _) hash hB, ok_pair] at hq ⊢
  rw [← hq, family_first n h0
    (fun c : Coeff (2 ^ 61 - 1) => comp64 hash A (UInt64.ofNat (c.1.val + 1), UInt64.ofNat c.2.val))
    (fun c => comp64 hash B (UInt64.ofNat (c.1.val + 1), UInt64.ofNat c.2.val)) (coeff_pos (by norm_num))]
  exact family_independent n
    (fun c : Coeff (2 ^ 61 - 1) => comp64 hash A (UInt64.ofNat (c.1.val + 1), UInt64.ofNat c.2.val))
    (fun c => comp64 hash B (UInt64.ofNat (c.1.val + 1), UInt64.ofNat c.2.val)) (coeff_pos (by norm_num)) F

/-- C146 for the narrow hashers: `cast` is the identity or a truncation. -/
theorem C146_independent_narrow {V : Type} [DecidableEq V] (cast : UInt32 → V) (zero : V) (n : Nat) (h0 : 0 < n)
    (hash : Tok → UInt64) (seed : UInt64)
    (g : (Fin n → Coeff (2 ^ 31 - 1)) → Rng) (hg : ∀ ω, Draws (2 ^ 31 - 1) n (g ω) seed ω) (A B : List Tok) (hA : A ≠ [])
    (hB : B ≠ []) (q : ℝ)
    (hq : proportion (fun ω => ∃ s s',
      (MinHasherN.newWithHasherAndSeed (g ω) n hash seed).createSignature cast zero A = .ok s ∧
      (MinHasherN.newWithHasherAndSeed (g ω) n hash seed).createSignature cast zero B = .ok s' ∧ s[0]? = s'[0]?) = q)
    (F : (Fin n → Bool) → Prop) :
    proportion (fun ω => ∃ s s', (MinHasherN.newWithHasherAndSeed (g ω) n hash seed).createSignature cast zero A = .ok s ∧
      (MinHasherN.newWithHasherAndSeed (g ω) n hash seed).createSignature cast zero B = .ok s' ∧
      F fun i => decide (s[i.val]? = s'[i.val]?)) = coins q F := by
  simp only [draws_sigN cast zero (hg _) hash hA, draws_sigN cast zero (hg _) hash hB, ok_pair]
    at hq ⊢
  rw [← hq, family_first n h0
    (fun c : Coeff (2 ^ 31 - 1) => cast (comp32 hash A (UInt32.ofNat (c.1.val + 1), UInt32.ofNat c.2.val)))
    (fun c => cast (comp32 hash B (UInt32.ofNat (c.1.val + 1), UInt32.ofNat c.2.val))) (coeff_pos (by norm_num))]
  exact family_independent n
    (fun c : Coeff (2 ^ 31 - 1) => cast (comp32 hash A (UInt32.ofNat (c.1.val + 1), UInt32.ofNat c.2.val)))
    (fun c => cast (comp32 hash B (UInt32.ofNat (c.1.val + 1), UInt32.ofNat c.2.val))) (coeff_pos (by norm_num)) F

/-- C146: a query returns a stored document at least with the probability that coins showing heads with probability `q`
are accepted, after every history, and, if nothing was overwritten, at most with this probability and the one that two
different bands have the same band hash. -/
theorem C146_answer_64 (b r : Nat) (t : Fl) (h : List UInt64 → UInt64) (hash : Tok → UInt64)
    (seed : UInt64) (g : (Fin (b * r) → Coeff (2 ^ 61 - 1)) → Rng) (hg : ∀ ω, Draws (2 ^ 61 - 1) (b * r) (g ω) seed ω)
    (A B : List Tok) (hA : A ≠ []) (hB : B ≠ []) (h0 : 0 < b * r) (hn : b * r ≤ 2 ^ 53) (q : ℝ)
    (hq : proportion (fun ω => ∃ s s',
      (MinHasher64.newWithHasherAndSeed (g ω) (b * r) hash seed).createSignature A = .ok s ∧
      (MinHasher64.newWithHasherAndSeed (g ω) (b * r) hash seed).createSignature B = .ok s' ∧ s[0]? = s'[0]?) = q)
    (id : Id) (ops : (Fin (b * r) → Coeff (2 ^ 61 - 1)) → List (Op UInt64 Id)) (hl : ∀ ω, RightLengths (b * r) (ops ω))
    (hlive : ∀ ω, ∃ s, (MinHasher64.newWithHasherAndSeed (g ω) (b * r) hash seed).createSignature A = .ok s ∧
      live (b * r) (ops ω) id = some s) :
    coins q (Accepted b r t) ≤
      proportion (fun ω => ∃ s' res, (MinHasher64.newWithHasherAndSeed (g ω) (b * r) hash seed).createSignature B = .ok s' ∧
        (After C b r t h (ops ω)).query s' = .ok res ∧ id ∈ res.elems) ∧
    ((∀ ω, Clean (b * r) (ops ω)) →
      proportion (fun ω => ∃ s' res, (MinHasher64.newWithHasherAndSeed (g ω) (b * r) hash seed).createSignature B = .ok s' ∧
        (After C b r t h (ops ω)).query s' = .ok res ∧ id ∈ res.elems) ≤
      coins q (Accepted b r t) +
        proportion (fun ω => ∃ s s', (MinHasher64.newWithHasherAndSeed (g ω) (b * r) hash seed).createSignature A = .ok s ∧
          (MinHasher64.newWithHasherAndSeed (g ω) (b * r) hash seed).createSignature B = .ok s' ∧
          ∃ i < b, bandOf r s i ≠ bandOf r s' i ∧ h (bandOf r s i) = h (bandOf r s' i))) := by
  simp only [draws_sig64 (hg _) hash hA, draws_sig64 (hg _) hash hB, ok_one, ok_pair, ok_result]
    at hq hlive ⊢
  rw [family_first (b * r) h0
    (fun c : Coeff (2 ^ 61 - 1) => comp64 hash A (UInt64.ofNat (c.1.val + 1), UInt64.ofNat c.2.val))
    (fun c => comp64 hash B (UInt64.ofNat (c.1.val + 1), UInt64.ofNat c.2.val)) (coeff_pos (by norm_num))] at hq
  rw [← hq]
  exact family_bounds (C := C) b r t h id
    (fun c : Coeff (2 ^ 61 - 1) => comp64 hash A (UInt64.ofNat (c.1.val + 1), UInt64.ofNat c.2.val))
    (fun c => comp64 hash B (UInt64.ofNat (c.1.val + 1), UInt64.ofNat c.2.val)) (coeff_pos (by norm_num)) ops h0 hn hl hlive

/-- C146 for the narrow hashers. -/
theorem C146_answer_narrow {V : Type} [DecidableEq V] (cast : UInt32 → V) (zero : V) (b r : Nat) (t : Fl)
    (h : List V → UInt64) (hash : Tok → UInt64)
    (seed : UInt64) (g : (Fin (b * r) → Coeff (2 ^ 31 - 1)) → Rng) (hg : ∀ ω, Draws (2 ^ 31 - 1) (b * r) (g ω) seed ω)
    (A B : List Tok) (hA : A ≠ []) (hB : B ≠ []) (h0 : 0 < b * r) (hn : b * r ≤ 2 ^ 53) (q : ℝ)
    (hq : proportion (fun ω => ∃ s s',
      (MinHasherN.newWithHasherAndSeed (g ω) (b * r) hash seed).createSignature cast zero A = .ok s ∧
      (MinHasherN.newWithHasherAndSeed (g ω) (b * r) hash seed).createSignature cast zero B = .ok s' ∧
      s[0]? = s'[0]?) = q)
    (id : Id) (ops : (Fin (b * r) → Coeff (2 ^ 31 - 1)) → List (Op V Id)) (hl : ∀ ω, RightLengths (b * r) (ops ω))
    (hlive : ∀ ω, ∃ s, (MinHasherN.newWithHasherAndSeed (g ω) (b * r) hash seed).createSignature cast zero A = .ok s ∧
      live (b * r) (ops ω) id = some s) :
    coins q (Accepted b r t) ≤
      proportion (fun ω => ∃ s' res,
        (MinHasherN.newWithHasherAndSeed (g ω) (b * r) hash seed).createSignature cast zero B = .ok s' ∧
        (After C b r t h (ops ω)).query s' = .ok res ∧ id ∈ res.elems) ∧
    ((∀ ω, Clean (b * r) (ops ω)) →
      proportion (fun ω => ∃ s' res,
        (MinHasherN.newWithHasherAndSeed (g ω) (b * r) hash seed).createSignature cast zero B = .ok s' ∧
        (After C b r t h (ops ω)).query s' = .ok res ∧ id ∈ res.elems) ≤
      coins q (Accepted b r t) +
        proportion (fun ω => ∃ s s',
          (MinHasherN.newWithHasherAndSeed (g ω) (b * r) hash seed).createSignature cast zero A = .ok s ∧
          (MinHasherN.newWithHasherAndSeed (g ω) (b * r) hash seed).createSignature cast zero B = .ok s' ∧
          ∃ i < b, bandOf r s i ≠ bandOf r s' i ∧ h (bandOf r s i) = h (bandOf r s' i))) := by
  simp only [draws_sigN cast zero (hg _) hash hA, draws_sigN cast zero (hg _) hash hB, ok_one, ok_pair,
    ok_result] at hq hlive ⊢
  rw [family_first (b * r) h0
    (fun c : Coeff (2 ^ 31 - 1) => cast (comp32 hash A (UInt32.ofNat (c.1.val + 1), UInt32.ofNat c.2.val)))
    (fun c => cast (comp32 hash B (UInt32.ofNat (c.1.val + 1), UInt32.ofNat c.2.val))) (coeff_pos (by norm_num))] at hq
  rw [← hq]
  exact family_bounds (C := C) b r t h id
    (fun c : Coeff (2 ^ 31 - 1) => cast (comp32 hash A (UInt32.ofNat (c.1.val + 1), UInt32.ofNat c.2.val)))
    (fun c => cast (comp32 hash B (UInt32.ofNat (c.1.val + 1), UInt32.ofNat c.2.val))) (coeff_pos (by norm_num)) ops h0 hn
    hl hlive

/-- C146: a document of similarity `J` is found at least with the probability that coins showing heads with probability
`J / 65` are accepted, for every threshold and every history. -/
theorem C146_found_64 (b r : Nat) (t : Fl) (h : List UInt64 → UInt64) (hash : Tok → UInt64)
    (seed : UInt64) (g : (Fin (b * r) → Coeff (2 ^ 61 - 1)) → Rng) (hg : ∀ ω, Draws (2 ^ 61 - 1) (b * r) (g ω) seed ω)
    (A B : List Tok) (hA : A ≠ []) (hB : B ≠ []) (m : Nat) (hm : m ≤ 64)
    (hd : ∀ t ∈ A ++ B, ∀ u ∈ A ++ B, t ≠ u → (hash t).toNat % 2 ^ m ≠ (hash u).toNat % 2 ^ m)
    (hsize : (A.toFinset ∪ B.toFinset).card * 2 ^ m ≤ 2 ^ 60) (h0 : 0 < b * r) (hn : b * r ≤ 2 ^ 53)
    (id : Id) (ops : (Fin (b * r) → Coeff (2 ^ 61 - 1)) → List (Op UInt64 Id))
    (hl : ∀ ω, RightLengths (b * r) (ops ω))
    (hlive : ∀ ω, ∃ s, (MinHasher64.newWithHasherAndSeed (g ω) (b * r) hash seed).createSignature A = .ok s ∧
      live (b * r) (ops ω) id = some s) :
    coins (jaccard A B / 65) (Accepted b r t) ≤
      proportion (fun ω => ∃ s' res, (MinHasher64.newWithHasherAndSeed (g ω) (b * r) hash seed).createSignature B = .ok s' ∧
        (After C b r t h (ops ω)).query s' = .ok res ∧ id ∈ res.elems) := by
  have hj := jaccard_nonneg A B
  have hc := C118_component_64 (b * r) ⟨0, h0⟩ hash seed g hg A B hA hB m hm hd hsize
  refine le_trans (coins_mono (by positivity) hc (proportion_unit _).2 fun f g => accepted_mono b r t f g)
    (C146_answer_64 b r t h hash seed g hg A B hA hB h0 hn _ rfl id ops hl hlive).1

/-- C146 for the narrow hashers, with `J / 17`. -/
theorem C146_found_narrow {V : Type} [DecidableEq V] (cast : UInt32 → V) (zero : V) (b r : Nat) (t : Fl)
    (h : List V → UInt64) (hash : Tok → UInt64)
    (seed : UInt64) (g : (Fin (b * r) → Coeff (2 ^ 31 - 1)) → Rng) (hg : ∀ ω, Draws (2 ^ 31 - 1) (b * r) (g ω) seed ω)
    (A B : List Tok) (hA : A ≠ []) (hB : B ≠ []) (m : Nat) (hm : m ≤ 32)
    (hd : ∀ t ∈ A ++ B, ∀ u ∈ A ++ B, t ≠ u → (hash t).toNat % 2 ^ m ≠ (hash u).toNat % 2 ^ m)
    (hsize : (A.toFinset ∪ B.toFinset).card * 2 ^ m ≤ 2 ^ 29) (h0 : 0 < b * r) (hn : b * r ≤ 2 ^ 53)
    (id : Id) (ops : (Fin (b * r) → Coeff (2 ^ 31 - 1)) → List (Op V Id))
    (hl : ∀ ω, RightLengths (b * r) (ops ω))
    (hlive : ∀ ω, ∃ s, (MinHasherN.newWithHasherAndSeed (g ω) (b * r) hash seed).createSignature cast zero A = .ok s ∧
      live (b * r) (ops ω) id = some s) :
    coins (jaccard A B / 17) (Accepted b r t) ≤
      proportion (fun ω => ∃ s' res,
        (MinHasherN.newWithHasherAndSeed (g ω) (b * r) hash seed).createSignature cast zero B = .ok s' ∧
        (After C b r t h (ops ω)).query s' = .ok res ∧ id ∈ res.elems) := by
  have hj := jaccard_nonneg A B
  have hc := C118_component_narrow cast zero (b * r) ⟨0, h0⟩ hash seed g hg A B hA hB m hm hd hsize
  refine le_trans (coins_mono (by positivity) hc (proportion_unit _).2 fun f g => accepted_mono b r t f g)
    (C146_answer_narrow cast zero b r t h hash seed g hg A B hA hB h0 hn _ rfl id ops hl hlive).1

end index

theorem two_coins_ge : ∀ k : ℕ, k ≤ 2 →
    (Fl.ge (.fin (rndQ b64 ((k : ℚ) / (2 * 1 : ℕ)))) (.fin 1) = true ↔ k = 2) := by
  decide +kernel

/-- Two bands of one row and threshold 1: both components must agree. -/
theorem two_coins (p : ℝ) : coins p (Accepted 2 1 (.fin 1)) = p ^ 2 := by
  classical
  have hval : ∀ k : ℕ, k ≤ 2 → NearestEven Double ((k : ℚ) / (2 * 1 : ℕ)) (rndQ b64 ((k : ℚ) / (2 * 1 : ℕ))) := by
    intro k hk
    obtain ⟨u0, u1⟩ := ratio_unit (m := k) (n := 2 * 1) hk
    exact rnd_double (rnd_of_bounds b64_ok u0 (k := 0) (by simp [b64]) (by simp [b64]) (by simpa using u1))
  have hacc : ∀ k : ℕ, k ≤ 2 → ((∃ x, NearestEven Double ((k : ℚ) / (2 * 1 : ℕ)) x ∧
      Fl.ge (.fin x) (.fin 1) = true) ↔ k = 2) := by
    intro k hk
    rw [← two_coins_ge k hk]
    constructor
    · rintro ⟨x, hx, hge⟩
      rwa [nearest_unique hx (hval k hk)] at hge
    · intro hge
      exact ⟨_, hval k hk, hge⟩
  have hpoly : ((1 + Polynomial.X) ^ 1 - Polynomial.X ^ 1 : Polynomial ℤ) ^ 2 = Polynomial.C 1 := by
    rw [show (Polynomial.C (1 : ℤ)) = 1 from rfl]
    ring
  refine (C144_formula 2 1 p fun k => ∃ x, NearestEven Double ((k : ℚ) / (2 * 1 : ℕ)) x ∧
    Fl.ge (.fin x) (.fin 1) = true).trans ?_
  rw [hpoly]
  refine (Finset.sum_congr (s₂ := {2}) ?_ fun _ _ => rfl).trans ?_
  · ext k
    simp only [Finset.mem_filter, Finset.mem_range, Finset.mem_singleton]
    constructor
    · rintro ⟨h1, h2⟩
      exact (hacc k (by omega)).mp h2
    · intro h
      exact ⟨by omega, (hacc k (by omega)).mpr (by omega)⟩
  · rw [Finset.sum_singleton, Polynomial.coeff_C]
    norm_num [Nat.choose]

/-- The hypotheses are met: documents with the tokens 0, ..., 3 and 1, ..., 4 (similarity 3/5), hashes that differ in the
low 40 bits, generators for all coefficients, and an index of two bands of one row and threshold 1 that holds the first
document. It is found with probability at least (3/325)². -/
example : ∃ (g : (Fin (2 * 1) → Coeff (2 ^ 61 - 1)) → Rng) (ops : (Fin (2 * 1) → Coeff (2 ^ 61 - 1)) → List (Op UInt64 Nat)),
    (∀ ω, Draws (2 ^ 61 - 1) (2 * 1) (g ω) 3 ω) ∧
    (∀ ω, ∃ s, (MinHasher64.newWithHasherAndSeed (g ω) (2 * 1) (fun t => UInt64.ofNat (t * 12345678901)) 3).createSignature
      [0, 1, 2, 3] = .ok s ∧ ops ω = [.insert 7 s]) ∧
    ∀ h : List UInt64 → UInt64, (3 / 325 : ℝ) ^ 2 ≤ proportion (fun ω => ∃ s' res,
      (MinHasher64.newWithHasherAndSeed (g ω) (2 * 1) (fun t => UInt64.ofNat (t * 12345678901)) 3).createSignature
        [1, 2, 3, 4] = .ok s' ∧
      (After (HashSetContainer Nat) 2 1 (.fin 1) h (ops ω)).query s' = .ok res ∧ 7 ∈ res.elems) := by
  choose g hg using (C110_generators (2 ^ 61 - 1) (2 * 1) (by norm_num) 3).1
  choose s hs hl using fun ω => sig64_length (g ω) (2 * 1) (fun t => UInt64.ofNat (t * 12345678901)) 3 [0, 1, 2, 3]
  refine ⟨g, fun ω => [.insert 7 (s ω)], hg, fun ω => ⟨s ω, hs ω, rfl⟩, fun h => ?_⟩
  have hj : jaccard [0, 1, 2, 3] [1, 2, 3, 4] = 3 / 5 := by
    unfold jaccard
    rw [show ([0, 1, 2, 3].toFinset ∩ [1, 2, 3, 4].toFinset : Finset Nat).card = 3 by decide,
      show ([0, 1, 2, 3].toFinset ∪ [1, 2, 3, 4].toFinset : Finset Nat).card = 5 by decide]
    norm_num
  have key := C146_found_64 (C := HashSetContainer Nat) 2 1 (.fin 1) h (fun t : Nat => UInt64.ofNat (t * 12345678901)) 3 g hg
    [0, 1, 2, 3] [1, 2, 3, 4] (by simp) (by simp) 40 (by norm_num) (by decide) (by decide) (by norm_num) (by norm_num) 7
    (fun ω => [.insert 7 (s ω)]) (fun ω op hop => by
      rw [List.mem_singleton.mp hop]
      intro x hx
      rw [List.mem_singleton.mp hx]
      exact hl ω) (fun ω => ⟨s ω, hs ω, by
      simp only [live, touch, List.reverse_cons, List.reverse_nil, List.nil_append, List.findSome?, hl ω, if_true, and_self]
      rfl⟩)
  rw [two_coins, hj] at key
  exact le_trans (le_of_eq (by norm_num)) key

end Verif.Props
