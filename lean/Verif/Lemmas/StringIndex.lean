import Verif.Spec.StringIndex
import Verif.Lemmas.IndexExact
import Verif.Lemmas.MinHasher
import Verif.Props.Index

/-! # Lemmas on the string index -/
namespace Verif
open Verif.Spec StringIndex

section
variable (g : Rng) (hash : Text → UInt64) (ah : List UInt64 → UInt64) (b r : Nat) (t : Fl)

/-- The signature of a text. -/
def sg (text : Text) : List UInt64 :=
  match (MinHasher64.newWithHasher g (b * r) hash).createSignature (whitespaceSplit text) with
  | .ok s => s
  | .error _ => []

theorem sg_spec (text : Text) :
    (MinHasher64.newWithHasher g (b * r) hash).createSignature (whitespaceSplit text) = .ok (sg g hash b r text) ∧
    (sg g hash b r text).length = b * r := by
  obtain ⟨s, h1, h2⟩ := sig64_length g (b * r) hash 3 (whitespaceSplit text)
  have h1 : (MinHasher64.newWithHasher g (b * r) hash).createSignature (whitespaceSplit text) = .ok s := h1
  unfold sg
  rw [h1]
  exact ⟨rfl, h2⟩

/-- The index and the document map are in step. -/
structure InStep (D : UInt64 → Option Text) (st : StringIndex) : Prop where
  hasher : st.minHash = MinHasher64.newWithHasher g (b * r) hash
  docs : ∀ id, st.docMap.get? id = D id
  inv : Inv ah b r t (fun id => (D id).map (sg g hash b r)) st.lshIndex

variable {g hash ah b r t}

theorem InStep.sig {D : UInt64 → Option Text} {st : StringIndex} (K : InStep g hash ah b r t D st) (text : Text) :
    st.signature text = .ok (sg g hash b r text) := by
  unfold StringIndex.signature
  rw [K.hasher]
  exact (sg_spec g hash b r text).1

theorem inStep_new : InStep g hash ah b r t (fun _ => none) (StringIndex.new g hash ah b r t) where
  hasher := rfl
  docs := fun _ => rfl
  inv := inv_new ah b r t

theorem InStep.insert {D : UInt64 → Option Text} {st : StringIndex} (K : InStep g hash ah b r t D st)
    (text : Text) :
    (st.insert text).2 = .ok () ∧ (st.insert text).1.docId = st.docId + 1 ∧
    InStep g hash ah b r t (fun id => if id = st.docId + 1 then some text else D id) (st.insert text).1 := by
  have hl := (sg_spec g hash b r text).2
  have e : st.insert text = ({ st with
      docId := st.docId + 1, docMap := st.docMap.insert (st.docId + 1) text,
      lshIndex := (st.lshIndex.insert (st.docId + 1) (sg g hash b r text)).1 },
      (st.lshIndex.insert (st.docId + 1) (sg g hash b r text)).2) := by
    unfold StringIndex.insert
    rw [K.sig text]
  rw [e]
  refine ⟨by rw [insert_eq K.inv _ _ hl], rfl, ?_⟩
  refine ⟨K.hasher, ?_, ?_⟩
  · intro id
    show (st.docMap.insert (st.docId + 1) text).get? id = _
    rw [HMap.get?_insert]
    by_cases h : id = st.docId + 1
    · simp [h]
    · rw [if_neg h, if_neg h]; exact K.docs id
  · have := inv_insert K.inv (st.docId + 1) (sg g hash b r text)
    convert this using 1
    funext id
    by_cases h : id = st.docId + 1
    · subst h
      simp [applyL, touch, hl]
    · have h' : ¬ (st.docId + 1 = id) := fun e => h e.symm
      simp [applyL, touch, h, h']

theorem InStep.lines {D : UInt64 → Option Text} {st : StringIndex} (K : InStep g hash ah b r t D st)
    (ls : List (Option Text)) :
    st.loadFromLines ls = ((readable ls).foldl (fun s x => (s.insert x).1) st, .ok ()) := by
  induction ls generalizing st D with
  | nil => rfl
  | cons l ls ih =>
    cases l with
    | none => exact ih K
    | some x =>
      obtain ⟨h1, _, h3⟩ := K.insert x
      have := ih h3
      unfold StringIndex.loadFromLines
      rw [show readable (some x :: ls) = x :: readable ls from rfl, List.foldl_cons]
      generalize st.insert x = R at h1 this
      obtain ⟨st', res⟩ := R
      simp only at h1 this
      subst h1
      exact this

/-- The lines with their ids, when all are readable. -/
def numbered (d : UInt64) (i : Nat) (xs : List Text) : List (UInt64 × Text) :=
  (xs.zipIdx i).map fun v => (UInt64.ofNat v.2 + d, v.1)

theorem numbered_cons (d : UInt64) (i : Nat) (x : Text) (xs : List Text) :
    numbered d i (x :: xs) = (UInt64.ofNat i + d, x) :: numbered d (i + 1) xs := by
  simp [numbered, List.zipIdx_cons]

theorem numbered_length (d : UInt64) (i : Nat) (xs : List Text) : (numbered d i xs).length = xs.length := by
  simp [numbered]

theorem numberedLines_eq (st : StringIndex) (ls : List (Option Text)) :
    st.numberedLines ls = if ls.all Option.isSome then .ok (numbered st.docId 0 (readable ls)) else .error .unwrap := by
  unfold StringIndex.numberedLines
  suffices h : ∀ (ls : List (Option Text)) (i : Nat), ((ls.zipIdx i).mapM fun v => do
        let line ← unwrap v.1
        pure (UInt64.ofNat v.2 + st.docId, line)) =
      if ls.all Option.isSome then .ok (numbered st.docId i (readable ls)) else .error .unwrap from h ls 0
  intro ls
  induction ls with
  | nil => intro i; rfl
  | cons l ls ih =>
    intro i
    rw [List.zipIdx_cons, List.mapM_cons, ih (i + 1)]
    cases l with
    | none => rfl
    | some x =>
      rw [show readable (some x :: ls) = x :: readable ls from rfl, numbered_cons]
      simp only [List.all_cons, Option.isSome_some, Bool.true_and]
      split_ifs <;> rfl

theorem lastPair_map (f : Text → List UInt64) (ps : List (UInt64 × Text)) (id : UInt64) :
    lastPair (ps.map fun p => (p.1, f p.2)) id = (lastPair ps id).map f := by
  induction ps with
  | nil => rfl
  | cons p ps ih =>
    rw [List.map_cons, lastPair_cons, lastPair_cons, ih]
    cases lastPair ps id with
    | some v => rfl
    | none => by_cases h : p.1 = id <;> simp [h]

theorem mapM_ok_map {α β : Type} (f : α → β) (l : List α) :
    (l.map fun x => (Except.ok (f x) : Except Panic β)).mapM (fun r => r) = .ok (l.map f) := by
  induction l with
  | nil => rfl
  | cons x l ih => rw [List.map_cons, List.mapM_cons, ih]; rfl

theorem InStep.par {D : UInt64 → Option Text} {st : StringIndex} (K : InStep g hash ah b r t D st)
    (ls : List (Option Text)) (hls : ls.all Option.isSome = true) (s1 s2 : List Nat) :
    let R := st.loadFromFileParallel (some ls) s1 s2
    R.2 = .ok (some (UInt64.ofNat (readable ls).length)) ∧
    R.1.docId = st.docId + UInt64.ofNat (readable ls).length ∧
    InStep g hash ah b r t (fun id => (lastPair (numbered st.docId 0 (readable ls)) id).or (D id)) R.1 := by
  set Q := numbered st.docId 0 (readable ls) with hQ
  set Q' := Q.map fun p => (p.1, sg g hash b r p.2) with hQ'
  have hl : ∀ p ∈ Q', p.2.length = b * r := by
    intro p hp
    obtain ⟨q, _, rfl⟩ := List.mem_map.mp hp
    exact (sg_spec g hash b r q.2).2
  have e1 : (parMap (fun line : UInt64 × Text => (st.signature line.2).map fun s => (line.1, s)) Q s1).mapM
      (fun r => r) = .ok Q' := by
    rw [parMap_eq_map, hQ', ← mapM_ok_map]
    congr 1
    apply List.map_congr_left
    intro p _
    rw [K.sig]
    rfl
  have hacc : accepts (b * r) (.parBulkInsertPairs Q' s2 : Op UInt64 UInt64) = true := by
    simp only [accepts, List.all_eq_true, decide_eq_true_eq]
    intro p hp
    exact (hl p hp).ge
  rcases pairs_eq K.inv Q' s2 with ⟨_, _, e2⟩ | ⟨hn, _⟩
  swap
  · rw [hacc] at hn; cases hn
  have hlen : Q.length = (readable ls).length := numbered_length _ _ _
  have hinv := inv_pairs K.inv Q' s2
  have e : st.loadFromFileParallel (some ls) s1 s2 =
      ({ st with lshIndex := (st.lshIndex.parBulkInsertPairs Q' s2).1,
                 docId := st.docId + UInt64.ofNat Q.length,
                 docMap := Q.foldl (fun m line => m.insert line.1 line.2) st.docMap },
        .ok (some (st.docId + UInt64.ofNat Q.length - st.docId))) := by
    unfold StringIndex.loadFromFileParallel
    simp only [numberedLines_eq]
    rw [if_pos hls]
    simp only [← hQ]
    rw [e1]
    simp only
    rw [e2]
  rw [e]
  intro R
  refine ⟨?_, by show st.docId + UInt64.ofNat Q.length = _; rw [hlen], K.hasher, ?_, ?_⟩
  · show Except.ok (some (st.docId + UInt64.ofNat Q.length - st.docId)) = _
    rw [hlen]
    congr 2
    rw [UInt64.add_comm, UInt64.add_sub_cancel]
  · intro id
    show (MinHashIndex.insertAllSignatures st.docMap Q).get? id = _
    rw [get?_insertAll, K.docs]
  · show Inv ah b r t _ (st.lshIndex.parBulkInsertPairs Q' s2).1
    convert hinv using 1
    funext id
    simp only [applyL, touch, hacc, if_true]
    rw [hQ', lastPair_map]
    cases lastPair Q id <;> rfl

theorem par_none (st : StringIndex) (s1 s2 : List Nat) :
    st.loadFromFileParallel none s1 s2 = (st, .ok none) := rfl

theorem par_unreadable (st : StringIndex) (ls : List (Option Text)) (h : ls.all Option.isSome = false)
    (s1 s2 : List Nat) : st.loadFromFileParallel (some ls) s1 s2 = (st, .error .unwrap) := by
  unfold StringIndex.loadFromFileParallel
  simp only [numberedLines_eq]
  rw [if_neg (by simp [h])]

theorem file_none (st : StringIndex) : st.loadFromFile none = (st, .ok none) := rfl

theorem InStep.file {D : UInt64 → Option Text} {st : StringIndex} (K : InStep g hash ah b r t D st)
    (ls : List (Option Text)) :
    (st.loadFromFile (some ls)).1 = (readable ls).foldl (fun s x => (s.insert x).1) st ∧
    (st.loadFromFile (some ls)).2 =
      .ok (some (((readable ls).foldl (fun s x => (s.insert x).1) st).docId - st.docId)) := by
  unfold StringIndex.loadFromFile
  simp only [K.lines ls, and_self]

/-- Inserting texts one after the other. -/
theorem InStep.inserts {D : UInt64 → Option Text} {st : StringIndex} (K : InStep g hash ah b r t D st)
    (xs : List Text) :
    (xs.foldl (fun s x => (s.insert x).1) st).docId = st.docId + UInt64.ofNat xs.length ∧
    ∃ D', InStep g hash ah b r t D' (xs.foldl (fun s x => (s.insert x).1) st) ∧
      ∀ id x, D' id = some x → D id = some x ∨ x ∈ xs := by
  induction xs generalizing st D with
  | nil => exact ⟨by simp, D, K, fun id x h => Or.inl h⟩
  | cons x xs ih =>
    obtain ⟨_, h2, h3⟩ := K.insert x
    obtain ⟨i1, D', i2, i3⟩ := ih h3
    refine ⟨?_, D', i2, ?_⟩
    · rw [List.foldl_cons, i1, h2, List.length_cons, UInt64.add_assoc]
      congr 1
      rw [UInt64.ofNat_add, UInt64.add_comm]
      rfl
    · intro id y hy
      rcases i3 id y hy with h | h
      · split_ifs at h with hid
        · injection h with h; subst h; exact Or.inr (by simp)
        · exact Or.inl h
      · exact Or.inr (by simp [h])

/-- A call, as seen by the document map. -/
theorem InStep.step {D : UInt64 → Option Text} {st : StringIndex} (K : InStep g hash ah b r t D st) (op : SOp) :
    ∃ D', InStep g hash ah b r t D' (st.step op) ∧ ∀ id x, D' id = some x → D id = some x ∨ x ∈ added op := by
  cases op with
  | insert x => exact (K.inserts [x]).2
  | loadFromLines ls =>
    show ∃ D', InStep g hash ah b r t D' (st.loadFromLines ls).1 ∧ _
    rw [K.lines]
    exact (K.inserts (readable ls)).2
  | loadFromFile f =>
    cases f with
    | none => exact ⟨D, K, fun id x h => Or.inl h⟩
    | some ls =>
      show ∃ D', InStep g hash ah b r t D' (st.loadFromFile (some ls)).1 ∧ _
      rw [(K.file ls).1]
      exact (K.inserts (readable ls)).2
  | loadFromFileParallel f s1 s2 =>
    cases f with
    | none => exact ⟨D, K, fun id x h => Or.inl h⟩
    | some ls =>
      by_cases hls : ls.all Option.isSome = true
      · refine ⟨_, (K.par ls hls s1 s2).2.2, ?_⟩
        intro id x hx
        cases hq : lastPair (numbered st.docId 0 (readable ls)) id with
        | none => rw [hq] at hx; exact Or.inl hx
        | some y =>
          rw [hq] at hx
          simp at hx
          subst hx
          right
          have hm := lastPair_mem hq
          obtain ⟨v, hv, e⟩ := List.mem_map.mp hm
          injection e with _ e
          show _ ∈ if ls.all Option.isSome = true then readable ls else []
          rw [if_pos hls, ← e]
          exact (List.mem_zipIdx' hv).2 ▸ List.getElem_mem _
      · rw [Bool.not_eq_true] at hls
        refine ⟨D, ?_, fun id x h => Or.inl h⟩
        show InStep g hash ah b r t D (st.loadFromFileParallel (some ls) s1 s2).1
        rw [par_unreadable st ls hls]
        exact K

theorem inStep_run (ops : List SOp) :
    ∃ D, InStep g hash ah b r t D ((StringIndex.new g hash ah b r t).run ops) ∧
      ∀ id x, D id = some x → x ∈ texts ops := by
  induction ops using List.reverseRecOn with
  | nil => exact ⟨_, inStep_new, fun id x h => by cases h⟩
  | append_singleton ops op ih =>
    obtain ⟨D, K, h⟩ := ih
    obtain ⟨D', K', h'⟩ := K.step op
    refine ⟨D', ?_, ?_⟩
    · unfold StringIndex.run at K' ⊢
      rw [List.foldl_append]
      exact K'
    · intro id x hx
      have : texts (ops ++ [op]) = texts ops ++ added op := by simp [texts]
      rw [this, List.mem_append]
      rcases h' id x hx with h1 | h1
      · exact Or.inl (h id x h1)
      · exact Or.inr h1

/-- Queries in a state that is in step. -/
theorem InStep.query {D : UInt64 → Option Text} {st : StringIndex} (K : InStep g hash ah b r t D st)
    (o : Order) (text : Text) :
    ∃ ids res, st.lshIndex.query (sg g hash b r text) = .ok ids ∧ st.query o text = .ok res ∧
      ∀ x, x ∈ res ↔ ∃ id ∈ ids.elems, D id = some x := by
  have hlen : ∀ id s, (D id).map (sg g hash b r) = some s → s.length = b * r := by
    intro id s h
    obtain ⟨x, _, rfl⟩ := Option.map_eq_some_iff.mp h
    exact (sg_spec g hash b r x).2
  obtain ⟨ids, hq⟩ := query_returns K.inv (sg_spec g hash b r text).2 hlen
  have hmem := (query_mem K.inv hq).2
  have hD : ∀ id ∈ ids.elems, ∃ x, D id = some x := by
    intro id hid
    obtain ⟨s, v, h, _⟩ := ((hmem id).mp hid).2
    obtain ⟨x, hx, _⟩ := Option.map_eq_some_iff.mp h
    exact ⟨x, hx⟩
  have key : ∀ l : List UInt64, (∀ id ∈ l, ∃ x, D id = some x) →
      ∃ res, (l.mapM fun id => unwrap (st.docMap.get? id)) = .ok res ∧ ∀ x, x ∈ res ↔ ∃ id ∈ l, D id = some x := by
    intro l
    induction l with
    | nil => intro _; exact ⟨[], rfl, by simp⟩
    | cons id l ih =>
      intro h
      obtain ⟨x, hx⟩ := h id (by simp)
      obtain ⟨res, e, hr⟩ := ih fun i hi => h i (by simp [hi])
      refine ⟨x :: res, ?_, ?_⟩
      · rw [List.mapM_cons, e, K.docs, hx]; rfl
      · intro y
        rw [List.mem_cons, hr]
        constructor
        · rintro (rfl | ⟨i, hi, e⟩)
          · exact ⟨id, by simp, hx⟩
          · exact ⟨i, by simp [hi], e⟩
        · rintro ⟨i, hi, e⟩
          rcases List.mem_cons.mp hi with rfl | hi
          · rw [hx] at e; injection e with e; exact Or.inl e.symm
          · exact Or.inr ⟨i, hi, e⟩
  obtain ⟨res, e, hr⟩ := key (o.perm ids.elems) fun id hid => hD id ((o.isPerm _).mem_iff.mp hid)
  refine ⟨ids, res, hq, ?_, ?_⟩
  · unfold StringIndex.query
    rw [K.sig]
    show (do let ids ← st.lshIndex.query (sg g hash b r text); _) = _
    rw [hq]
    exact e
  · intro x
    rw [hr]
    constructor <;> rintro ⟨i, hi, e⟩
    · exact ⟨i, (o.isPerm _).mem_iff.mp hi, e⟩
    · exact ⟨i, (o.isPerm _).mem_iff.mpr hi, e⟩

/-! ### Exact content -/

theorem lastPair_append (P Q : List (UInt64 × Text)) (id : UInt64) :
    lastPair (P ++ Q) id = (lastPair Q id).or (lastPair P id) := by
  unfold lastPair
  rw [List.reverse_append, List.find?_append]
  cases Q.reverse.find? fun p => decide (p.1 = id) <;> rfl

/-- The documents in order with their ids. -/
structure Docs (st : StringIndex) (P : List (UInt64 × Text)) (last : Bool) : Prop where
  sorted : P.Pairwise fun p q => p.1.toNat < q.1.toNat
  le : ∀ p ∈ P, p.1.toNat ≤ st.docId.toNat
  lt : last = false → ∀ p ∈ P, p.1.toNat < st.docId.toNat
  tail : last = true → ∃ P' x, P = P' ++ [(st.docId, x)]

/-- A state in step whose documents are `P`. -/
def Holds (g : Rng) (hash : Text → UInt64) (ah : List UInt64 → UInt64) (b r : Nat) (t : Fl)
    (st : StringIndex) (P : List (UInt64 × Text)) (last : Bool) : Prop :=
  InStep g hash ah b r t (lastPair P) st ∧ Docs st P last

theorem Holds.insert {st : StringIndex} {P : List (UInt64 × Text)} {last : Bool}
    (H : Holds g hash ah b r t st P last) (x : Text) (hn : st.docId.toNat + 1 < 2 ^ 64) :
    Holds g hash ah b r t (st.insert x).1 (P ++ [(st.docId + 1, x)]) true := by
  obtain ⟨K, J⟩ := H
  obtain ⟨_, h2, h3⟩ := K.insert x
  have hnat : (st.docId + 1).toNat = st.docId.toNat + 1 := by
    rw [UInt64.toNat_add]
    exact Nat.mod_eq_of_lt hn
  refine ⟨?_, ?_, ?_, ?_, ?_⟩
  · convert h3 using 1
    funext id
    rw [lastPair_append]
    have : lastPair [(st.docId + 1, x)] id = if id = st.docId + 1 then some x else none := by
      rw [lastPair_cons]
      by_cases h : id = st.docId + 1
      · subst h; simp [lastPair]
      · have h' : ¬ (st.docId + 1 = id) := fun e => h e.symm
        simp [lastPair, h, h']
    rw [this]
    split_ifs <;> rfl
  · rw [List.pairwise_append]
    refine ⟨J.sorted, List.pairwise_singleton _ _, ?_⟩
    intro p hp q hq
    rw [List.mem_singleton] at hq
    subst hq
    have := J.le p hp
    show p.1.toNat < (st.docId + 1).toNat
    omega
  · intro p hp
    rw [h2, hnat]
    rcases List.mem_append.mp hp with hp | hp
    · have := J.le p hp; omega
    · rw [List.mem_singleton] at hp
      subst hp
      show (st.docId + 1).toNat ≤ _
      omega
  · intro h; cases h
  · intro _
    exact ⟨P, x, by rw [h2]⟩

theorem Holds.inserts {st : StringIndex} {P : List (UInt64 × Text)} {last : Bool}
    (H : Holds g hash ah b r t st P last) (xs : List Text) (hn : st.docId.toNat + xs.length < 2 ^ 64) :
    ∃ P', Holds g hash ah b r t (xs.foldl (fun s x => (s.insert x).1) st) P' (if xs = [] then last else true) ∧
      P'.map Prod.snd = P.map Prod.snd ++ xs := by
  induction xs generalizing st P last with
  | nil => exact ⟨P, H, by simp⟩
  | cons x xs ih =>
    rw [List.length_cons] at hn
    have h1 := H.insert x (by omega)
    have hd := (H.1.insert x).2.1
    obtain ⟨P', h2, h3⟩ := ih h1 (by
      rw [hd, UInt64.toNat_add, Nat.mod_eq_of_lt]
      · show st.docId.toNat + 1 + xs.length < _; omega
      · show st.docId.toNat + 1 < _; omega)
    refine ⟨P', ?_, ?_⟩
    · rw [if_neg (by simp)]
      have : (if xs = [] then true else true) = true := by split_ifs <;> rfl
      rw [this] at h2
      exact h2
    · rw [h3]; simp

theorem numbered_facts (d : UInt64) (i : Nat) (xs : List Text) (hn : d.toNat + i + xs.length < 2 ^ 64) :
    (numbered d i xs).Pairwise (fun p q => p.1.toNat < q.1.toNat) ∧
    (∀ p ∈ numbered d i xs, d.toNat + i ≤ p.1.toNat ∧ p.1.toNat < d.toNat + i + xs.length) ∧
    (numbered d i xs).map Prod.snd = xs := by
  induction xs generalizing i with
  | nil => simp [numbered]
  | cons x xs ih =>
    rw [List.length_cons] at hn
    obtain ⟨h1, h2, h3⟩ := ih (i + 1) (by omega)
    have hnat : (UInt64.ofNat i + d).toNat = d.toNat + i := by
      rw [UInt64.toNat_add, UInt64.toNat_ofNat', Nat.mod_eq_of_lt (a := i) (by omega), Nat.mod_eq_of_lt (by omega)]
      omega
    rw [numbered_cons]
    refine ⟨List.pairwise_cons.mpr ⟨?_, h1⟩, ?_, ?_⟩
    · intro p hp
      have := (h2 p hp).1
      show (UInt64.ofNat i + d).toNat < _
      omega
    · intro p hp
      rw [List.length_cons]
      rcases List.mem_cons.mp hp with rfl | hp
      · show _ ≤ (UInt64.ofNat i + d).toNat ∧ (UInt64.ofNat i + d).toNat < _
        omega
      · have := h2 p hp
        omega
    · rw [List.map_cons, h3]

theorem Holds.par {st : StringIndex} {P : List (UInt64 × Text)} {last : Bool}
    (H : Holds g hash ah b r t st P last) (ls : List (Option Text)) (hls : ls.all Option.isSome = true)
    (s1 s2 : List Nat) (hne : readable ls ≠ []) (hn : st.docId.toNat + (readable ls).length < 2 ^ 64) :
    ∃ P', Holds g hash ah b r t (st.loadFromFileParallel (some ls) s1 s2).1 P' false ∧
      P'.map Prod.snd = (if last then (P.map Prod.snd).dropLast else P.map Prod.snd) ++ readable ls := by
  obtain ⟨K, J⟩ := H
  obtain ⟨_, h2, h3⟩ := K.par ls hls s1 s2
  obtain ⟨q1, q2, q3⟩ := numbered_facts st.docId 0 (readable ls) (by omega)
  set Q := numbered st.docId 0 (readable ls) with hQ
  set st' := (st.loadFromFileParallel (some ls) s1 s2).1 with hst'
  have hd : st'.docId.toNat = st.docId.toNat + (readable ls).length := by
    rw [h2, UInt64.toNat_add, UInt64.toNat_ofNat', Nat.mod_eq_of_lt (a := (readable ls).length) (by omega),
      Nat.mod_eq_of_lt (by omega)]
  -- the documents that stay
  have main : ∀ P0 : List (UInt64 × Text), P0.Pairwise (fun p q => p.1.toNat < q.1.toNat) →
      (∀ p ∈ P0, p.1.toNat < st.docId.toNat) →
      (∀ id, (lastPair Q id).or (lastPair P id) = (lastPair Q id).or (lastPair P0 id)) →
      Holds g hash ah b r t st' (P0 ++ Q) false := by
    intro P0 p1 p2 p3
    refine ⟨?_, ?_, ?_, ?_, ?_⟩
    · convert h3 using 1
      funext id
      rw [lastPair_append, p3]
    · rw [List.pairwise_append]
      refine ⟨p1, q1, fun p hp q hq => ?_⟩
      have := p2 p hp
      have := (q2 q hq).1
      omega
    · intro p hp
      rw [hd]
      rcases List.mem_append.mp hp with hp | hp
      · have := p2 p hp; omega
      · have := (q2 p hp).2; omega
    · intro _ p hp
      rw [hd]
      have hpos : 0 < (readable ls).length := List.length_pos_iff.mpr hne
      rcases List.mem_append.mp hp with hp | hp
      · have := p2 p hp; omega
      · have := (q2 p hp).2; omega
    · intro h; cases h
  cases hlast : last with
  | false =>
    exact ⟨P ++ Q, main P J.sorted (J.lt hlast) fun _ => rfl, by simp [q3]⟩
  | true =>
    obtain ⟨P', x, hP⟩ := J.tail hlast
    refine ⟨P' ++ Q, main P' ?_ ?_ ?_, by rw [hP, List.map_append, List.map_append, q3]; simp⟩
    · have := J.sorted
      rw [hP, List.pairwise_append] at this
      exact this.1
    · intro p hp
      have := J.sorted
      rw [hP, List.pairwise_append] at this
      exact this.2.2 p hp (st.docId, x) (by simp)
    · intro id
      by_cases hid : id = st.docId
      · have : ∃ y, lastPair Q id = some y := by
          cases hq : lastPair Q id with
          | some y => exact ⟨y, rfl⟩
          | none =>
            exfalso
            rw [lastPair_none] at hq
            obtain ⟨y, ys, e⟩ := List.exists_cons_of_ne_nil hne
            have hm : (UInt64.ofNat 0 + st.docId, y) ∈ Q := by
              rw [hQ, e, numbered_cons]; simp
            apply hq _ hm
            rw [hid]
            simp
        obtain ⟨y, hy⟩ := this
        rw [hy]; rfl
      · congr 1
        rw [hP, lastPair_append]
        have hid' : ¬ (st.docId = id) := fun e => hid e.symm
        have : lastPair [(st.docId, x)] id = none := by
          rw [lastPair_none]
          intro p hp
          rw [List.mem_singleton] at hp
          rw [hp]; exact hid'
        rw [this]; rfl

theorem Holds.step {st : StringIndex} {P : List (UInt64 × Text)} {last : Bool}
    (H : Holds g hash ah b r t st P last) (op : SOp) (hn : st.docId.toNat + (added op).length < 2 ^ 64) :
    (st.step op).docId.toNat = st.docId.toNat + (added op).length ∧
    ∃ P', Holds g hash ah b r t (st.step op) P' (survive (P.map Prod.snd, last) op).2 ∧
      P'.map Prod.snd = (survive (P.map Prod.snd, last) op).1 := by
  have seq : ∀ xs : List Text, added op = xs → SOp.sequential op = true →
      st.step op = xs.foldl (fun s x => (s.insert x).1) st →
      (st.step op).docId.toNat = st.docId.toNat + (added op).length ∧
      ∃ P', Holds g hash ah b r t (st.step op) P' (survive (P.map Prod.snd, last) op).2 ∧
        P'.map Prod.snd = (survive (P.map Prod.snd, last) op).1 := by
    intro xs hx hs he
    rw [hx] at hn
    obtain ⟨P', h1, h2⟩ := H.inserts xs hn
    refine ⟨?_, P', ?_, ?_⟩
    · rw [he, (H.1.inserts xs).1, UInt64.toNat_add, UInt64.toNat_ofNat', Nat.mod_eq_of_lt (a := xs.length) (by omega),
        Nat.mod_eq_of_lt (by omega), hx]
    · rw [he]
      convert h1 using 1
      unfold survive
      rw [hx]
      by_cases h : xs = []
      · simp [h]
      · simp [h, hs]
    · rw [h2]
      unfold survive
      rw [hx]
      by_cases h : xs = []
      · simp [h]
      · simp [h, hs]
  cases op with
  | insert x => exact seq [x] rfl rfl rfl
  | loadFromLines ls =>
    exact seq (readable ls) rfl rfl (by show (st.loadFromLines ls).1 = _; rw [H.1.lines])
  | loadFromFile f =>
    cases f with
    | none => exact seq [] rfl rfl rfl
    | some ls => exact seq (readable ls) rfl rfl (H.1.file ls).1
  | loadFromFileParallel f s1 s2 =>
    cases f with
    | none => exact ⟨rfl, P, H, rfl⟩
    | some ls =>
      by_cases hls : ls.all Option.isSome = true
      · have ha : added (.loadFromFileParallel (some ls) s1 s2) = readable ls := by
          show (if ls.all Option.isSome = true then readable ls else []) = _
          rw [if_pos hls]
        rw [ha] at hn ⊢
        have hd : (st.step (.loadFromFileParallel (some ls) s1 s2)).docId.toNat
            = st.docId.toNat + (readable ls).length := by
          show (st.loadFromFileParallel (some ls) s1 s2).1.docId.toNat = _
          rw [(H.1.par ls hls s1 s2).2.1, UInt64.toNat_add, UInt64.toNat_ofNat',
            Nat.mod_eq_of_lt (a := (readable ls).length) (by omega), Nat.mod_eq_of_lt (by omega)]
        refine ⟨hd, ?_⟩
        by_cases hne : readable ls = []
        · have hs : survive (P.map Prod.snd, last) (.loadFromFileParallel (some ls) s1 s2) = (P.map Prod.snd, last) := by
            unfold survive
            rw [ha, if_pos hne]
          rw [hs]
          have hls0 : ls = [] := by
            cases ls with
            | nil => rfl
            | cons l ls =>
              simp only [List.all_cons, Bool.and_eq_true] at hls
              obtain ⟨x, rfl⟩ := Option.isSome_iff_exists.mp hls.1
              exact absurd hne (by simp [readable])
          subst hls0
          have e : (st.loadFromFileParallel (some []) s1 s2).1.docId = st.docId := by
            rw [(H.1.par [] rfl s1 s2).2.1]; simp [readable]
          refine ⟨P, ⟨?_, ?_⟩, rfl⟩
          · exact (H.1.par [] rfl s1 s2).2.2
          · show Docs (st.loadFromFileParallel (some []) s1 s2).1 P last
            exact ⟨H.2.sorted, by rw [e]; exact H.2.le, by rw [e]; exact H.2.lt, by rw [e]; exact H.2.tail⟩
        · have hs : survive (P.map Prod.snd, last) (.loadFromFileParallel (some ls) s1 s2) =
              ((if last then (P.map Prod.snd).dropLast else P.map Prod.snd) ++ readable ls, false) := by
            unfold survive
            rw [ha, if_neg hne]
            rfl
          rw [hs]
          exact H.par ls hls s1 s2 hne hn
      · rw [Bool.not_eq_true] at hls
        have ha : added (.loadFromFileParallel (some ls) s1 s2) = [] := by
          show (if ls.all Option.isSome = true then readable ls else []) = _
          rw [hls]; rfl
        have he : st.step (.loadFromFileParallel (some ls) s1 s2) = st := by
          show (st.loadFromFileParallel (some ls) s1 s2).1 = st
          rw [par_unreadable st ls hls]
        have hs : survive (P.map Prod.snd, last) (.loadFromFileParallel (some ls) s1 s2) = (P.map Prod.snd, last) := by
          unfold survive
          rw [ha, if_pos rfl]
        rw [he, hs, ha]
        exact ⟨rfl, P, H, rfl⟩

theorem holds_run (ops : List SOp) (hn : (texts ops).length < 2 ^ 64) :
    ((StringIndex.new g hash ah b r t).run ops).docId.toNat = (texts ops).length ∧
    ∃ P, Holds g hash ah b r t ((StringIndex.new g hash ah b r t).run ops) P (ops.foldl survive ([], false)).2 ∧
      P.map Prod.snd = survivors ops := by
  induction ops using List.reverseRecOn with
  | nil =>
    refine ⟨rfl, [], ⟨inStep_new, ?_, ?_, ?_, ?_⟩, rfl⟩
    · exact List.Pairwise.nil
    · intro p hp; cases hp
    · intro _ p hp; cases hp
    · intro h; cases h
  | append_singleton ops op ih =>
    have e : texts (ops ++ [op]) = texts ops ++ added op := by simp [texts]
    rw [e, List.length_append] at hn
    obtain ⟨h1, P, h2, h3⟩ := ih (by omega)
    obtain ⟨s1, P', s2, s3⟩ := h2.step op (by omega)
    have er : (StringIndex.new g hash ah b r t).run (ops ++ [op]) =
        ((StringIndex.new g hash ah b r t).run ops).step op := by
      unfold StringIndex.run; rw [List.foldl_append]; rfl
    have es : (ops ++ [op]).foldl survive ([], false) = survive (P.map Prod.snd, (ops.foldl survive ([], false)).2) op := by
      rw [List.foldl_append, h3]; rfl
    rw [er, es, e, List.length_append]
    refine ⟨by omega, P', s2, ?_⟩
    rw [s3]
    unfold survivors
    rw [es]

end
end Verif
