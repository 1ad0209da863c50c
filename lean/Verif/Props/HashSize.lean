import Verif.Props.PythonContent
import Verif.Props.IndexRank

/-! # Property C133: shorter hashes never lose a match -/
namespace Verif.Props
open Verif.Spec

variable {T T' Id : Type} [DecidableEq T] [DecidableEq T'] [DecidableEq Id]

/-- The call with the components of its signatures replaced. -/
def mapSigs (f : T → T') : Op T Id → Op T' Id
  | .insert id s => .insert id (s.map f)
  | .parBulkInsert ids sigs sched => .parBulkInsert ids (sigs.map (List.map f)) sched
  | .parBulkInsertPairs ps sched => .parBulkInsertPairs (ps.map fun p => (p.1, p.2.map f)) sched
  | .remove id => .remove id
  | .bulkRemove ids sched => .bulkRemove ids sched
  | .clear => .clear
  | .shrinkToFit o => .shrinkToFit o
  | .shrinkTo m c o sched => .shrinkTo m c o sched

omit [DecidableEq T] [DecidableEq T'] in
theorem lastPair_map (f : T → T') (ps : List (Id × List T)) (id : Id) :
    lastPair (ps.map fun p => (p.1, p.2.map f)) id = (lastPair ps id).map (List.map f) := by
  unfold lastPair
  rw [← List.map_reverse, List.find?_map, Option.map_map, Option.map_map]
  rfl

omit [DecidableEq T] [DecidableEq T'] in
theorem touch_mapSigs (f : T → T') (n : Nat) (id : Id) (op : Op T Id) :
    touch n id (mapSigs f op) = (touch n id op).map (Option.map (List.map f)) := by
  cases op with
  | insert id' s =>
    simp only [mapSigs, touch, List.length_map]
    split_ifs <;> rfl
  | parBulkInsert ids sigs sched =>
    have ha : accepts n (mapSigs f (.parBulkInsert ids sigs sched : Op T Id)) =
        accepts n (.parBulkInsert ids sigs sched : Op T Id) := by
      simp only [mapSigs, accepts, List.head?_map, Option.all_map, List.zip_map_left, List.all_map]
      congr 1
      · congr 1; funext s; simp
      · congr 1; funext p; simp
    simp only [mapSigs] at ha
    simp only [mapSigs, touch, ha, List.zip_map_right]
    split_ifs
    · have := lastPair_map f (ids.zip sigs) id
      have e : (ids.zip sigs).map (Prod.map _root_.id (List.map f)) = (ids.zip sigs).map fun p => (p.1, p.2.map f) := rfl
      rw [e, this]
      cases lastPair (ids.zip sigs) id <;> rfl
    · rfl
  | parBulkInsertPairs ps sched =>
    have ha : accepts n (mapSigs f (.parBulkInsertPairs ps sched : Op T Id)) =
        accepts n (.parBulkInsertPairs ps sched : Op T Id) := by
      simp only [mapSigs, accepts, List.all_map]
      congr 1; funext p; simp
    simp only [mapSigs] at ha
    simp only [mapSigs, touch, ha, lastPair_map]
    split_ifs
    · cases lastPair ps id <;> rfl
    · rfl
  | remove id' => simp only [mapSigs, touch]; split_ifs <;> rfl
  | bulkRemove ids sched => simp only [mapSigs, touch]; split_ifs <;> rfl
  | clear => rfl
  | shrinkToFit o => rfl
  | shrinkTo m c o sched => rfl

omit [DecidableEq T] [DecidableEq T'] in
theorem live_mapSigs (f : T → T') (n : Nat) (ops : List (Op T Id)) (id : Id) :
    live n (ops.map (mapSigs f)) id = (live n ops id).map (List.map f) := by
  unfold live
  rw [← List.map_reverse, List.findSome?_map]
  have : (touch n id ∘ mapSigs f) = fun op : Op T Id => (touch n id op).map (Option.map (List.map f)) :=
    funext fun op => touch_mapSigs f n id op
  rw [this]
  induction ops.reverse with
  | nil => rfl
  | cons op l ih =>
    simp only [List.findSome?_cons]
    cases touch n id op with
    | none => simpa using ih
    | some x => cases x <;> rfl

omit [DecidableEq T] [DecidableEq T'] [DecidableEq Id] in
theorem rightLengths_mapSigs (f : T → T') {n : Nat} {ops : List (Op T Id)} (h : RightLengths n ops) :
    RightLengths n (ops.map (mapSigs f)) := by
  intro op hop s hs
  obtain ⟨op, h1, rfl⟩ := List.mem_map.mp hop
  cases op with
  | insert id s' =>
    simp only [mapSigs, sigsOf, List.mem_singleton] at hs
    subst hs
    simpa using h _ h1 s' (by simp [sigsOf])
  | parBulkInsert ids sigs sched =>
    simp only [mapSigs, sigsOf, List.mem_map] at hs
    obtain ⟨s', h2, rfl⟩ := hs
    simpa using h _ h1 s' h2
  | parBulkInsertPairs ps sched =>
    simp only [mapSigs, sigsOf, List.map_map, List.mem_map] at hs
    obtain ⟨p, h2, rfl⟩ := hs
    simpa using h _ h1 p.2 (List.mem_map.mpr ⟨p, h2, rfl⟩)
  | remove id => simp [mapSigs, sigsOf] at hs
  | bulkRemove ids sched => simp [mapSigs, sigsOf] at hs
  | clear => simp [mapSigs, sigsOf] at hs
  | shrinkToFit o => simp [mapSigs, sigsOf] at hs
  | shrinkTo m c o sched => simp [mapSigs, sigsOf] at hs

omit [DecidableEq T] [DecidableEq T'] in
theorem sameBand_map (f : T → T') {r i : Nat} {s q : List T} (h : sameBand r s q i) :
    sameBand r (s.map f) (q.map f) i := by
  intro j h1 h2
  rw [List.getElem?_map, List.getElem?_map, h j h1 h2]

omit [DecidableEq T] in
theorem sameBand_of_bandOf {r i : Nat} {s q : List T} (h : bandOf r s i = bandOf r q i) : sameBand r s q i := by
  intro j h1 h2
  have e : ∀ l : List T, (bandOf r l i)[j - i * r]? = l[j]? := by
    intro l
    unfold bandOf
    rw [List.getElem?_take, if_pos (by rw [Nat.add_mul] at h2; omega), List.getElem?_drop]
    congr 1; omega
  rw [← e s, ← e q, h]

/-- The reported similarity grows with the number of agreeing positions. -/
theorem sim_mono {a b : List T} {a' b' : List T'} {n : Nat} (hn : n < 2 ^ 64) (ha : a.length = n) (hb : b.length = n)
    (ha' : a'.length = n) (hb' : b'.length = n) (hle : agree a b ≤ agree a' b') :
    ∃ v v', minhashSimilarity a b = .ok v ∧ minhashSimilarity a' b' = .ok v' ∧ (0 < n → Fl.ge v' v = true) ∧
      ∀ t, Fl.ge v t = true → Fl.ge v' t = true := by
  unfold minhashSimilarity
  rw [if_pos (ha.trans hb.symm), if_pos (ha'.trans hb'.symm), simMatches_eq_agree a b (ha.trans hb.symm),
    simMatches_eq_agree a' b' (ha'.trans hb'.symm), ha, ha']
  have h1 : agree a' b' ≤ n := ha' ▸ agree_le a' b'
  refine ⟨_, _, rfl, rfl, ?_⟩
  rw [ofNat_b64 hn, ofNat_b64 (n := agree a b) (by omega), ofNat_b64 (n := agree a' b') (by omega)]
  have hpr : 1 ≤ b64.prec := by simp [b64]
  have m1 : rndQ b64 (agree a b : ℚ) ≤ rndQ b64 (agree a' b' : ℚ) :=
    rndQ_mono hpr (Nat.cast_nonneg _) (by exact_mod_cast hle)
  have m2 : rndQ b64 (agree a' b' : ℚ) ≤ rndQ b64 (n : ℚ) := rndQ_mono hpr (Nat.cast_nonneg _) (by exact_mod_cast h1)
  have m0 : 0 ≤ rndQ b64 (agree a b : ℚ) := rndQ_nonneg (Nat.cast_nonneg _)
  rcases Nat.eq_zero_or_pos n with h0 | h0
  · subst h0
    have e1 : rndQ b64 ((0 : Nat) : ℚ) = 0 := by simpa using rndQ_zero b64
    rw [e1] at m2 ⊢
    have e2 : rndQ b64 (agree a b : ℚ) = 0 := le_antisymm (m1.trans m2) m0
    rw [e2]
    refine ⟨fun h => absurd h (by omega), fun t h => ?_⟩
    simp [Fl.div, Fl.ge, Fl.cmp] at h
  · have hp : (0 : ℚ) < rndQ b64 n := by
      have := rndQ_pos b64_ok (q := n) (k := 0) (by simp [b64]) (by rw [zpow_zero]; exact_mod_cast h0)
      have h1 : (2 : ℚ) ^ (0 : ℤ) = 1 := zpow_zero _
      linarith
    simp only [Fl.div, if_neg hp.ne']
    have fin1 : ∀ x : ℚ, 0 ≤ x → x ≤ rndQ b64 n → rnd b64 (x / rndQ b64 n) = .fin (rndQ b64 (x / rndQ b64 n)) := by
      intro x hx hx'
      have : x / rndQ b64 n ≤ 1 := (div_le_one hp).mpr hx'
      exact rnd_of_bounds b64_ok (div_nonneg hx hp.le) (k := 64) (by simp [b64]) (by simp [b64])
        (this.trans_lt (by norm_num)).le
    rw [fin1 _ m0 (m1.trans m2), fin1 _ (m0.trans m1) m2]
    have m3 : rndQ b64 (rndQ b64 (agree a b : ℚ) / rndQ b64 n) ≤ rndQ b64 (rndQ b64 (agree a' b' : ℚ) / rndQ b64 n) :=
      rndQ_mono hpr (div_nonneg m0 hp.le) (div_le_div_of_nonneg_right m1 hp.le)
    generalize rndQ b64 (rndQ b64 (agree a b : ℚ) / rndQ b64 n) = x at m3
    generalize rndQ b64 (rndQ b64 (agree a' b' : ℚ) / rndQ b64 n) = y at m3
    exact ⟨fun _ => ge_fin.mpr m3, fun t ht => Fl.ge_trans (ge_fin.mpr m3) ht⟩

/-! ## The index -/

variable {C C' : Type} [IdContainer C Id] [IdContainer C' Id]
  [LawfulIdContainer C Id] [LawfulIdContainer C' Id]

/-- C133: whatever the calls of the history, an answer that shares a band with the query is also an answer after the
components of all signatures were shortened (replaced by a function of them), with any other container and band hash. -/
theorem C133_query (f : T → T') (b r : Nat) (hn : b * r < 2 ^ 64) (t : Fl) (h : List T → UInt64) (h' : List T' → UInt64)
    (ops : List (Op T Id)) (q : List T) (hl : RightLengths (b * r) ops) (hq : q.length = b * r) :
    ∃ res res', (After C b r t h ops).query q = .ok res ∧
      (After C' b r t h' (ops.map (mapSigs f))).query (q.map f) = .ok res' ∧
      ∀ id ∈ res.elems, (∃ s, live (b * r) ops id = some s ∧ ∃ i < b, sameBand r s q i) → id ∈ res'.elems := by
  obtain ⟨res, e, _⟩ := C17_query_returns (C := C) b r t h ops q hl hq
  obtain ⟨res', e', _⟩ := C17_query_returns (C := C') b r t h' _ (q.map f) (rightLengths_mapSigs f hl) (by simpa using hq)
  refine ⟨res, res', e, e', fun id hid ⟨s, hs, i, hi, hb⟩ => ?_⟩
  obtain ⟨s2, v, k1, k2, k3⟩ := C16_query b r t h ops q res e id hid
  rw [hs] at k1; cases k1
  have hsl : s.length = b * r := rightLengths_live hl id s hs
  obtain ⟨v1, v', m1, m2, _, m3⟩ := sim_mono hn hsl hq (a' := s.map f) (b' := q.map f) (by simpa using hsl) (by simpa using hq)
    (agree_map_le f s q)
  rw [k2] at m1; cases m1
  exact C17_complete b r t h' _ (q.map f) res' (.inl e') id (s.map f) v' (by rw [live_mapSigs, hs]; rfl)
    ⟨i, hi, sameBand_map f hb⟩ m2 (m3 t k3)

/-- C133: without overwriting and without collisions of the band hash between stored bands and bands of the query,
the answers of the long signatures are among the answers of the short ones. -/
theorem C133_clean (f : T → T') (b r : Nat) (hn : b * r < 2 ^ 64) (t : Fl) (h : List T → UInt64) (h' : List T' → UInt64)
    (ops : List (Op T Id)) (q : List T) (hl : RightLengths (b * r) ops) (hq : q.length = b * r) (hc : Clean (b * r) ops)
    (hh : ∀ id s, live (b * r) ops id = some s → ∀ i < b, h (bandOf r s i) = h (bandOf r q i) →
      bandOf r s i = bandOf r q i) :
    ∃ res res', (After C b r t h ops).query q = .ok res ∧
      (After C' b r t h' (ops.map (mapSigs f))).query (q.map f) = .ok res' ∧ ∀ id ∈ res.elems, id ∈ res'.elems := by
  obtain ⟨res, res', e, e', k⟩ := C133_query (C := C) (C' := C') f b r hn t h h' ops q hl hq
  refine ⟨res, res', e, e', fun id hid => k id hid ?_⟩
  obtain ⟨s, v, k1, ⟨i, hi, k2⟩, _⟩ := (C18_exact b r t h ops q hc res e id).mp hid
  exact ⟨s, k1, i, hi, sameBand_of_bandOf (hh id s k1 i hi k2)⟩

/-- The hypotheses of `C133_query`, `C133_clean` and `C133_similarity` are met; the short signatures (remainders modulo 4)
find more, and report a higher similarity. -/
example : RightLengths (2 * 1) ([.insert 1 [1, 2], .insert 2 [5, 8]] : List (Op Nat Nat)) ∧
    Clean (2 * 1) ([.insert 1 [1, 2], .insert 2 [5, 8]] : List (Op Nat Nat)) ∧
    (∀ s ∈ ([[1, 2], [5, 8]] : List (List Nat)), ∀ i < 2, exHash (bandOf 1 s i) = exHash (bandOf 1 [1, 6] i) →
      bandOf 1 s i = bandOf 1 [1, 6] i) ∧
    ((After (HashSetContainer Nat) 2 1 (.fin (1 / 2)) exHash [.insert 1 [1, 2], .insert 2 [5, 8]]).query [1, 6]).map
      HSet.elems = .ok [1] ∧
    ((After (HashSetContainer Nat) 2 1 (.fin (1 / 2)) exHash
      (([.insert 1 [1, 2], .insert 2 [5, 8]] : List (Op Nat Nat)).map (mapSigs (· % 4)))).query [1, 2]).map
      HSet.elems = .ok [1, 2] ∧
    minhashSimilarity [1, 2] [1, 6] = .ok (.fin (1 / 2)) ∧ minhashSimilarity [1, 2] [1, 2] = .ok (.fin 1) := by
  refine ⟨?_, ?_, by decide +kernel, by decide +kernel, by decide +kernel, by decide +kernel, by decide +kernel⟩
  · intro op hop s hs
    simp at hop
    rcases hop with rfl | rfl <;> simp [sigsOf] at hs <;> subst hs <;> rfl
  · intro pre op post e
    rcases pre with _ | ⟨p1, _ | ⟨p2, _ | ⟨p3, pre⟩⟩⟩ <;>
      simp only [List.nil_append, List.cons_append, List.cons.injEq] at e
    · obtain ⟨rfl, -⟩ := e; exact fun _ => rfl
    · obtain ⟨rfl, rfl, -⟩ := e; exact fun _ => rfl
    · obtain ⟨-, -, h⟩ := e; cases h
    · obtain ⟨-, -, h⟩ := e; cases h

/-- C133: the similarity reported for an answer is not smaller with the shortened signatures. -/
theorem C133_similarity (f : T → T') (b r : Nat) (h0 : 0 < b * r) (hn : b * r < 2 ^ 64) (t : Fl) (h : List T → UInt64)
    (h' : List T' → UInt64) (ops : List (Op T Id)) (q : List T) (hl : RightLengths (b * r) ops) (hq : q.length = b * r)
    (o1 o2 o1' o2' : Order) (l l' : List (Id × Fl))
    (e : (After C b r t h ops).queryOwnedReturnSimilarity o1 o2 q = .ok l)
    (e' : (After C' b r t h' (ops.map (mapSigs f))).queryOwnedReturnSimilarity o1' o2' (q.map f) = .ok l')
    (id : Id) (v v' : Fl) (hv : (id, v) ∈ l) (hv' : (id, v') ∈ l') : Fl.ge v' v = true := by
  obtain ⟨_, _, _, k, _⟩ := C23_sorted_query b r t h ops q hq o1 o2 l e
  obtain ⟨_, _, _, k', _⟩ := C23_sorted_query b r t h' _ (q.map f) (by simpa using hq) o1' o2' l' e'
  obtain ⟨s, e1, e2⟩ := k _ hv
  obtain ⟨s', e3, e4⟩ := k' _ hv'
  rw [live_mapSigs, e1] at e3
  cases e3
  have hsl : s.length = b * r := rightLengths_live hl id s e1
  obtain ⟨v1, v2, m1, m2, m3, _⟩ := sim_mono hn hsl hq (a' := s.map f) (b' := q.map f) (by simpa using hsl)
    (by simpa using hq) (agree_map_le f s q)
  rw [e2] at m1; cases m1
  rw [e4] at m2; cases m2
  exact m3 h0

/-! ## The Python index -/

/-- The signature of the 16-bit and of the 8-bit class, from that of the 32-bit class. -/
theorem sigOf_32 {env : PyMinEnv} {a : PyMinArgs} {n : Nat} {doc : PyText} {s : List UInt32} (h : SigOf env a n doc s) :
    SigOf env a n doc (s.map UInt32.toUInt16) ∧ SigOf env a n doc (s.map UInt32.toUInt8) := by
  obtain ⟨toks, h1, h2⟩ := h
  obtain ⟨e1, e2⟩ := C05_truncation _ toks s h2
  exact ⟨⟨toks, h1, e1⟩, ⟨toks, h1, e2⟩⟩

/-- The signature of the 8-bit class, from that of the 16-bit class. -/
theorem sigOf_16 {env : PyMinEnv} {a : PyMinArgs} {n : Nat} {doc : PyText} {s : List UInt16} (h : SigOf env a n doc s) :
    SigOf env a n doc (s.map UInt16.toUInt8) := by
  obtain ⟨toks, h1, h2⟩ := h
  obtain ⟨s32, h3, _⟩ := C01_length_32 env.rng n env.hash 3 toks
  obtain ⟨e1, e2⟩ := C05_truncation _ toks s32 h3
  have : s = s32.map UInt32.toUInt16 := Except.ok.inj (h2.symm.trans e1)
  subst this
  refine ⟨toks, h1, ?_⟩
  rw [List.map_map]
  have e : (UInt16.toUInt8 ∘ UInt32.toUInt16) = UInt32.toUInt8 := by
    funext x; simp
  rw [e]
  exact e2

/-- The hash sizes `w`, `n` (in bits) for which hashes of `n` bits are hashes of `w` bits cut off. -/
def CutOff (w n : Int) : Prop := (w = 32 ∧ (n = 16 ∨ n = 8)) ∨ (w = 16 ∧ n = 8)

/-- C133: with a supported hash size and container, the constructor accepts the other arguments again. -/
theorem C133_accepted (env : PyMinEnv) (ahash : (h : HashSize) → List h.T → UInt64) (a : PyMinArgs)
    (obj : PyMinObject) (h : PyMinObject.init env ahash a = .ok obj) (n : Int) (hn : CutOff a.hashSize n) (c : String)
    (hc : c = "set" ∨ c = "vec" ∨ c = "smallvec") :
    ∃ obj', PyMinObject.init env ahash { a with hashSize := n, idContainer := c } = .ok obj' := by
  rcases init_cases env ahash a with ⟨_, e⟩ | ⟨_, _, e⟩ | ⟨_, _, _, e⟩ | ⟨c1, c2, c3, _⟩
  · rw [e] at h; cases h
  · rw [e] at h; cases h
  · rw [e] at h; cases h
  · have c1' : ChecksPass { a with hashSize := n, idContainer := c } := by
      refine ⟨?_, c1.2.1, c1.2.2.1, hc⟩
      rcases hn with ⟨_, rfl | rfl⟩ | ⟨_, rfl⟩ <;> simp
    rcases init_cases env ahash { a with hashSize := n, idContainer := c } with ⟨k, _⟩ | ⟨_, k, _⟩ | ⟨_, _, k, _⟩ |
      ⟨_, _, _, _, _, _, _, _, _, _, e⟩
    · exact absurd c1' k
    · exact absurd c2 k
    · exact absurd c3 k
    · exact ⟨_, e⟩

theorem cutOff_sig {env : PyMinEnv} {ahash : (h : HashSize) → List h.T → UInt64} {a : PyMinArgs} {n : Int} {c : String}
    {obj obj' : PyMinObject} (h : PyMinObject.init env ahash a = .ok obj) (hn : CutOff a.hashSize n)
    (h' : PyMinObject.init env ahash { a with hashSize := n, idContainer := c } = .ok obj') :
    ∃ f : obj.hashSize.T → obj'.hashSize.T, ∀ (m : Nat) doc (s : List obj.hashSize.T), SigOf env a m doc s →
      SigOf env { a with hashSize := n, idContainer := c } m doc (s.map f) := by
  obtain ⟨_, _, k, _⟩ := init_native h
  obtain ⟨_, _, k', _⟩ := init_native h'
  obtain ⟨hs, ck, ix⟩ := obj
  obtain ⟨hs', ck', ix'⟩ := obj'
  simp only at k k'
  rcases hn with ⟨e, rfl | rfl⟩ | ⟨e, rfl⟩
  · rw [e] at k
    have : hs = .h32 := by simpa [HashSize.ofInt] using k.symm
    have : hs' = .h16 := by simpa [HashSize.ofInt] using k'.symm
    subst hs hs'
    exact ⟨UInt32.toUInt16, fun m doc s hs => (sigOf_32 hs).1⟩
  · rw [e] at k
    have : hs = .h32 := by simpa [HashSize.ofInt] using k.symm
    have : hs' = .h8 := by simpa [HashSize.ofInt] using k'.symm
    subst hs hs'
    exact ⟨UInt32.toUInt8, fun m doc s hs => (sigOf_32 hs).2⟩
  · rw [e] at k
    have : hs = .h16 := by simpa [HashSize.ofInt] using k.symm
    have : hs' = .h8 := by simpa [HashSize.ofInt] using k'.symm
    subst hs hs'
    exact ⟨UInt16.toUInt8, fun m doc s hs => sigOf_16 hs⟩

/-- C133 for the Python class: the index with the smaller hash size (and any container) returns every id whose document
the index with the larger hash size returns because of a shared band; without overwriting and collisions of the
band hash, it returns every id that the other index returns. -/
theorem C133_python (env : PyMinEnv) (ahash : (h : HashSize) → List h.T → UInt64) (a : PyMinArgs) (n : Int) (c : String)
    (obj obj' : PyMinObject) (h : PyMinObject.init env ahash a = .ok obj) (hn : CutOff a.hashSize n)
    (h' : PyMinObject.init env ahash { a with hashSize := n, idContainer := c } = .ok obj')
    (b r : Nat) (hp : BandParams env a b r) (hbr : b * r < 2 ^ 64)
    (pops : List PyMinOp) (doc : PyText) (ha : AnalyzerReturns env a (doc :: pops.flatMap pyDocs))
    (o1 o2 o1' o2' : Order) :
    ∃ l l' : List Int64, (obj.index.run env pops).query env o1 o2 doc false = .ok (.ids l) ∧
      (obj'.index.run env pops).query env o1' o2' doc false = .ok (.ids l') ∧
      (∀ id ∈ l, (∃ d, ∃ s q : List obj.hashSize.T, pyLive pops id = some d ∧ SigOf env a (b * r) d s ∧
        SigOf env a (b * r) doc q ∧ ∃ i < b, sameBand r s q i) → id ∈ l') ∧
      (PyClean pops → (∀ id d, ∀ s q : List obj.hashSize.T, pyLive pops id = some d → SigOf env a (b * r) d s →
        SigOf env a (b * r) doc q → ∀ i < b, ahash obj.hashSize (bandOf r s i) = ahash obj.hashSize (bandOf r q i) →
          bandOf r s i = bandOf r q i) → ∀ id ∈ l, id ∈ l') := by
  obtain ⟨l, q, hq, e, _, k1, _, k3⟩ := C80_query env ahash a obj h b r hp pops doc ha o1 o2
  obtain ⟨l', q', hq', e', _, _, k2', _⟩ := C80_query env ahash _ obj' h' b r hp pops doc ha o1' o2'
  obtain ⟨f, hf⟩ := cutOff_sig h hn h'
  have hlen : ∀ d (s : List obj.hashSize.T), SigOf env a (b * r) d s → s.length = b * r := by
    obtain ⟨b', r', hp', hrep, _⟩ := init_rep h
    obtain ⟨rfl, rfl⟩ := C68_params_unique env a b r b' r' hp hp'
    intro d s hs
    exact PyMinIndex.sig_length hrep.hasher ((sigOf_iff h hp d s).mpr hs)
  have uq : ∀ d (s1 s2 : List obj.hashSize.T), SigOf env a (b * r) d s1 → SigOf env a (b * r) d s2 → s1 = s2 := by
    intro d s1 s2 x1 x2
    exact Except.ok.inj (((sigOf_iff h hp d s1).mpr x1).symm.trans ((sigOf_iff h hp d s2).mpr x2))
  have uq' : q' = q.map f :=
    Except.ok.inj (((sigOf_iff h' hp doc q').mpr hq').symm.trans ((sigOf_iff h' hp doc _).mpr (hf _ _ _ hq)))
  have main : ∀ id ∈ l, (∃ d, ∃ s q : List obj.hashSize.T, pyLive pops id = some d ∧ SigOf env a (b * r) d s ∧
        SigOf env a (b * r) doc q ∧ ∃ i < b, sameBand r s q i) → id ∈ l' := by
    rintro id hid ⟨d, s, q2, x1, x2, x3, i, hi, x4⟩
    rw [uq doc q2 q x3 hq] at x4
    obtain ⟨d2, s2, v, y1, y2, y3, y4⟩ := k1 id hid
    rw [x1] at y1; cases y1
    rw [← uq d s s2 x2 y2] at y3
    obtain ⟨v1, v', m1, m2, _, m3⟩ := sim_mono hbr (hlen d s x2) (hlen doc q hq) (a' := s.map f) (b' := q.map f)
      (by simpa using hlen d s x2) (by simpa using hlen doc q hq) (agree_map_le f s q)
    rw [y3] at m1; cases m1
    exact k2' id d (s.map f) v' x1 (hf _ _ _ x2) ⟨i, hi, uq' ▸ sameBand_map f x4⟩ (uq' ▸ m2) (m3 _ y4)
  refine ⟨l, l', e, e', main, fun hc hcol id hid => main id hid ?_⟩
  obtain ⟨d, s, v, x1, x2, ⟨i, hi, x3⟩, _⟩ := (k3 hc id).mp hid
  exact ⟨d, s, q, x1, x2, hq, i, hi, sameBand_of_bandOf (hcol id d s q x1 x2 hq i hi x3)⟩

/-- The hypotheses of `C133_python` are met, from 16 to 8 bits: the arguments of the examples, a history without
overwriting and the query "a b", which is the document of the id 2. -/
example : (∃ obj, PyMinObject.init exPyMinEnv exAhash exArgs = .ok obj) ∧ CutOff exArgs.hashSize 8 ∧
    BandParams exPyMinEnv exArgs 4 2 ∧ 4 * 2 < 2 ^ 64 ∧ PyClean exPyClean ∧
    AnalyzerReturns exPyMinEnv exArgs ("a b".toList :: exPyClean.flatMap pyDocs) ∧
    pyLive exPyClean 2 = some "a b".toList ∧ SigOf (T := HashSize.T .h16) exPyMinEnv exArgs (4 * 2) "a b".toList
      ([1267, 1582, 1897, 2212, 2527, 2842, 3157, 3472] : List UInt16) := by
  refine ⟨?_, .inr ⟨rfl, rfl⟩, .inl ⟨4, 2, rfl, rfl, rfl, rfl⟩, by decide, exPyClean_clean, trivial, by decide, exSig_ab⟩
  exact (C68_accepts_partial exPyMinEnv exAhash exArgs (by decide)).mpr ⟨by decide,
      ⟨1 / 2, by decide +kernel, by decide +kernel, rfl⟩, by decide, exArgs_fit, .inl ⟨by decide, by decide⟩⟩

/-- The environment of the next theorem: the hashes of the tokens "x" and "y" are 5 and 2^32 + 1. -/
def exHash64Env : PyMinEnv :=
  { exPyMinEnv with hash := fun | .str [120] => 5 | .str [121] => 4294967297 | _ => 0 }

/-- The arguments of the next theorem: one band of one hash. -/
def exHash64Args : PyMinArgs :=
  { hashSize := 64, jaccardThreshold := .fin (1 / 2), numBands := some 1, bandSize := some 1, numHashes := none,
    analyzer := .named (some "word"), lowercase := none, ngramRange := none, idContainer := "set" }

theorem exHash64_sigs :
    SigOf (T := HashSize.T .h64) exHash64Env exHash64Args 1 "x".toList ([24] : List UInt64) ∧
    SigOf (T := HashSize.T .h64) exHash64Env exHash64Args 1 "x y".toList ([24] : List UInt64) ∧
    SigOf (T := HashSize.T .h32) exHash64Env { exHash64Args with hashSize := 32 } 1 "x".toList ([24] : List UInt32) ∧
    SigOf (T := HashSize.T .h32) exHash64Env { exHash64Args with hashSize := 32 } 1 "x y".toList ([8] : List UInt32) :=
  ⟨⟨pyTokens ["x".toList], by decide +kernel, by decide +kernel⟩,
    ⟨pyTokens ["x".toList, "y".toList], by decide +kernel, by decide +kernel⟩,
    ⟨pyTokens ["x".toList], by decide +kernel, by decide +kernel⟩,
    ⟨pyTokens ["x".toList, "y".toList], by decide +kernel, by decide +kernel⟩⟩

/-- C133 does not extend to hash size 64, whose hashes are not cut off but made by another family: the index with
64-bit hashes returns a document that the index with 32-bit hashes does not return. -/
theorem C133_not_from_64 : ∃ (env : PyMinEnv) (a : PyMinArgs) (pops : List PyMinOp) (doc : PyText) (id : Int64),
    a.hashSize = 64 ∧ PyClean pops ∧ AnalyzerReturns env a (doc :: pops.flatMap pyDocs) ∧
    ∀ ahash o1 o2, ∃ obj obj' l l', PyMinObject.init env ahash a = .ok obj ∧
      PyMinObject.init env ahash { a with hashSize := 32 } = .ok obj' ∧
      (obj.index.run env pops).query env o1 o2 doc false = .ok (.ids l) ∧ id ∈ l ∧
      (obj'.index.run env pops).query env o1 o2 doc false = .ok (.ids l') ∧ id ∉ l' := by
  obtain ⟨g1, g2, g3, g4⟩ := exHash64_sigs
  refine ⟨exHash64Env, exHash64Args, [.insertDocument 1 "x y".toList], "x".toList, 1, rfl, ?_, trivial, fun ahash o1 o2 => ?_⟩
  · intro pre op post e
    rcases pre with _ | ⟨p, _ | ⟨p2, pre⟩⟩ <;> simp at e
    obtain ⟨rfl, -⟩ := e
    rfl
  have hp : BandParams exHash64Env exHash64Args 1 1 := .inl ⟨1, 1, rfl, rfl, rfl, rfl⟩
  have hp' : BandParams exHash64Env { exHash64Args with hashSize := 32 } 1 1 := hp
  have hfit : exHash64Args.fit := by
    refine ⟨?_, ?_, ?_, ?_⟩
    · intro n h; cases h; exact ⟨by decide, by decide⟩
    · intro n h; cases h; exact ⟨by decide, by decide⟩
    · intro n h; cases h
    · intro p h; cases h
  obtain ⟨obj, h⟩ := (C68_accepts_partial exHash64Env ahash exHash64Args (by decide)).mpr ⟨by decide,
    ⟨1 / 2, by decide +kernel, by decide +kernel, rfl⟩, by decide, hfit, .inl ⟨by decide, by decide⟩⟩
  obtain ⟨obj', h'⟩ := (C68_accepts_partial exHash64Env ahash { exHash64Args with hashSize := 32 } (by decide)).mpr
    ⟨by decide, ⟨1 / 2, by decide +kernel, by decide +kernel, rfl⟩, by decide, hfit, .inl ⟨by decide, by decide⟩⟩
  obtain ⟨_, _, c1, _⟩ := init_native h
  obtain ⟨_, _, c2, _⟩ := init_native h'
  obtain ⟨hs, ck, ix⟩ := obj
  obtain ⟨hs', ck', ix'⟩ := obj'
  have : hs = .h64 := by simpa [HashSize.ofInt, exHash64Args] using c1.symm
  have : hs' = .h32 := by simpa [HashSize.ofInt, exHash64Args] using c2.symm
  subst hs hs'
  obtain ⟨l, q, hq, e, _, _, k, _⟩ := C80_query _ ahash _ _ h 1 1 hp [.insertDocument 1 "x y".toList] "x".toList trivial o1 o2
  obtain ⟨l', q', hq', e', _, k', _⟩ := C80_query _ ahash _ _ h' 1 1 hp' [.insertDocument 1 "x y".toList] "x".toList trivial o1 o2
  have eq1 := Except.ok.inj (((sigOf_iff h hp _ _).mpr hq).symm.trans ((sigOf_iff h hp _ _).mpr g1))
  have eq2 := Except.ok.inj (((sigOf_iff h' hp' _ _).mpr hq').symm.trans ((sigOf_iff h' hp' _ _).mpr g3))
  subst eq1 eq2
  refine ⟨_, _, l, l', h, h', e, ?_, e', ?_⟩
  · exact k 1 "x y".toList ([24] : List UInt64) (.fin 1) rfl g2 ⟨0, by decide, fun j _ _ => rfl⟩
      (show minhashSimilarity ([24] : List UInt64) [24] = .ok (.fin 1) by decide +kernel)
      (by decide +kernel)
  · intro hid
    obtain ⟨d, s, v, x1, x2, x3, x4⟩ := k' 1 hid
    have : d = "x y".toList := (Option.some.inj x1).symm
    subst this
    have eq3 := Except.ok.inj (((sigOf_iff h' hp' _ _).mpr x2).symm.trans ((sigOf_iff h' hp' _ _).mpr g4))
    subst eq3
    have hv : minhashSimilarity ([8] : List UInt32) [24] = .ok (.fin 0) := by decide +kernel
    have : v = .fin 0 := Except.ok.inj (x3.symm.trans hv)
    subst this
    revert x4
    decide +kernel

end Verif.Props
