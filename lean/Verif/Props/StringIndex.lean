import Verif.Lemmas.StringIndex

/-! # Properties C37 - C40: the string index -/
namespace Verif.Props
open Verif.Spec

section
variable (g : Rng) (hash : Text → UInt64) (ah : List UInt64 → UInt64) (b r : Nat) (t : Fl)

/-- The string index after a history. -/
abbrev SAfter (ops : List SOp) : StringIndex := (StringIndex.new g hash ah b r t).run ops

/-- The signature of a text, as the index computes it. -/
abbrev textSignature (text : Text) : Except Panic (List UInt64) :=
  (MinHasher64.newWithHasher g (b * r) hash).createSignature (whitespaceSplit text)

/-- A stored text is found by querying it. -/
theorem found_of_survivor (hb : 0 < b) (hr : 0 < r) (hbr : b * r < 2 ^ 64) (ht : Fl.ge (.fin 1) t = true)
    (ops : List SOp) (hn : (texts ops).length < 2 ^ 64) (o : Order) (x : Text) (hx : x ∈ survivors ops) :
    ∃ res, (SAfter g hash ah b r t ops).query o x = .ok res ∧ x ∈ res := by
  obtain ⟨_, P, ⟨K, J⟩, hP⟩ := holds_run (g := g) (hash := hash) (ah := ah) (b := b) (r := r) (t := t) ops hn
  obtain ⟨ids, res, h1, h2, h3⟩ := K.query o x
  refine ⟨res, h2, (h3 x).mpr ?_⟩
  rw [← hP] at hx
  obtain ⟨⟨id, y⟩, hm, rfl⟩ := List.mem_map.mp hx
  have hD : lastPair P id = some y := by
    cases hl : lastPair P id with
    | none => exact absurd rfl (lastPair_none.mp hl _ hm)
    | some z =>
      have hm' := lastPair_mem hl
      -- ids are distinct
      have hnd : (P.map Prod.fst).Nodup := by
        rw [List.Nodup, List.pairwise_map]
        exact J.sorted.imp fun h e => by rw [e] at h; omega
      have := List.inj_on_of_nodup_map hnd hm hm' rfl
      injection this with _ this
      rw [this]
  refine ⟨id, ?_, hD⟩
  have hs : (sg g hash b r y).length = b * r := (sg_spec g hash b r y).2
  have hpos : 0 < b * r := Nat.mul_pos hb hr
  refine ((query_mem K.inv h1).2 id).mpr ⟨?_, sg g hash b r y, _, by rw [hD]; rfl,
    self_similarity _ (by omega) (by omega), ht⟩
  exact candidate_of_band K.inv (s := sg g hash b r y) (by rw [hD]; rfl) hb rfl

/-- Sequential calls keep everything. -/
theorem survive_sequential (ops : List SOp) (hs : ∀ op ∈ ops, SOp.sequential op = true) (s : List Text × Bool) :
    (ops.foldl survive s).1 = s.1 ++ texts ops := by
  induction ops generalizing s with
  | nil => simp [texts]
  | cons op ops ih =>
    rw [List.foldl_cons, ih fun o ho => hs o (by simp [ho])]
    have : texts (op :: ops) = added op ++ texts ops := by simp [texts]
    rw [this, ← List.append_assoc]
    congr 1
    unfold survive
    split_ifs with h1 h2
    · rw [h1, List.append_nil]
    · rfl
    · exact absurd (hs op (by simp)) h2
    · exact absurd (hs op (by simp)) h2

/-- C37: a text that was inserted is returned by querying it, whatever happened before and whatever is inserted
or loaded line by line afterwards. -/
theorem C37_inserted_is_found (hb : 0 < b) (hr : 0 < r) (hbr : b * r < 2 ^ 64) (ht : Fl.ge (.fin 1) t = true)
    (pre post : List SOp) (x : Text) (hpost : ∀ op ∈ post, SOp.sequential op = true)
    (hn : (texts (pre ++ [.insert x] ++ post)).length < 2 ^ 64) (o : Order) :
    ∃ res, (SAfter g hash ah b r t (pre ++ [.insert x] ++ post)).query o x = .ok res ∧ x ∈ res := by
  apply found_of_survivor g hash ah b r t hb hr hbr ht _ hn
  unfold survivors
  rw [List.foldl_append, survive_sequential post hpost, List.foldl_append, List.foldl_cons, List.foldl_nil]
  apply List.mem_append_left
  simp [survive, added, SOp.sequential]

/-- A generator for the examples. -/
def exRngString : Rng where
  State := Nat
  seedFromU64 := fun s => s.toNat
  uniform := fun lo hi s => (lo + (s * 7919 + 12345) % (hi - lo), s * 31 + 17)
  uniform_range := by
    intro lo hi s h
    have := Nat.mod_lt (s * 7919 + 12345) (y := hi - lo) (by omega)
    omega

/-- A token hash for the examples. -/
def exTokHash (s : Text) : UInt64 := UInt64.ofNat (s.foldl (fun a c => a * 31 + c.toNat) 7)
/-- A band hash for the examples. -/
def exBandHash (s : List UInt64) : UInt64 := s.foldl (fun a c => a * 31 + c) 7

/-- C37 instance: mixed calls before, line-by-line calls (with an unreadable line) after. -/
example : ((SAfter exRngString exTokHash exBandHash 2 1 (.fin (1/2))
    [.insert "x y".toList, .loadFromFileParallel (some [some "q".toList]) [] [], .insert "a b".toList,
     .loadFromLines [some "c".toList, none], .loadFromFile none]).query Order.id "a, b".toList) =
    .ok ["a b".toList] := by decide +kernel

/-- C38: `query` never panics; every returned text was added by some call and its signature is at least
threshold-similar to that of the query. -/
theorem C38_query_sound (ops : List SOp) (o : Order) (q : Text) :
    ∃ res, (SAfter g hash ah b r t ops).query o q = .ok res ∧ ∀ x ∈ res, x ∈ texts ops ∧
      ∃ s s' v, textSignature g hash b r x = .ok s ∧ textSignature g hash b r q = .ok s' ∧
        minhashSimilarity s s' = .ok v ∧ Fl.ge v t = true := by
  obtain ⟨D, K, hD⟩ := inStep_run (g := g) (hash := hash) (ah := ah) (b := b) (r := r) (t := t) ops
  obtain ⟨ids, res, h1, h2, h3⟩ := K.query o q
  refine ⟨res, h2, fun x hx => ?_⟩
  obtain ⟨id, hid, hx⟩ := (h3 x).mp hx
  refine ⟨hD id x hx, ?_⟩
  obtain ⟨s, v, e1, e2, e3⟩ := (((query_mem K.inv h1).2 id).mp hid).2
  rw [hx] at e1
  injection e1 with e1
  subst e1
  exact ⟨_, _, v, (sg_spec g hash b r x).1, (sg_spec g hash b r q).1, e2, e3⟩

/-- C38 instance: a text that differs from the query is returned, another one is not. -/
example : ((SAfter exRngString exTokHash exBandHash 2 1 (.fin (1/2))
    [.insert "a b".toList, .insert "c".toList]).query Order.id "b a a".toList) = .ok ["a b".toList] := by decide +kernel

/-- C38: the calls never panic, except that the parallel load panics on an unreadable line (and then leaves the
index as it was). -/
theorem C38_calls_return (ops : List SOp) :
    (∀ x, ((SAfter g hash ah b r t ops).insert x).2 = .ok ()) ∧
    (∀ ls, ((SAfter g hash ah b r t ops).loadFromLines ls).2 = .ok ()) ∧
    (∀ f, ∃ n, ((SAfter g hash ah b r t ops).loadFromFile f).2 = .ok n) ∧
    ∀ f s1 s2, (∃ n, ((SAfter g hash ah b r t ops).loadFromFileParallel f s1 s2).2 = .ok n) ∨
      ((∃ ls, f = some ls ∧ none ∈ ls) ∧
        ((SAfter g hash ah b r t ops).loadFromFileParallel f s1 s2) = (SAfter g hash ah b r t ops, .error .unwrap)) := by
  obtain ⟨D, K, hD⟩ := inStep_run (g := g) (hash := hash) (ah := ah) (b := b) (r := r) (t := t) ops
  refine ⟨fun x => (K.insert x).1, fun ls => by rw [K.lines], fun f => ?_, fun f s1 s2 => ?_⟩
  · cases f with
    | none => exact ⟨none, rfl⟩
    | some ls => exact ⟨_, (K.file ls).2⟩
  · cases f with
    | none => exact Or.inl ⟨none, rfl⟩
    | some ls =>
      by_cases hls : ls.all Option.isSome = true
      · exact Or.inl ⟨_, (K.par ls hls s1 s2).1⟩
      · right
        refine ⟨⟨ls, rfl, ?_⟩, par_unreadable _ ls (by simpa using hls) s1 s2⟩
        rw [List.all_eq_true] at hls
        push Not at hls
        obtain ⟨l, hl, hl'⟩ := hls
        have : l = none := by simpa using hl'
        rwa [this] at hl

/-- C39 is false: after inserting `x` and loading a file with one line in parallel, `x` is never returned again,
and `size` says 2 although one text is stored. -/
theorem C39_no_loss_false (x y : Text) (hxy : x ≠ y) (s1 s2 : List Nat) :
    let st := SAfter g hash ah b r t [.insert x, .loadFromFileParallel (some [some y]) s1 s2]
    (∀ o q res, st.query o q = .ok res → x ∉ res) ∧ st.size = 2 ∧ st.docMap.len = 1 := by
  have hn : (texts [.insert x, .loadFromFileParallel (some [some y]) s1 s2]).length = 2 := rfl
  obtain ⟨h0, P, ⟨K, J⟩, hP⟩ := holds_run (g := g) (hash := hash) (ah := ah) (b := b) (r := r) (t := t)
    [.insert x, .loadFromFileParallel (some [some y]) s1 s2] (by rw [hn]; decide)
  have hs : survivors [.insert x, .loadFromFileParallel (some [some y]) s1 s2] = [y] := by
    simp [survivors, survive, added, readable, SOp.sequential]
  rw [hs] at hP
  obtain ⟨⟨id, y'⟩, rfl⟩ : ∃ p, P = [p] := by
    cases P with
    | nil => simp at hP
    | cons p P => cases P with
      | nil => exact ⟨p, rfl⟩
      | cons _ _ => simp at hP
  simp only [List.map_cons, List.map_nil, List.cons.injEq, and_true] at hP
  subst y'
  refine ⟨?_, h0.trans hn, ?_⟩
  · intro o q res hq hx
    obtain ⟨ids, res', _, h2, h3⟩ := K.query o q
    rw [h2] at hq
    injection hq with hq
    subst hq
    obtain ⟨i, _, hi⟩ := (h3 x).mp hx
    have := lastPair_mem hi
    simp only [List.mem_singleton, Prod.mk.injEq] at this
    exact hxy this.2
  · rw [HMap.len_eq_keys]
    have : (SAfter g hash ah b r t [.insert x, .loadFromFileParallel (some [some y]) s1 s2]).docMap.keys.Perm [id] := by
      refine (List.perm_ext_iff_of_nodup (HMap.nodup _) (List.nodup_singleton id)).mpr ?_
      intro k
      have := (HMap.get?_eq_none_iff (SAfter g hash ah b r t
        [.insert x, .loadFromFileParallel (some [some y]) s1 s2]).docMap k)
      rw [K.docs k, lastPair_none] at this
      rw [List.mem_singleton, ← not_iff_not]
      refine this.symm.trans ?_
      constructor
      · intro h e; exact h (id, y) (by simp) e.symm
      · intro h p hp; rw [List.mem_singleton] at hp; rw [hp]; exact fun e => h e.symm
    exact this.length_eq

/-- C39, exactly what holds, for every history: the survivors (every text, except that a parallel load of at
least one line destroys the text inserted last if that was added line by line) are retrievable and nothing else
is ever returned, while `size` counts all texts ever added. Missing: the destroyed texts. -/
theorem C39_survivors_partial (hb : 0 < b) (hr : 0 < r) (hbr : b * r < 2 ^ 64) (ht : Fl.ge (.fin 1) t = true)
    (ops : List SOp) (hn : (texts ops).length < 2 ^ 64) :
    (∀ o, ∀ x ∈ survivors ops, ∃ res, (SAfter g hash ah b r t ops).query o x = .ok res ∧ x ∈ res) ∧
    (∀ o q res, (SAfter g hash ah b r t ops).query o q = .ok res → ∀ x ∈ res, x ∈ survivors ops) ∧
    (SAfter g hash ah b r t ops).size = (texts ops).length := by
  obtain ⟨h0, P, ⟨K, J⟩, hP⟩ := holds_run (g := g) (hash := hash) (ah := ah) (b := b) (r := r) (t := t) ops hn
  refine ⟨fun o x hx => found_of_survivor g hash ah b r t hb hr hbr ht ops hn o x hx, ?_, h0⟩
  intro o q res hq x hx
  obtain ⟨ids, res', _, h2, h3⟩ := K.query o q
  rw [h2] at hq
  injection hq with hq
  subst hq
  obtain ⟨i, _, hi⟩ := (h3 x).mp hx
  rw [← hP]
  exact List.mem_map.mpr ⟨_, lastPair_mem hi, rfl⟩

/-- The hypotheses of C39 are met. -/
example : 0 < 2 ∧ 0 < 1 ∧ 2 * 1 < 2 ^ 64 ∧ Fl.ge (.fin 1) (.fin (1 / 2)) = true ∧
    (texts [.insert ['a'], .loadFromFileParallel (some [some ['b']]) [] []]).length < 2 ^ 64 := by decide +kernel

/-- The last call of a history that added a text. -/
def lastAdding (ops : List SOp) : Option SOp := (ops.filter fun op => added op ≠ []).getLast?

/-- Histories in which no parallel load directly follows (apart from calls that add nothing) a line-by-line
addition. -/
def NoMix (ops : List SOp) : Prop :=
  ∀ pre op post, ops = pre ++ op :: post → added op ≠ [] → SOp.sequential op = false →
    ∀ op', lastAdding pre = some op' → SOp.sequential op' = false

theorem NoMix.init {ops : List SOp} {op : SOp} (h : NoMix (ops ++ [op])) : NoMix ops := by
  intro pre o post e
  exact h pre o (post ++ [op]) (by rw [e]; simp)

theorem survive_noMix (ops : List SOp) (h : NoMix ops) :
    ops.foldl survive ([], false) = (texts ops, ((lastAdding ops).map SOp.sequential).getD false) := by
  induction ops using List.reverseRecOn with
  | nil => rfl
  | append_singleton ops op ih =>
    rw [List.foldl_append, ih h.init, List.foldl_cons, List.foldl_nil]
    have e : texts (ops ++ [op]) = texts ops ++ added op := by simp [texts]
    unfold survive
    by_cases h1 : added op = []
    · rw [if_pos h1, e, h1, List.append_nil]
      simp [lastAdding, List.filter_append, h1]
    · rw [if_neg h1, e]
      have hl : lastAdding (ops ++ [op]) = some op := by
        simp [lastAdding, List.filter_append, h1]
      rw [hl]
      by_cases h2 : SOp.sequential op = true
      · rw [if_pos h2]; simp [h2]
      · rw [if_neg h2]
        have h3 := h ops op [] (by simp) h1 (by simpa using h2)
        have h4 : ((lastAdding ops).map SOp.sequential).getD false = false := by
          cases hl : lastAdding ops with
          | none => rfl
          | some o => simpa using h3 o hl
        rw [h4]
        simp [h2]

/-- C39 for the histories in which it holds: every text stays retrievable and `size` is the number of texts.
Missing: histories that mix the two ways of loading in the order line by line, then parallel. -/
theorem C39_no_loss_partial (hb : 0 < b) (hr : 0 < r) (hbr : b * r < 2 ^ 64) (ht : Fl.ge (.fin 1) t = true)
    (ops : List SOp) (hmix : NoMix ops) (hn : (texts ops).length < 2 ^ 64) :
    (∀ o, ∀ x ∈ texts ops, ∃ res, (SAfter g hash ah b r t ops).query o x = .ok res ∧ x ∈ res) ∧
    (SAfter g hash ah b r t ops).size = (texts ops).length := by
  obtain ⟨h1, _, h3⟩ := C39_survivors_partial g hash ah b r t hb hr hbr ht ops hn
  refine ⟨?_, h3⟩
  have : survivors ops = texts ops := by unfold survivors; rw [survive_noMix ops hmix]
  rwa [this] at h1

/-- A history without mixing: two parallel loads, then line-by-line additions. -/
example : NoMix [.loadFromFileParallel (some [some ['a'], some ['b']]) [1] [], .loadFromFileParallel (some [some ['c']]) [] [],
    .insert ['d'], .loadFromLines [none, some ['e']]] := by
  intro pre op post e h1 h2 op' h3
  match pre, e with
  | [], e => simp [lastAdding] at h3
  | [p], e => simp at e; obtain ⟨rfl, _⟩ := e; simp [lastAdding, added, readable] at h3; subst h3; rfl
  | [p, p'], e => simp at e; obtain ⟨_, _, rfl, _⟩ := e; simp [SOp.sequential] at h2
  | [p, p', p''], e => simp at e; obtain ⟨_, _, _, rfl, _⟩ := e; simp [SOp.sequential] at h2
  | p :: p' :: p'' :: p''' :: pre, e => simp at e

/-- The survivors of a history that mixes. -/
example : survivors [.insert ['a'], .insert ['b'], .loadFromFileParallel (some [some ['c'], some ['d']]) [] [],
    .insert ['e']] = [['a'], ['c'], ['d'], ['e']] := by decide

/-- C40: loading lines is the same as inserting each readable line in order. -/
theorem C40_lines_are_inserts (ops : List SOp) (ls : List (Option Text)) :
    (SAfter g hash ah b r t ops).loadFromLines ls =
      (SAfter g hash ah b r t (ops ++ (readable ls).map .insert), .ok ()) := by
  obtain ⟨D, K, hD⟩ := inStep_run (g := g) (hash := hash) (ah := ah) (b := b) (r := r) (t := t) ops
  rw [K.lines]
  unfold SAfter StringIndex.run
  rw [List.foldl_append, List.foldl_map]
  rfl

/-- C40: so is loading a file; the returned count is the number of readable lines (modulo 2^64), and a file
that cannot be opened changes nothing and is reported. -/
theorem C40_file (ops : List SOp) (f : Option (List (Option Text))) :
    (SAfter g hash ah b r t ops).loadFromFile f = match f with
      | none => (SAfter g hash ah b r t ops, .ok none)
      | some ls => (SAfter g hash ah b r t (ops ++ (readable ls).map .insert),
          .ok (some (UInt64.ofNat (readable ls).length))) := by
  cases f with
  | none => rfl
  | some ls =>
    obtain ⟨D, K, hD⟩ := inStep_run (g := g) (hash := hash) (ah := ah) (b := b) (r := r) (t := t) ops
    obtain ⟨h1, h2⟩ := K.file ls
    have e : (SAfter g hash ah b r t (ops ++ (readable ls).map .insert)) =
        (readable ls).foldl (fun s x => (s.insert x).1) (SAfter g hash ah b r t ops) := by
      unfold SAfter StringIndex.run
      rw [List.foldl_append, List.foldl_map]
      rfl
    rw [(K.inserts (readable ls)).1, UInt64.add_comm, UInt64.add_sub_cancel] at h2
    simp only
    rw [e]
    exact Prod.ext h1 h2

/-- C40 with the reader as a stream of lines and read errors: if the stream ends, the loop ends with the readable
lines inserted, whatever the positions of the errors. -/
theorem C40_reader (ops : List SOp) (src : Nat → Option (Option Text)) (ls : List (Option Text))
    (hsrc : ∀ i, src i = ls[i]?) (fuel : Nat) (hf : ls.length < fuel) :
    StringIndex.loadFromReader src fuel 0 (SAfter g hash ah b r t ops) =
      some (SAfter g hash ah b r t (ops ++ (readable ls).map .insert), .ok ()) := by
  rw [← C40_lines_are_inserts]
  obtain ⟨D, K, hD⟩ := inStep_run (g := g) (hash := hash) (ah := ah) (b := b) (r := r) (t := t) ops
  have key : ∀ (rest pre : List (Option Text)) (fuel : Nat) (st : StringIndex) (D : UInt64 → Option Text),
      InStep g hash ah b r t D st → ls = pre ++ rest → rest.length < fuel →
      StringIndex.loadFromReader src fuel pre.length st = some (st.loadFromLines rest) := by
    intro rest
    induction rest with
    | nil =>
      intro pre fuel st D K e hf
      obtain ⟨fuel, rfl⟩ : ∃ m, fuel = m + 1 := ⟨fuel - 1, by simp at hf; omega⟩
      unfold StringIndex.loadFromReader
      rw [hsrc, e]
      simp [StringIndex.loadFromLines]
    | cons l rest ih =>
      intro pre fuel st D K e hf
      rw [List.length_cons] at hf
      obtain ⟨fuel, rfl⟩ : ∃ m, fuel = m + 1 := ⟨fuel - 1, by omega⟩
      have hl : src pre.length = some l := by rw [hsrc, e]; simp
      have e' : ls = (pre ++ [l]) ++ rest := by rw [e]; simp
      have hlen : (pre ++ [l]).length = pre.length + 1 := by simp
      unfold StringIndex.loadFromReader
      rw [hl]
      cases l with
      | none =>
        simp only [StringIndex.loadFromLines]
        rw [← hlen]
        exact ih _ fuel st D K e' (by omega)
      | some x =>
        obtain ⟨i1, _, i3⟩ := K.insert x
        simp only [StringIndex.loadFromLines]
        have hrec := ih (pre ++ [some x]) fuel _ _ i3 e' (by omega)
        rw [hlen] at hrec
        generalize st.insert x = R at i1 hrec
        obtain ⟨st', res⟩ := R
        simp only at i1
        subst i1
        exact hrec
  exact key ls [] fuel _ D K rfl hf

/-- The hypotheses are met by a reader with an error in the middle. -/
example : ∀ i, (fun i => [some ['a'], none, some ['b']][i]? : Nat → Option (Option Text)) i =
    [some ['a'], none, some ['b']][i]? := fun _ => rfl

/-- C40: but a reader that keeps failing (a directory opened as a file) keeps the loop running for ever. -/
theorem C40_endless_reader (ops : List SOp) (src : Nat → Option (Option Text)) (hsrc : ∀ i, src i ≠ none)
    (fuel : Nat) : StringIndex.loadFromReader src fuel 0 (SAfter g hash ah b r t ops) = none := by
  obtain ⟨D, K, hD⟩ := inStep_run (g := g) (hash := hash) (ah := ah) (b := b) (r := r) (t := t) ops
  unfold SAfter
  generalize (StringIndex.new g hash ah b r t).run ops = st at K
  generalize 0 = i
  clear hD
  induction fuel generalizing i st D with
  | zero => rfl
  | succ fuel ih =>
    unfold StringIndex.loadFromReader
    match hs : src i with
    | none => exact absurd hs (hsrc i)
    | some none => exact ih D st K (i + 1)
    | some (some x) =>
      obtain ⟨i1, _, i3⟩ := K.insert x
      have hrec := ih _ _ i3 (i + 1)
      simp only
      generalize st.insert x = R at i1 hrec
      obtain ⟨st', res⟩ := R
      simp only at i1
      subst i1
      exact hrec

/-- C40 instance. -/
example : readable [some ['a'], none, some ['b'], none] = [['a'], ['b']] := by decide
example : ((SAfter exRngString exTokHash exBandHash 2 1 (.fin 1) []).loadFromFile
    (some [some ['a'], none, some ['b']])).2 = .ok (some 2) := by decide +kernel
example : ∀ i, (fun _ => some none : Nat → Option (Option Text)) i ≠ none := by simp

end
end Verif.Props
