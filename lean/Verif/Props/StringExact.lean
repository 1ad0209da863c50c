import Verif.Lemmas.StringExact
import Verif.Props.StringIndex
import Verif.Props.MinHasher
import Verif.Props.Text

/-! # Property C129: exact answers of the string index -/
namespace Verif.Props
open Verif.Spec

section
variable (g : Rng) (hash : Text → UInt64) (ah : List UInt64 → UInt64) (b r : Nat) (t : Fl)

/-- The signatures of the texts are similar to at least the threshold. -/
def TextClose (x y : Text) : Prop :=
  ∃ s s' v, textSignature g hash b r x = .ok s ∧ textSignature g hash b r y = .ok s' ∧
    minhashSimilarity s s' = .ok v ∧ Fl.ge v t = true

/-- The hashes of some band of the signatures of the texts are equal. -/
def ShareBand (x y : Text) : Prop :=
  ∃ s s', textSignature g hash b r x = .ok s ∧ textSignature g hash b r y = .ok s' ∧
    ∃ i < b, ah (bandOf r s i) = ah (bandOf r s' i)

theorem textClose_iff (x y : Text) : TextClose g hash b r t x y ↔
    ∃ v, minhashSimilarity (sg g hash b r x) (sg g hash b r y) = .ok v ∧ Fl.ge v t = true := by
  constructor
  · rintro ⟨s, s', v, h1, h2, h⟩
    rw [textSignature, (sg_spec g hash b r _).1] at h1 h2
    injection h1 with h1
    injection h2 with h2
    subst h1 h2
    exact ⟨v, h⟩
  · rintro ⟨v, h⟩
    exact ⟨_, _, v, (sg_spec g hash b r x).1, (sg_spec g hash b r y).1, h⟩

theorem shareBand_iff (x y : Text) : ShareBand g hash ah b r x y ↔
    ∃ i < b, ah (bandOf r (sg g hash b r x) i) = ah (bandOf r (sg g hash b r y) i) := by
  constructor
  · rintro ⟨s, s', h1, h2, h⟩
    rw [textSignature, (sg_spec g hash b r _).1] at h1 h2
    injection h1 with h1
    injection h2 with h2
    subst h1 h2
    exact h
  · rintro h
    exact ⟨_, _, (sg_spec g hash b r x).1, (sg_spec g hash b r y).1, h⟩

/-- Both relations are symmetric. -/
theorem textClose_symm {x y : Text} (h : TextClose g hash b r t x y) : TextClose g hash b r t y x := by
  obtain ⟨s, s', v, h1, h2, h3, h4⟩ := h
  exact ⟨s', s, v, h2, h1, by rw [minhashSimilarity_comm]; exact h3, h4⟩

theorem shareBand_symm {x y : Text} (h : ShareBand g hash ah b r x y) : ShareBand g hash ah b r y x := by
  obtain ⟨s, s', h1, h2, i, hi, h3⟩ := h
  exact ⟨s', s, h2, h1, i, hi, h3.symm⟩

/-- C129, any history: `query` returns no text more often than it is stored, returns a stored text exactly as often
as it is stored when it is similar enough and shares a band, and returns nothing below the threshold. -/
theorem C129_counts (ops : List SOp) (hn : (texts ops).length < 2 ^ 64) (o : Order) (q : Text) :
    ∃ res, (SAfter g hash ah b r t ops).query o q = .ok res ∧ ∀ x,
      res.count x ≤ (survivors ops).count x ∧
      (ShareBand g hash ah b r x q → TextClose g hash b r t x q → res.count x = (survivors ops).count x) ∧
      (¬ TextClose g hash b r t x q → res.count x = 0) := by
  obtain ⟨_, P, H, hP⟩ := holds_run (g := g) (hash := hash) (ah := ah) (b := b) (r := r) (t := t) ops hn
  obtain ⟨ids, res, h1, h2, h3, h4, h5⟩ := InStep.query_counts H o q
  rw [hP] at h3 h4
  have hm := (query_mem H.1.inv h1).2
  refine ⟨res, h2, fun x => ⟨h3 x, fun hs hc => h4 x fun id hid => ?_, fun hc => h5 x fun id hid hi => ?_⟩⟩
  · obtain ⟨v, hv⟩ := (textClose_iff g hash b r t x q).mp hc
    obtain ⟨i, hi, e⟩ := (shareBand_iff g hash ah b r x q).mp hs
    exact (hm id).mpr ⟨candidate_of_band H.1.inv (s := sg g hash b r x) (by rw [hid]; rfl) hi e,
      sg g hash b r x, v, by rw [hid]; rfl, hv⟩
  · obtain ⟨s, v, e, hv⟩ := ((hm id).mp hi).2
    rw [hid] at e
    injection e with e
    subst e
    exact hc ((textClose_iff g hash b r t x q).mpr ⟨v, hv⟩)

theorem exactS_run (ops : List SOp) (hmix : NoMix ops) (hn : (texts ops).length < 2 ^ 64) :
    ExactS g hash b r (SAfter g hash ah b r t ops) := by
  induction ops using List.reverseRecOn with
  | nil => exact exact_new ah b r t
  | append_singleton ops op ih =>
    have e : texts (ops ++ [op]) = texts ops ++ added op := by simp [texts]
    rw [e, List.length_append] at hn
    obtain ⟨hd, P, H, _⟩ := holds_run (g := g) (hash := hash) (ah := ah) (b := b) (r := r) (t := t) ops (by omega)
    have er : SAfter g hash ah b r t (ops ++ [op]) = (SAfter g hash ah b r t ops).step op := by
      simp [SAfter, StringIndex.run, List.foldl_append]
    rw [er]
    refine ExactS.step H (ih hmix.init (by omega)) op (by rw [hd]; omega) fun h1 h2 => ?_
    rw [survive_noMix ops hmix.init]
    show ((lastAdding ops).map SOp.sequential).getD false = false
    cases hl : lastAdding ops with
    | none => rfl
    | some o => simpa using hmix ops op [] (by simp) h1 h2 o hl

/-- C129, histories in which no parallel load follows line-by-line additions: `query` returns the texts that are
similar enough and share a band, each exactly as often as it was added, and nothing else. -/
theorem C129_exact (ops : List SOp) (hmix : NoMix ops) (hn : (texts ops).length < 2 ^ 64) (o : Order) (q : Text) :
    ∃ res, (SAfter g hash ah b r t ops).query o q = .ok res ∧ ∀ x,
      (ShareBand g hash ah b r x q ∧ TextClose g hash b r t x q → res.count x = (texts ops).count x) ∧
      (¬ (ShareBand g hash ah b r x q ∧ TextClose g hash b r t x q) → res.count x = 0) := by
  obtain ⟨_, P, H, hP⟩ := holds_run (g := g) (hash := hash) (ah := ah) (b := b) (r := r) (t := t) ops hn
  have E := exactS_run g hash ah b r t ops hmix hn
  have hs : survivors ops = texts ops := by unfold survivors; rw [survive_noMix ops hmix]
  obtain ⟨ids, res, h1, h2, _, h4, h5⟩ := InStep.query_counts H o q
  rw [hP, hs] at h4
  have hm := (query_mem H.1.inv h1).2
  have eD : (fun id => ((SAfter g hash ah b r t ops).docMap.get? id).map (sg g hash b r)) =
      fun id => (lastPair P id).map (sg g hash b r) := by
    funext id; rw [H.1.docs]
  unfold ExactS at E
  rw [eD] at E
  refine ⟨res, h2, fun x => ⟨fun ⟨hs, hc⟩ => h4 x fun id hid => ?_, fun hc => h5 x fun id hid hi => hc ⟨?_, ?_⟩⟩⟩
  · obtain ⟨v, hv⟩ := (textClose_iff g hash b r t x q).mp hc
    obtain ⟨i, hi, e⟩ := (shareBand_iff g hash ah b r x q).mp hs
    exact (hm id).mpr ⟨candidate_of_band H.1.inv (s := sg g hash b r x) (by rw [hid]; rfl) hi e,
      sg g hash b r x, v, by rw [hid]; rfl, hv⟩
  · obtain ⟨s, e, hb⟩ := (candidate_exact H.1.inv E (sg g hash b r q) id).mp ((hm id).mp hi).1
    rw [hid] at e
    injection e with e
    subst e
    exact (shareBand_iff g hash ah b r x q).mpr hb
  · obtain ⟨s, v, e, hv⟩ := ((hm id).mp hi).2
    rw [hid] at e
    injection e with e
    subst e
    exact (textClose_iff g hash b r t x q).mpr ⟨v, hv⟩

/-- C129: in such histories the answer depends on the added texts only, not on the order or the calls they were
added with, nor on the iteration order of the hash tables, up to its own order. -/
theorem C129_order_independent (ops ops' : List SOp) (hmix : NoMix ops) (hmix' : NoMix ops')
    (hn : (texts ops).length < 2 ^ 64) (hp : (texts ops).Perm (texts ops')) (o o' : Order) (q : Text) :
    ∃ res res', (SAfter g hash ah b r t ops).query o q = .ok res ∧
      (SAfter g hash ah b r t ops').query o' q = .ok res' ∧ res.Perm res' := by
  obtain ⟨res, h1, h2⟩ := C129_exact g hash ah b r t ops hmix hn o q
  obtain ⟨res', h1', h2'⟩ := C129_exact g hash ah b r t ops' hmix' (by rw [← hp.length_eq]; exact hn) o' q
  refine ⟨res, res', h1, h1', List.perm_iff_count.mpr fun x => ?_⟩
  by_cases h : ShareBand g hash ah b r x q ∧ TextClose g hash b r t x q
  · rw [(h2 x).1 h, (h2' x).1 h, hp.count_eq]
  · rw [(h2 x).2 h, (h2' x).2 h]

/-- C129: two texts find each other or neither finds the other. -/
theorem C129_symmetric (ops : List SOp) (hmix : NoMix ops) (hn : (texts ops).length < 2 ^ 64) (o : Order) (x y : Text)
    (hx : x ∈ texts ops) (hy : y ∈ texts ops) :
    ∃ rx ry, (SAfter g hash ah b r t ops).query o x = .ok rx ∧ (SAfter g hash ah b r t ops).query o y = .ok ry ∧
      (y ∈ rx ↔ x ∈ ry) := by
  obtain ⟨rx, h1, h2⟩ := C129_exact g hash ah b r t ops hmix hn o x
  obtain ⟨ry, h1', h2'⟩ := C129_exact g hash ah b r t ops hmix hn o y
  refine ⟨rx, ry, h1, h1', ?_⟩
  rw [← List.count_pos_iff, ← List.count_pos_iff]
  rw [← List.count_pos_iff] at hx hy
  by_cases h : ShareBand g hash ah b r y x ∧ TextClose g hash b r t y x
  · rw [(h2 y).1 h, (h2' x).1 ⟨shareBand_symm g hash ah b r h.1, textClose_symm g hash b r t h.2⟩]
    exact iff_of_true hy hx
  · rw [(h2 y).2 h, (h2' x).2 fun h' => h ⟨shareBand_symm g hash ah b r h'.1, textClose_symm g hash b r t h'.2⟩]

/-- C129: two texts with the same set of words are the same query after every history. -/
theorem C129_same_words (ops : List SOp) (o : Order) (x y : Text) (xs ys : List Text) (hx : MaximalRuns x xs)
    (hy : MaximalRuns y ys) (h : ∀ w, w ∈ xs ↔ w ∈ ys) :
    (SAfter g hash ah b r t ops).query o x = (SAfter g hash ah b r t ops).query o y := by
  rw [C41_maximal_runs] at hx hy
  subst hx hy
  have : (SAfter g hash ah b r t ops).signature x = (SAfter g hash ah b r t ops).signature y :=
    C02_token_set_64 _ _ _ h
  unfold StringIndex.query
  rw [this]

/-- C129: and both are found alike: each as often as it was added, or neither. -/
theorem C129_same_words_found (ops : List SOp) (hmix : NoMix ops) (hn : (texts ops).length < 2 ^ 64) (o : Order)
    (q x y : Text) (xs ys : List Text) (hx : MaximalRuns x xs) (hy : MaximalRuns y ys) (h : ∀ w, w ∈ xs ↔ w ∈ ys) :
    ∃ res, (SAfter g hash ah b r t ops).query o q = .ok res ∧
      (res.count x = (texts ops).count x ∧ res.count y = (texts ops).count y ∨ x ∉ res ∧ y ∉ res) := by
  rw [C41_maximal_runs] at hx hy
  subst hx hy
  have e : textSignature g hash b r x = textSignature g hash b r y := C02_token_set_64 _ _ _ h
  obtain ⟨res, h1, h2⟩ := C129_exact g hash ah b r t ops hmix hn o q
  refine ⟨res, h1, ?_⟩
  have h3 : (ShareBand g hash ah b r x q ∧ TextClose g hash b r t x q) ↔
      (ShareBand g hash ah b r y q ∧ TextClose g hash b r t y q) := by
    unfold ShareBand TextClose
    rw [e]
  by_cases hc : ShareBand g hash ah b r x q ∧ TextClose g hash b r t x q
  · exact .inl ⟨(h2 x).1 hc, (h2 y).1 (h3.mp hc)⟩
  · exact .inr ⟨List.count_eq_zero.mp ((h2 x).2 hc), List.count_eq_zero.mp ((h2 y).2 fun h => hc (h3.mpr h))⟩

end

/-- The hypotheses of C129 are met by a history without mixing that adds a text twice, ... -/
theorem exStringOps_noMix : NoMix [.loadFromFileParallel (some [some "a b".toList, some "c".toList]) [1] [],
    .insert "b a".toList, .insert "a b".toList] := by
  intro pre op post e h1 h2 op' h3
  match pre, e with
  | [], e => simp [lastAdding] at h3
  | [p], e => simp at e; obtain ⟨_, rfl, _⟩ := e; simp [SOp.sequential] at h2
  | [p, p'], e => simp at e; obtain ⟨_, _, rfl, _⟩ := e; simp [SOp.sequential] at h2
  | p :: p' :: p'' :: pre, e => simp at e

/-- ... whose answer contains the text twice, and the text with the same words once. -/
example : ((SAfter exRngString exTokHash exBandHash 2 1 (.fin (1/2))
    [.loadFromFileParallel (some [some "a b".toList, some "c".toList]) [1] [],
      .insert "b a".toList, .insert "a b".toList]).query Order.id "b, a".toList) =
    .ok ["a b".toList, "b a".toList, "a b".toList] := by decide +kernel

/-- The texts of that history, in another order and added by other calls. -/
example : (texts [.loadFromFileParallel (some [some "a b".toList, some "c".toList]) [1] [],
      .insert "b a".toList, .insert "a b".toList]).length < 2 ^ 64 ∧
    (texts [.loadFromFileParallel (some [some "a b".toList, some "c".toList]) [1] [],
      .insert "b a".toList, .insert "a b".toList]).Perm
    (texts [.loadFromLines [some "c".toList, none, some "a b".toList], .loadFromFile (some [some "a b".toList]),
      .insert "b a".toList]) := by decide

/-- Texts with the same words. -/
example : MaximalRuns "a b".toList ["a".toList, "b".toList] ∧ MaximalRuns "b, a".toList ["b".toList, "a".toList] ∧
    ∀ w, w ∈ ["a".toList, "b".toList] ↔ w ∈ ["b".toList, "a".toList] := by
  refine ⟨(C41_maximal_runs _ _).mpr (by decide +kernel), (C41_maximal_runs _ _).mpr (by decide +kernel), fun w => ?_⟩
  simp only [List.mem_cons, List.not_mem_nil, or_false]
  exact or_comm

end Verif.Props
