import Verif.Lemmas.IndexSeq
import Verif.Props.Index
import Verif.Props.IndexRank

/-! # Properties C31 - C34: shrinking, containers, buckets -/
set_option linter.unusedSectionVars false
namespace Verif.Props
open Verif.Spec

variable {T Id : Type} [DecidableEq T] [DecidableEq Id]
variable {C : Type} [IdContainer C Id] [LawfulIdContainer C Id]

/-! ## C31 -/

/-- Two indexes give the same answer to every read-only call. -/
structure SameAnswers (x y : MinHashIndex T Id C) : Prop where
  getSignature : ∀ id, x.getSignature id = y.getSignature id
  size : x.size = y.size
  bandSizes : x.bandSizes = y.bandSizes
  query : ∀ q, x.query q = y.query q
  queryOwned : ∀ q, x.queryOwned q = y.queryOwned q
  queryById : ∀ id, x.queryById id = y.queryById id
  queryOne : ∀ o q, x.queryOne o q = y.queryOne o q
  returnSimilarity : ∀ o1 o2 q, x.queryOwnedReturnSimilarity o1 o2 q = y.queryOwnedReturnSimilarity o1 o2 q
  topK : ∀ o1 o2 q k, x.queryTopK o1 o2 q k = y.queryTopK o1 o2 q k

theorem same_answers {x y : MinHashIndex T Id C} (h : x.Same y) : SameAnswers x y :=
  ⟨h.sigs, h.size, h.bandSizes, h.query, h.queryOwned, h.queryById, h.queryOne, h.retSim, h.topK⟩

/-- C31: after `shrink_to_fit` or `shrink_to` (even one that panics half-way), and any further calls, all
answers are those of the index that was not shrunk, and each further call itself has the same outcome. -/
theorem C31_shrink (b r : Nat) (t : Fl) (h : List T → UInt64) (ops more : List (Op T Id)) (op : Op T Id)
    (hop : (∃ o, op = .shrinkToFit o) ∨ ∃ m c o sched, op = .shrinkTo m c o sched) :
    SameAnswers (After C b r t h (ops ++ op :: more)) (After C b r t h (ops ++ more)) ∧
    ∀ op', ((After C b r t h (ops ++ op :: more)).step op').2 = ((After C b r t h (ops ++ more)).step op').2 := by
  have hs : ((After C b r t h ops).step op).1.Same (After C b r t h ops) := by
    rcases hop with ⟨o, rfl⟩ | ⟨m, c, o, sched, rfl⟩
    · exact (shrinkToFit_rehashed o _).same
    · exact (shrinkTo_rehashed o _ m c sched).same
  have hrun : (After C b r t h (ops ++ op :: more)).Same (After C b r t h (ops ++ more)) := by
    unfold After
    rw [run_append, run_append, run_cons]
    exact hs.run more
  exact ⟨same_answers hrun, fun op' => (hrun.step op').2⟩

/-- An instance of C31: shrinking in the middle of a history. -/
example : (After (VecContainer Nat) 2 1 (.fin 0) exHash ([.insert 1 [1, 2], .insert 2 [1, 3]] ++
      .shrinkTo 1 5 Order.rev [1, 0] :: [.remove 1])).bandSizes =
    (After (VecContainer Nat) 2 1 (.fin 0) exHash ([.insert 1 [1, 2], .insert 2 [1, 3]] ++ [.remove 1])).bandSizes :=
  (C31_shrink 2 1 _ _ _ _ _ (.inr ⟨_, _, _, _, rfl⟩)).1.bandSizes

/-- C31: removal returns the same signature too. -/
theorem C31_shrink_remove (b r : Nat) (t : Fl) (h : List T → UInt64) (ops : List (Op T Id)) (o : Order) (id : Id) :
    ((After C b r t h (ops ++ [.shrinkToFit o])).remove id).2 = ((After C b r t h ops).remove id).2 := by
  have hs : ((After C b r t h ops).step (.shrinkToFit o)).1.Same (After C b r t h ops) :=
    (shrinkToFit_rehashed o _).same
  unfold After
  rw [run_snoc]
  exact (hs.remove id).2

/-- Shrinking does change the representation in the model (so C31 is not about the identity function). -/
example : ((After (HashSetContainer Nat) 1 1 (.fin 0) exHash
      [.insert 1 [1], .insert 2 [2], .shrinkToFit Order.rev]).idSignatures.entries = [(1, [1]), (2, [2])]) ∧
    ((After (HashSetContainer Nat) 1 1 (.fin 0) exHash
      [.insert 1 [1], .insert 2 [2]]).idSignatures.entries = [(2, [2]), (1, [1])]) := by
  constructor <;> rfl

/-! ## C32 -/

/-- The ratio test of `shrink_to`. -/
theorem ratio_lt_one {m n : Nat} (hm : m ≤ 2 ^ 53) (hn : n ≤ 2 ^ 53) :
    Fl.lt (Fl.div b64 (Fl.ofNat b64 m) (Fl.ofNat b64 n)) (.fin 1) = true ↔ m < n := by
  have hP : b64.prec = 53 := rfl
  rcases Nat.lt_or_ge m n with h | h
  · rw [div_ofNat b64_ok h.le (by omega) (by rw [hP]; exact hn), lt_fin]
    simp only [h, iff_true]
    apply rndQ_lt_one b64_ok (by positivity)
    have hn0 : (0 : ℚ) < n := by exact_mod_cast (show 0 < n by omega)
    rw [div_le_iff₀ hn0]
    have h1 : (m : ℚ) + 1 ≤ n := by exact_mod_cast h
    have h2 : (n : ℚ) ≤ 2 ^ b64.prec := by rw [hP]; exact_mod_cast hn
    have h3 : (0 : ℚ) < 2 ^ b64.prec := by positivity
    have h4 : (1 : ℚ) / 2 ^ b64.prec * n ≤ 1 := by
      rw [div_mul_eq_mul_div, one_mul, div_le_one h3]; exact h2
    nlinarith
  · simp only [Nat.not_lt.mpr h, iff_false, Bool.not_eq_true]
    rw [ofNat_exact b64_ok (by rw [hP]; exact hm), ofNat_exact b64_ok (by rw [hP]; exact hn)]
    simp only [Fl.div]
    split_ifs with h0 h1 h2
    · rfl
    · rfl
    · exfalso
      have : (0 : ℚ) ≤ m := by positivity
      exact h2 (lt_of_le_of_ne this (Ne.symm h1))
    · have hn0 : (0 : ℚ) < n := lt_of_le_of_ne (by positivity) (Ne.symm h0)
      have hq : (1 : ℚ) ≤ (m : ℚ) / n := by
        rw [le_div_iff₀ hn0, one_mul]; exact_mod_cast h
      have hr : 1 ≤ rndQ b64 ((m : ℚ) / n) := by
        have := rndQ_mono (f := b64) (by rw [hP]; norm_num) (by norm_num) hq
        rwa [rndQ_one b64_ok] at this
      unfold rnd
      split_ifs with h3 h4
      · rfl
      · exfalso
        have : (0 : ℚ) < 2 ^ b64.emax := two_zpow_pos _
        linarith
      · rw [← Bool.not_eq_true, lt_fin]
        exact not_lt.mpr hr

/-- When `shrink_to` returns. -/
theorem shrinkTo_ok_iff (o : Order) (idx : MinHashIndex T Id C) (m c : Nat) (sched : List Nat) :
    (idx.shrinkTo o m c sched).2 = .ok () ↔ c < m ∨ ∀ band ∈ idx.bands,
      Fl.lt (Fl.div b64 (Fl.ofNat b64 band.hashTable.len) (Fl.ofNat b64 idx.idSignatures.len)) (.fin 1) = true := by
  unfold MinHashIndex.shrinkTo
  split_ifs with hm
  · simp [hm]
  · have key : (parForEach (MinHashIndex.shrinkBand o idx.idSignatures.len) idx.bands [()] sched).2 = .ok () ↔
        ∀ band ∈ idx.bands, Fl.lt (Fl.div b64 (Fl.ofNat b64 band.hashTable.len)
          (Fl.ofNat b64 idx.idSignatures.len)) (.fin 1) = true := by
      constructor
      · intro hok band hb
        obtain ⟨y, _, hy⟩ := forall₂_mem_left (parForEach_ok _ hok) band hb
        have hy' : (MinHashIndex.shrinkBand o idx.idSignatures.len band () >>= fun s => pure s) = .ok y := by
          simpa using hy
        unfold MinHashIndex.shrinkBand at hy'
        split_ifs at hy' with hc
        · exact hc
        · cases hy'
      · intro hall
        apply parForEach_returns
        intro band hb
        refine ⟨band.rehash o, ?_⟩
        simp only [List.foldlM_cons, List.foldlM_nil, MinHashIndex.shrinkBand, hall band hb, if_true]
        rfl
    have hm' : ¬ c < m := hm
    simp only [hm', false_or]
    rw [← key]
    generalize parForEach (MinHashIndex.shrinkBand o idx.idSignatures.len) idx.bands [()] sched = P
    obtain ⟨bands, res⟩ := P
    cases res with
    | ok u => simp
    | error e => simp

/-- C32 is false of the code: `shrink_to` panics on an index with a single document (and on an empty one). -/
theorem C32_shrink_to_false :
    (∃ (b r : Nat) (t : Fl) (h : List Nat → UInt64) (ops : List (Op Nat Nat)) (m c : Nat),
      RightLengths (b * r) ops ∧ Clean (b * r) ops ∧ ops ≠ [] ∧ ∀ o sched,
      ((After (HashSetContainer Nat) b r t h ops).shrinkTo o m c sched).2 ≠ .ok ()) ∧
    ∀ (b r : Nat) (t : Fl) (h : List Nat → UInt64) (c : Nat) (o : Order) (sched : List Nat), 0 < b →
      ((After (HashSetContainer Nat) b r t h ([] : List (Op Nat Nat))).shrinkTo o 0 c sched).2 ≠ .ok () := by
  constructor
  · refine ⟨1, 1, .fin 0, exHash, [.insert 1 [5]], 0, 3, ?_, ?_, by simp, ?_⟩
    · intro op hop s hs
      simp at hop; subst hop
      simp [sigsOf] at hs; subst hs; rfl
    · apply clean_of_prefixes
      intro i hi op hop
      have hi' : i < 1 := hi
      interval_cases i
      simp at hop; subst hop
      intro _; rfl
    · intro o sched
      rw [Ne, shrinkTo_ok_iff]
      rintro (h | h)
      · omega
      · have := h _ (List.mem_cons_self (a := (Band.mk (HMap.empty.insert (exHash [5]) (⟨HSet.empty.insert 1⟩ : HashSetContainer Nat)) 0 1 exHash)) (l := []))
        rw [show (After (HashSetContainer Nat) 1 1 (.fin 0) exHash
          ([.insert 1 [5]] : List (Op Nat Nat))).idSignatures.len = 1 from rfl,
          show (HMap.empty.insert (exHash [5]) (⟨HSet.empty.insert 1⟩ : HashSetContainer Nat)).len = 1 from rfl,
          ratio_lt_one (by norm_num) (by norm_num)] at this
        omega
  · intro b r t h c o sched hb
    rw [Ne, shrinkTo_ok_iff]
    rintro (h' | h')
    · omega
    · obtain ⟨band, hm, _⟩ := Inv.shape_band
        (inv_run (C := HashSetContainer Nat) (T := Nat) (Id := Nat) h b r t []).shapes hb
      have := h' band hm
      have hb' : band ∈ (MinHashIndex.newIndex b r t h : MinHashIndex Nat Nat (HashSetContainer Nat)).bands := hm
      simp only [MinHashIndex.newIndex, List.mem_map] at hb'
      obtain ⟨i, _, rfl⟩ := hb'
      rw [show (After (HashSetContainer Nat) b r t h ([] : List (Op Nat Nat))).idSignatures.len = 0 from rfl,
          show (Band.new (i * r) ((i + 1) * r) h : Band Nat (HashSetContainer Nat)).hashTable.len = 0 from rfl,
          ratio_lt_one (by norm_num) (by norm_num)] at this
      omega

/-! ## C33 -/

/-- C33: after the same history without overwriting (and with `bulk_remove` naming distinct present ids) all
containers give the same query answers. -/
theorem C33_containers {C' : Type} [IdContainer C' Id] [LawfulIdContainer C' Id] (b r : Nat) (t : Fl)
    (h : List T → UInt64) (ops : List (Op T Id)) (hc : Clean (b * r) ops) (q : List T) :
    ((∃ res, (After C b r t h ops).query q = .ok res) ↔ ∃ res, (After C' b r t h ops).query q = .ok res) ∧
    ∀ res res', (After C b r t h ops).query q = .ok res → (After C' b r t h ops).query q = .ok res' →
      ∀ id, id ∈ res.elems ↔ id ∈ res'.elems :=
  C18_history_independent b r t h ops ops q hc hc rfl

/-- The hypothesis is met by the clean example history; the two queries return. -/
example : Clean (2 * 1) exClean ∧
    ((After (VecContainer Nat) 2 1 (.fin (1 / 2)) exHash exClean).query [3, 0]).map HSet.elems = .ok [2] ∧
    ((After (HashSetContainer Nat) 2 1 (.fin (1 / 2)) exHash exClean).query [3, 0]).map HSet.elems = .ok [2] :=
  ⟨exClean_clean, by decide +kernel, by decide +kernel⟩

/-- C33 spelled out for the three containers of the crate and right-length histories. -/
theorem C33_three_containers (N : Nat) (b r : Nat) (t : Fl) (h : List T → UInt64) (ops : List (Op T Id))
    (hc : Clean (b * r) ops) (hl : RightLengths (b * r) ops) (q : List T) (hq : q.length = b * r) :
    ∃ r1 r2 r3, (After (HashSetContainer Id) b r t h ops).query q = .ok r1 ∧
      (After (VecContainer Id) b r t h ops).query q = .ok r2 ∧
      (After (SmallVecContainer Id N) b r t h ops).query q = .ok r3 ∧
      ∀ id, (id ∈ r1.elems ↔ id ∈ r2.elems) ∧ (id ∈ r1.elems ↔ id ∈ r3.elems) := by
  obtain ⟨r1, h1, _⟩ := C17_query_returns (C := HashSetContainer Id) b r t h ops q hl hq
  obtain ⟨r2, h2, _⟩ := C17_query_returns (C := VecContainer Id) b r t h ops q hl hq
  obtain ⟨r3, h3, _⟩ := C17_query_returns (C := SmallVecContainer Id N) b r t h ops q hl hq
  exact ⟨r1, r2, r3, h1, h2, h3, fun id => ⟨(C33_containers b r t h ops hc q).2 r1 r2 h1 h2 id,
    (C33_containers b r t h ops hc q).2 r1 r3 h1 h3 id⟩⟩

/-- The hypotheses are met by a history that removes and re-inserts. -/
example : Clean 2 ([.insert 1 [1, 2], .remove 1, .insert 1 [3, 4]] : List (Op Nat Nat)) ∧
    RightLengths 2 ([.insert 1 [1, 2], .remove 1, .insert 1 [3, 4]] : List (Op Nat Nat)) := by
  constructor
  · apply clean_of_prefixes
    intro i hi op hop
    have hi' : i < 3 := hi
    interval_cases i <;> simp at hop <;> subst hop <;> simp [cleanCall] <;> decide
  · intro op hop s hs
    simp at hop
    rcases hop with rfl | rfl | rfl <;> simp [sigsOf] at hs <;> subst hs <;> rfl

/-- Similarity of the signatures of the next two examples. -/
theorem sim_half' : minhashSimilarity ([1, 3] : List Nat) [1, 2] = .ok (.fin (1 / 2)) := by
  rw [minhashSimilarity_eq (by rfl) (by simp) (by simp)]
  have e : ((agree ([1, 3] : List Nat) [1, 2] : ℕ) : ℚ) / (([1, 3] : List Nat).length : ℚ) = 1 / 2 := by
    have : agree ([1, 3] : List Nat) [1, 2] = 1 := by decide
    rw [this]; norm_num
  rw [e]
  have hr : Repr b64 (1 / 2) := ⟨1, -1, by norm_num, by simp [b64], by simp [b64]⟩
  rw [rndQ_of_repr (by simp [b64]) hr]

/-- Both conditions of C33 are needed: with an overwriting insert, and with a `bulk_remove` naming an unknown
id, `VecContainer` finds a document that `HashSetContainer` does not find. -/
theorem C33_conditions_needed :
    ∀ ops ∈ ([[.insert 1 [1, 2], .insert 1 [1, 2], .remove 1, .insert 1 [1, 3]],
              [.insert 1 [1, 2], .bulkRemove [9, 1] [], .insert 1 [1, 2], .remove 1, .insert 1 [1, 3]]] :
              List (List (Op Nat Nat))),
      (After (HashSetContainer Nat) 1 2 (.fin (1 / 2)) exHash ops).query [1, 2] = .ok HSet.empty ∧
      ∃ res, (After (VecContainer Nat) 1 2 (.fin (1 / 2)) exHash ops).query [1, 2] = .ok res ∧ 1 ∈ res.elems := by
  intro ops hops
  have hlive : live (1 * 2) ops 1 = some [1, 3] := by
    simp at hops; rcases hops with rfl | rfl <;> decide
  have hl : RightLengths (1 * 2) ops := by
    intro op hop s hs
    simp at hops
    rcases hops with rfl | rfl <;> simp at hop
    · rcases hop with rfl | rfl | rfl <;> simp [sigsOf] at hs <;> subst hs <;> rfl
    · rcases hop with rfl | rfl | rfl | rfl | rfl <;> simp [sigsOf] at hs <;> subst hs <;> rfl
  have hcand : ∃ band ∈ (After (VecContainer Nat) 1 2 (.fin (1 / 2)) exHash ops).bands,
      1 ∈ band.bucket (band.key [1, 2]) := by
    simp at hops
    rcases hops with rfl | rfl <;> exact ⟨_, List.mem_cons_self, by decide⟩
  refine ⟨?_, ?_⟩
  · simp at hops
    rcases hops with rfl | rfl <;> rfl
  · obtain ⟨res, hres, _⟩ := C17_query_returns (C := VecContainer Nat) 1 2 (.fin (1 / 2)) exHash ops [1, 2] hl rfl
    refine ⟨res, hres, ?_⟩
    rw [(query_mem (inv_run exHash 1 2 (.fin (1 / 2)) ops) hres).2 1]
    exact ⟨hcand, [1, 3], _, hlive, sim_half', by rw [ge_fin]⟩

/-! ## C34 -/

theorem bands_get {b r : Nat} {t : Fl} {h : List T → UInt64} {L} {idx : MinHashIndex T Id C}
    (I : Inv h b r t L idx) {i : Nat} (hi : i < b) :
    ∃ band, idx.bands[i]? = some band ∧ band ∈ idx.bands ∧ band.shape = (i * r, (i + 1) * r, h) := by
  have hlen : idx.bands.length = b := by
    have := congrArg List.length I.shapes
    simpa using this
  have hi' : i < idx.bands.length := by omega
  refine ⟨idx.bands[i], by simp [hi'], List.getElem_mem hi', ?_⟩
  have := congrArg (fun l => l[i]?) I.shapes
  simp only [List.getElem?_map] at this
  simp [hi', hi] at this
  exact this

theorem table_len {L : Id → Option (List T)} {band : Band T C} (E : BandExact L band) (K : List UInt64)
    (hK : K.Nodup) (hmem : ∀ k, k ∈ K ↔ ∃ id s, L id = some s ∧ band.key s = k) :
    band.hashTable.len = K.length := by
  rw [HMap.len_eq_keys]
  apply List.Perm.length_eq
  rw [List.perm_ext_iff_of_nodup (HMap.keys_nodup _) hK]
  intro k
  rw [hmem, HMap.mem_keys_iff]
  constructor
  · rintro ⟨c, hc⟩
    obtain ⟨x, hx⟩ := List.exists_mem_of_ne_nil _ (E.nonempty k c hc)
    obtain ⟨s, h1, h2⟩ := (E.mem k x).mp (by unfold Band.bucket; rw [hc]; exact hx)
    exact ⟨x, s, h1, h2⟩
  · rintro ⟨x, s, h1, h2⟩
    have := (E.mem k x).mpr ⟨s, h1, h2⟩
    unfold Band.bucket at this
    cases hc : band.hashTable.get? k with
    | none => rw [hc] at this; simp at this
    | some c => exact ⟨c, rfl⟩

theorem bandSizes_ok {idx : MinHashIndex T Id C} {st : BandStats} (h : idx.bandSizes = .ok st) :
    st.sizes = idx.bands.map (fun band => band.hashTable.len) ∧ st.maxSize ∈ st.sizes ∧ st.minSize ∈ st.sizes ∧
      ∀ n ∈ st.sizes, st.minSize ≤ n ∧ n ≤ st.maxSize := by
  unfold MinHashIndex.bandSizes at h
  simp only at h
  generalize (idx.bands.map fun band => band.hashTable.len) = sizes at h
  have hmax := maxBy_spec (fun n : Nat => n) sizes
  have hmin := minBy_spec (fun n : Nat => n) sizes
  obtain ⟨mx, h1, h⟩ := bind_ok h
  obtain ⟨mn, h2, h⟩ := bind_ok h
  cases h
  have e1 : maxBy (fun x y : Nat => compare x y) sizes = some mx := by
    cases hh : maxBy (fun x y : Nat => compare x y) sizes with
    | none => rw [show maxBy compare sizes = none from hh] at h1; cases h1
    | some a => rw [show maxBy compare sizes = some a from hh] at h1; cases h1; rfl
  have e2 : minBy (fun x y : Nat => compare x y) sizes = some mn := by
    cases hh : minBy (fun x y : Nat => compare x y) sizes with
    | none => rw [show minBy compare sizes = none from hh] at h2; cases h2
    | some a => rw [show minBy compare sizes = some a from hh] at h2; cases h2; rfl
  have a1 := hmax.2 mx e1
  have a2 := hmin.2 mn e2
  exact ⟨rfl, a1.1, a2.1, fun n hn => ⟨a2.2 n hn, a1.2 n hn⟩⟩

theorem bandSizes_returns {idx : MinHashIndex T Id C} (h : idx.bands ≠ []) : ∃ st, idx.bandSizes = .ok st := by
  unfold MinHashIndex.bandSizes
  simp only
  have hne : (idx.bands.map fun band => band.hashTable.len) ≠ [] := by simpa using h
  generalize (idx.bands.map fun band => band.hashTable.len) = sizes at hne
  cases sizes with
  | nil => exact absurd rfl hne
  | cons a l => exact ⟨_, rfl⟩

/-- C34: after a clean history `band_sizes` reports, for every band, exactly the number of distinct band keys of
the present signatures (and their minimum and maximum). -/
theorem C34_band_sizes (b r : Nat) (t : Fl) (h : List T → UInt64) (ops : List (Op T Id)) (hb : 0 < b)
    (hc : Clean (b * r) ops) :
    ∃ st, (After C b r t h ops).bandSizes = .ok st ∧ st.sizes.length = b ∧
      (st.maxSize ∈ st.sizes ∧ st.minSize ∈ st.sizes ∧ ∀ n ∈ st.sizes, st.minSize ≤ n ∧ n ≤ st.maxSize) ∧
      ∀ i < b, ∀ K : List UInt64, K.Nodup →
        (∀ k, k ∈ K ↔ ∃ id s, live (b * r) ops id = some s ∧ h (bandOf r s i) = k) →
        st.sizes[i]? = some K.length := by
  have I := inv_run (C := C) h b r t ops
  have E := exact_run (C := C) h b r t ops hc
  have hlen : (After C b r t h ops).bands.length = b := by
    have := congrArg List.length I.shapes
    simpa using this
  obtain ⟨st, hst⟩ := bandSizes_returns (idx := After C b r t h ops) (by
    intro hnil; rw [hnil] at hlen; simp at hlen; omega)
  obtain ⟨h1, h2⟩ := bandSizes_ok hst
  refine ⟨st, hst, by rw [h1]; simp [hlen], h2, ?_⟩
  intro i hi K hK hmem
  obtain ⟨band, g1, g2, g3⟩ := bands_get I hi
  rw [h1, List.getElem?_map, g1, Option.map_some, table_len (E band g2) K hK]
  intro k
  rw [hmem]
  simp only [key_of_shape g3]

example : Clean (2 * 1) exClean ∧
    (After (VecContainer Nat) 2 1 (.fin 0) exHash exClean).bandSizes = .ok ⟨2, 2, [2, 2]⟩ :=
  ⟨exClean_clean, by decide +kernel⟩

/-- C34: no bucket is empty, and a bucket holds exactly the present ids with that band key, once each. -/
theorem C34_buckets (b r : Nat) (t : Fl) (h : List T → UInt64) (ops : List (Op T Id)) (hc : Clean (b * r) ops)
    (i : Nat) (hi : i < b) :
    ∃ band, (After C b r t h ops).bands[i]? = some band ∧ ∀ k c, band.hashTable.get? k = some c →
      IdContainer.len c ≠ 0 ∧ (IdContainer.ids c).Nodup ∧
      ∀ id, id ∈ IdContainer.ids c ↔ ∃ s, live (b * r) ops id = some s ∧ h (bandOf r s i) = k := by
  have I := inv_run (C := C) h b r t ops
  have E := exact_run (C := C) h b r t ops hc
  obtain ⟨band, g1, g2, g3⟩ := bands_get I hi
  refine ⟨band, g1, fun k c hk => ⟨?_, ?_, ?_⟩⟩
  · rw [Ne, LawfulIdContainer.len_eq_zero]; exact (E band g2).nonempty k c hk
  · have := (E band g2).nodup k
    unfold Band.bucket at this
    rw [hk] at this; exact this
  · intro id
    have := (E band g2).mem k id
    unfold Band.bucket at this
    rw [hk] at this
    simp only [key_of_shape g3] at this
    exact this

example : Clean (2 * 1) exClean ∧ live 2 exClean 2 = some [3, 4] ∧
    ∃ band, (After (VecContainer Nat) 2 1 (.fin 0) exHash exClean).bands[1]? = some band ∧
      (band.hashTable.get? (exHash [4])).map VecContainer.vec = some [2] :=
  ⟨exClean_clean, by decide, _, rfl, by decide +kernel⟩

/-- C34: when every id has been removed all bands are empty. -/
theorem C34_all_removed (b r : Nat) (t : Fl) (h : List T → UInt64) (ops : List (Op T Id)) (hb : 0 < b)
    (hc : Clean (b * r) ops) (hall : ∀ id, live (b * r) ops id = none) :
    (After C b r t h ops).bandSizes = .ok ⟨0, 0, List.replicate b 0⟩ := by
  obtain ⟨st, h1, h2, h3, h4⟩ := C34_band_sizes (C := C) b r t h ops hb hc
  have hs : st.sizes = List.replicate b 0 := by
    apply List.ext_getElem?
    intro i
    by_cases hi : i < b
    · rw [h4 i hi [] List.nodup_nil (by intro k; simp [hall])]
      simp [hi]
    · rw [List.getElem?_eq_none (by omega), List.getElem?_eq_none (by simp; omega)]
  have hm : st.maxSize = 0 := by have := h3.1; rw [hs] at this; exact List.eq_of_mem_replicate this
  have hn : st.minSize = 0 := by have := h3.2.1; rw [hs] at this; exact List.eq_of_mem_replicate this
  rw [h1]
  obtain ⟨a, b', c⟩ := st
  simp only at hs hm hn
  subst hs hm hn
  rfl

/-- The hypotheses of C34 are met by a history that inserts, bulk-removes and removes. -/
example : Clean 2 ([.insert 1 [1, 2], .insert 2 [1, 3], .bulkRemove [2] [], .remove 1] : List (Op Nat Nat)) ∧
    ∀ id, live 2 ([.insert 1 [1, 2], .insert 2 [1, 3], .bulkRemove [2] [], .remove 1] : List (Op Nat Nat)) id = none := by
  constructor
  · apply clean_of_prefixes
    intro i hi op hop
    have hi' : i < 4 := hi
    interval_cases i <;> simp at hop <;> subst hop <;> simp [cleanCall] <;> decide
  · intro id
    by_cases h1 : id = 1
    · subst h1; rfl
    · by_cases h2 : id = 2
      · subst h2; rfl
      · have h1' : ¬ 1 = id := fun e => h1 e.symm
        have h2' : ¬ 2 = id := fun e => h2 e.symm
        simp [live, touch, h1, h2, h1', h2']

/-- C32, the part that holds: with tables of at most 2^53 entries, `shrink_to` returns iff the requested
capacity exceeds the current one or every band has fewer buckets than there are documents. Missing from the
claim: the other states, where it panics. -/
theorem C32_shrink_to_partial (b r : Nat) (t : Fl) (h : List T → UInt64) (ops : List (Op T Id)) (st : BandStats)
    (hst : (After C b r t h ops).bandSizes = .ok st) (h1 : st.maxSize ≤ 2 ^ 53)
    (h2 : (After C b r t h ops).size ≤ 2 ^ 53) (o : Order) (m c : Nat) (sched : List Nat) :
    ((After C b r t h ops).shrinkTo o m c sched).2 = .ok () ↔
      c < m ∨ st.maxSize < (After C b r t h ops).size := by
  obtain ⟨e1, e2, _, e4⟩ := bandSizes_ok hst
  have h2' : (After C b r t h ops).idSignatures.len ≤ 2 ^ 53 := h2
  rw [shrinkTo_ok_iff]
  refine or_congr_right ?_
  constructor
  · intro hall
    rw [e1] at e2
    obtain ⟨band, hb, e⟩ := List.mem_map.mp e2
    have := hall band hb
    rw [e, ratio_lt_one h1 h2'] at this
    exact this
  · intro hlt band hb
    have := (e4 _ (by rw [e1]; exact List.mem_map_of_mem hb)).2
    rw [ratio_lt_one (this.trans h1) h2']
    exact lt_of_le_of_lt this hlt

/-- The hypotheses are met on both sides: two documents sharing every band key can be shrunk, two others cannot. -/
example : (After (VecContainer Nat) 1 2 (.fin 0) exHash [.insert 1 [1, 2], .insert 2 [1, 2]]).bandSizes
      = .ok ⟨1, 1, [1]⟩ ∧
    (After (VecContainer Nat) 1 2 (.fin 0) exHash [.insert 1 [1, 2], .insert 2 [1, 2]]).size = 2 ∧
    (After (VecContainer Nat) 1 2 (.fin 0) exHash [.insert 1 [1, 2], .insert 2 [1, 3]]).bandSizes
      = .ok ⟨2, 2, [2]⟩ := by decide +kernel

/-- C32 for clean histories in terms of the documents: `shrink_to` returns iff the capacity is not reached or
in every band two different present documents share their band key. -/
theorem C32_shrink_to_clean_partial (b r : Nat) (t : Fl) (h : List T → UInt64) (ops : List (Op T Id))
    (hc : Clean (b * r) ops) (h2 : (After C b r t h ops).size ≤ 2 ^ 53) (o : Order) (m c : Nat)
    (sched : List Nat) :
    ((After C b r t h ops).shrinkTo o m c sched).2 = .ok () ↔
      c < m ∨ ∀ i < b, ∃ id id' s s', id ≠ id' ∧ live (b * r) ops id = some s ∧ live (b * r) ops id' = some s' ∧
        h (bandOf r s i) = h (bandOf r s' i) := by
  have I := inv_run (C := C) h b r t ops
  have E := exact_run (C := C) h b r t ops hc
  have h2' : (After C b r t h ops).idSignatures.len ≤ 2 ^ 53 := h2
  rw [shrinkTo_ok_iff]
  refine or_congr_right ?_
  -- the present ids with their signatures
  have key : ∀ i (band : Band T C), band ∈ (After C b r t h ops).bands → band.shape = (i * r, (i + 1) * r, h) →
      (band.hashTable.len ≤ (After C b r t h ops).idSignatures.len ∧
      (band.hashTable.len < (After C b r t h ops).idSignatures.len ↔
        ∃ id id' s s', id ≠ id' ∧ live (b * r) ops id = some s ∧ live (b * r) ops id' = some s' ∧
          h (bandOf r s i) = h (bandOf r s' i))) := by
    intro i band hb hs
    set ks := (After C b r t h ops).idSignatures.entries.map (fun p => h (bandOf r p.2 i)) with hks
    have hlen : band.hashTable.len = ks.dedup.length := by
      apply table_len (E band hb) _ (List.nodup_dedup _)
      intro k
      rw [List.mem_dedup, hks, List.mem_map]
      constructor
      · rintro ⟨p, hp, rfl⟩
        refine ⟨p.1, p.2, ?_, key_of_shape hs p.2⟩
        rw [← I.sigs, HMap.get?_eq_some_iff]; exact hp
      · rintro ⟨id, s, h1, rfl⟩
        refine ⟨(id, s), ?_, (key_of_shape hs s).symm⟩
        rw [← HMap.get?_eq_some_iff]; exact (I.sigs id).trans h1
    have hkl : ks.length = (After C b r t h ops).idSignatures.len := by
      rw [hks, List.length_map]; rfl
    have hle : ks.dedup.length ≤ ks.length := (List.dedup_sublist ks).length_le
    refine ⟨by omega, ?_⟩
    rw [hlen, ← hkl]
    have hiff : ks.dedup.length < ks.length ↔ ¬ ks.Nodup := by
      constructor
      · intro hlt hnd
        rw [List.dedup_eq_self.mpr hnd] at hlt
        omega
      · intro hnd
        by_contra hge
        apply hnd
        have : ks.dedup = ks := (List.dedup_sublist ks).eq_of_length (by omega)
        exact List.dedup_eq_self.mp this
    rw [hiff]
    have hnd := (After C b r t h ops).idSignatures.nodup
    constructor
    · intro hn
      by_contra hno
      apply hn
      rw [hks]
      have hnd' : ((After C b r t h ops).idSignatures.entries).Nodup := List.Nodup.of_map _ hnd
      refine (List.nodup_map_iff_inj_on hnd').mpr ?_
      intro p hp p' hp' e
      by_contra hne
      apply hno
      have g1 : live (b * r) ops p.1 = some p.2 := by
        rw [← I.sigs, HMap.get?_eq_some_iff]; exact hp
      have g2 : live (b * r) ops p'.1 = some p'.2 := by
        rw [← I.sigs, HMap.get?_eq_some_iff]; exact hp'
      refine ⟨p.1, p'.1, p.2, p'.2, ?_, g1, g2, e⟩
      intro e1
      rw [e1, g2] at g1
      injection g1 with g1
      exact hne (Prod.ext e1 g1.symm)
    · rintro ⟨id, id', s, s', hne, g1, g2, e⟩ hn
      rw [← I.sigs, HMap.get?_eq_some_iff] at g1 g2
      have := List.inj_on_of_nodup_map hn g1 g2 e
      exact hne (congrArg Prod.fst this)
  constructor
  · intro hall i hi
    obtain ⟨band, _, g2, g3⟩ := bands_get I hi
    have k := key i band g2 g3
    have := hall band g2
    rw [ratio_lt_one (k.1.trans h2') h2'] at this
    exact k.2.mp this
  · intro hall band hb
    obtain ⟨i, hi, hs⟩ := Inv.band_shape I.shapes hb
    have k := key i band hb hs
    rw [ratio_lt_one (k.1.trans h2') h2']
    exact k.2.mpr (hall i hi)

example : Clean (2 * 1) exClean ∧ (After (VecContainer Nat) 2 1 (.fin 0) exHash exClean).size ≤ 2 ^ 53 :=
  ⟨exClean_clean, by decide +kernel⟩

end Verif.Props
