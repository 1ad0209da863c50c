import Verif.Props.PythonContent
import Verif.Props.PythonSim

/-! # Property C89: the methods of the native Python classes that take tokens or batches of queries -/
namespace Verif.Props
open Verif.Spec

/-! ## MinHash -/
section
variable {T C : Type} [DecidableEq T] [PyHasher T] [LawfulPyHasher T] [IdContainer C Int64] [LawfulIdContainer C Int64]

omit [DecidableEq T] [LawfulPyHasher T] [IdContainer C Int64] [LawfulIdContainer C Int64] in
theorem bulkCreate_tokens (c : List PyTok → Except Panic (List T)) (G : List PyText → List T)
    (hG : ∀ toks, c (pyTokens toks) = .ok (G toks)) (tss : List (List PyText)) (s : List Nat) :
    bulkCreateSignature c (tss.map pyTokens) s = .ok (tss.map G) := by
  unfold bulkCreateSignature
  rw [parMap_eq_map, PyMinIndex.mapM_id_map, PyMinIndex.mapM_map_ok]
  exact PyMinIndex.mapM_except fun toks _ => hG toks

theorem tokens_native {env : PyMinEnv} {b r : Nat} {t : Fl} {ah : List T → UInt64} {ops : List (Op T Int64)}
    {na : PyMinHash T C} (hin : na.inner = After C b r t ah ops)
    (hmh : na.minHash = PyHasher.new env.rng (b * r) env.hash) (ids : List Int64) (tss : List (List PyText))
    (s1 s2 : List Nat) :
    na.parBulkInsertTokens ids tss s1 s2 =
      ((ids.zip tss).foldl (fun st p => (st.insertTokens p.1 p.2).1) na, .ok ()) ∧
    na.bulkInsertTokens (ids.zip tss) =
      ((ids.zip tss).foldl (fun st p => (st.insertTokens p.1 p.2).1) na, .ok ()) := by
  have hc : ∀ toks : List PyText, ∃ s : List T, PyHasher.create na.minHash (pyTokens toks) = .ok s ∧
      s.length = b * r := by
    intro toks
    obtain ⟨s, e, hl⟩ := LawfulPyHasher.create_new (T := T) env.rng (b * r) env.hash (pyTokens toks)
    exact ⟨s, by rw [hmh]; exact e, hl⟩
  choose G hG using hc
  have hseq : ∀ (ps : List (Int64 × List PyText)) (ops : List (Op T Int64)) (na' : PyMinHash T C),
      na'.minHash = na.minHash → na'.inner = After C b r t ah ops →
      ps.foldl (fun st p => (st.insertTokens p.1 p.2).1) na' =
        { na' with inner := After C b r t ah (ops ++ ps.map fun p => .insert p.1 (G p.2)) } := by
    intro ps
    induction ps with
    | nil => intro ops na' _ h; rw [List.map_nil, List.append_nil, ← h]; rfl
    | cons p ps ih =>
      intro ops na' hm h
      have h1 : (na'.insertTokens p.1 p.2).1 = { na' with inner := After C b r t ah (ops ++ [.insert p.1 (G p.2)]) } := by
        unfold PyMinHash.insertTokens
        rw [hm, (hG p.2).1]
        simp only
        rw [h, After.insert ops p.1 _ (hG p.2).2]
      rw [List.foldl_cons, h1,
        ih (ops ++ [.insert p.1 (G p.2)]) { na' with inner := After C b r t ah (ops ++ [.insert p.1 (G p.2)]) } hm rfl]
      simp only [List.append_assoc, List.map_cons, List.singleton_append]
  rw [hseq _ ops na rfl hin]
  constructor
  · unfold PyMinHash.parBulkInsertTokens
    rw [bulkCreate_tokens _ G (fun toks => (hG toks).1)]
    simp only
    rw [hin, C26_bulk b r t ah ops ids (tss.map G) (by
      intro s hs
      obtain ⟨x, _, rfl⟩ := List.mem_map.mp hs
      exact (hG x).2) s2, List.zip_map_right, List.map_map]
    rfl
  · exact PyMinIndex.bulkInsertTokens_eq G (ids.zip tss) hin hmh fun p _ => (hG p.2).1

omit [LawfulIdContainer C Int64] in
theorem queryTokens_native {env : PyMinEnv} {n : Nat} {na : PyMinHash T C}
    (hmh : na.minHash = PyHasher.new env.rng n env.hash) (tss : List (List PyText)) (o1 o2 : Order) (s1 s2 : List Nat) :
    na.parBulkQueryTokens o1 tss s1 s2 = tss.mapM (na.queryTokens o1) ∧
    na.parBulkQueryTokensReturnSimilarity o1 o2 tss s1 s2 = tss.mapM (na.queryTokensReturnSimilarity o1 o2) := by
  have hc : ∀ toks : List PyText, ∃ s : List T, PyHasher.create na.minHash (pyTokens toks) = .ok s := by
    intro toks
    obtain ⟨s, e, _⟩ := LawfulPyHasher.create_new (T := T) env.rng n env.hash (pyTokens toks)
    exact ⟨s, by rw [hmh]; exact e⟩
  choose G hG using hc
  have e1 : na.queryTokens o1 = fun toks => (na.inner.queryOwned (G toks)).map fun set => o1.perm set.elems := by
    funext toks
    unfold PyMinHash.queryTokens
    rw [hG]
    simp only [bind, Except.bind]
    cases na.inner.queryOwned (G toks) <;> rfl
  have e2 : na.queryTokensReturnSimilarity o1 o2 = fun toks => na.inner.queryOwnedReturnSimilarity o1 o2 (G toks) := by
    funext toks
    unfold PyMinHash.queryTokensReturnSimilarity
    rw [hG]
    rfl
  rw [e1, e2]
  unfold PyMinHash.parBulkQueryTokens PyMinHash.parBulkQueryTokensReturnSimilarity
  rw [bulkCreate_tokens _ G hG]
  simp only [bind, Except.bind]
  unfold MinHashIndex.parBulkQuery MinHashIndex.parBulkQueryReturnSimilarity
  rw [parMap_eq_map, PyMinIndex.mapM_id_map, PyMinIndex.mapM_map_ok, parMap_eq_map, PyMinIndex.mapM_id_map,
    PyMinIndex.mapM_map_ok]
  refine ⟨?_, rfl⟩
  induction tss with
  | nil => rfl
  | cons x tss ih =>
    rw [List.mapM_cons, List.mapM_cons, ← ih]
    cases na.inner.queryOwned (G x) with
    | error e => rfl
    | ok s =>
      cases tss.mapM fun a => na.inner.queryOwned (G a) with
      | error e => rfl
      | ok l => rfl
end

/-- C89, MinHash: after every history, `par_bulk_insert_tokens` and `bulk_insert_tokens` leave the index that
`insert_tokens`, called once per pair, leaves; nothing panics. -/
theorem C89_minhash_insert (env : PyMinEnv) (ahash : (h : HashSize) → List h.T → UInt64) (a : PyMinArgs)
    (obj : PyMinObject) (h : PyMinObject.init env ahash a = .ok obj) (pre : List PyMinOp) (ids : List Int64)
    (tss : List (List PyText)) (s1 s2 : List Nat) :
    (obj.index.run env pre).native.parBulkInsertTokens ids tss s1 s2 =
      ((ids.zip tss).foldl (fun st p => (st.insertTokens p.1 p.2).1) (obj.index.run env pre).native, .ok ()) ∧
    (obj.index.run env pre).native.bulkInsertTokens (ids.zip tss) =
      ((ids.zip tss).foldl (fun st p => (st.insertTokens p.1 p.2).1) (obj.index.run env pre).native, .ok ()) := by
  obtain ⟨b, r, _, hrep, _⟩ := init_rep h
  obtain ⟨ops', h1, _⟩ := PyMinIndex.run_rep pre hrep
  exact tokens_native h1.inner h1.hasher ids tss s1 s2

/-- C89, MinHash: the batch queries for tokens are the lists of the single queries. -/
theorem C89_minhash_query (env : PyMinEnv) (ahash : (h : HashSize) → List h.T → UInt64) (a : PyMinArgs)
    (obj : PyMinObject) (h : PyMinObject.init env ahash a = .ok obj) (pre : List PyMinOp)
    (tss : List (List PyText)) (o1 o2 : Order) (s1 s2 : List Nat) :
    (obj.index.run env pre).native.parBulkQueryTokens o1 tss s1 s2 =
      tss.mapM ((obj.index.run env pre).native.queryTokens o1) ∧
    (obj.index.run env pre).native.parBulkQueryTokensReturnSimilarity o1 o2 tss s1 s2 =
      tss.mapM ((obj.index.run env pre).native.queryTokensReturnSimilarity o1 o2) := by
  obtain ⟨b, r, _, hrep, _⟩ := init_rep h
  obtain ⟨ops', h1, _⟩ := PyMinIndex.run_rep pre hrep
  exact queryTokens_native h1.hasher tss o1 o2 s1 s2

/-! ## SimHash -/
variable {w : Nat}

/-- C89, SimHash: in every state, `par_bulk_insert_tokens` does not panic and leaves the index that `insert_tokens`,
called once per pair, leaves, up to the iteration order of the signature map. -/
theorem C89_simhash_insert (env : PySimEnv w) (st : PySimHash w) (ids : List Int64) (tss : List (List PyText))
    (o : Order) (s1 s2 : List Nat) :
    (st.parBulkInsertTokens env o ids tss s1 s2).2 = .ok () ∧
    ((ids.zip tss).foldl (fun st p => (st.insertTokens env p.1 p.2).1) st).lowercase =
      (st.parBulkInsertTokens env o ids tss s1 s2).1.lowercase ∧
    ((ids.zip tss).foldl (fun st p => (st.insertTokens env p.1 p.2).1) st).tokenizer =
      (st.parBulkInsertTokens env o ids tss s1 s2).1.tokenizer ∧
    SimSame (st.parBulkInsertTokens env o ids tss s1 s2).1.inner
      ((ids.zip tss).foldl (fun st p => (st.insertTokens env p.1 p.2).1) st).inner := by
  have hseq : ∀ (ps : List (Int64 × List PyText)) (st' : PySimHash w),
      ps.foldl (fun st p => (st.insertTokens env p.1 p.2).1) st' =
        { st' with inner := st'.inner.run (ps.map fun p => .insert p.1 (PySimHash.createSignature env (pyTokens p.2))) } := by
    intro ps
    induction ps with
    | nil => intro st'; rfl
    | cons p ps ih => intro st'; rw [List.foldl_cons, ih]; rfl
  rw [hseq]
  unfold PySimHash.parBulkInsertTokens
  simp only
  rw [parMap_eq_map]
  obtain ⟨h1, h2⟩ := C55_bulk_insert st.inner ids
    (tss.map fun tokens => PySimHash.createSignature env (pyTokens tokens)) o s2
  refine ⟨h1, trivial, trivial, ?_⟩
  rw [List.zip_map_right, List.map_map] at h2
  exact h2

/-- C89, SimHash: the batch queries are the lists of the single queries, provided that no document makes the
tokenizer panic. -/
theorem C89_simhash_query (env : PySimEnv w) (st : PySimHash w) (docs : List PyText)
    (hd : ∀ d ∈ docs, ∃ s, st.doc2signature env d = .ok s) (o1 o2 : Order) (s1 s2 : List Nat) :
    st.parBulkQuery env o1 docs s1 s2 = docs.mapM (st.query env o1) ∧
    st.parBulkQueryReturnDistance env o1 o2 docs s1 s2 = docs.mapM (st.queryReturnDistance env o1 o2) := by
  have hF : ∃ F : PyText → BitVec w, ∀ d ∈ docs, st.doc2signature env d = .ok (F d) := by
    classical
    refine ⟨fun d => if h : d ∈ docs then (hd d h).choose else 0, fun d h => ?_⟩
    simp only [h, dif_pos]
    exact (hd d h).choose_spec
  obtain ⟨F, hF⟩ := hF
  unfold PySimHash.parBulkQuery PySimHash.parBulkQueryReturnDistance PySimHash.parBulkDoc2signatures
  rw [PySimHash.mapM_doc2signature env F docs st hF]
  simp only [bind, Except.bind]
  rw [(C55_bulk_query st.inner (docs.map F) o1 o2 s2).1, (C55_bulk_query st.inner (docs.map F) o1 o2 s2).2,
    PyMinIndex.mapM_map_ok, PyMinIndex.mapM_map_ok]
  clear hd
  induction docs with
  | nil => exact ⟨rfl, rfl⟩
  | cons d docs ih =>
    obtain ⟨i1, i2⟩ := ih fun x hx => hF x (by simp [hx])
    constructor
    · rw [List.mapM_cons, List.mapM_cons, ← i1]
      unfold PySimHash.query
      rw [hF d (by simp)]
      simp only [bind, Except.bind]
      cases st.inner.query (F d) with
      | error e => rfl
      | ok s =>
        cases docs.mapM fun a => st.inner.query (F a) with
        | error e => rfl
        | ok l => rfl
    · rw [List.mapM_cons, List.mapM_cons, ← i2]
      unfold PySimHash.queryReturnDistance
      rw [hF d (by simp)]
      rfl

/-- C89, SimHash: the batch query for tokens gives the single answers of `query_tokens_return_distance`. -/
theorem C89_simhash_query_tokens (env : PySimEnv w) (st : PySimHash w) (tss : List (List PyText)) (o1 o2 : Order)
    (s1 s2 : List Nat) :
    st.parBulkQueryTokensReturnSimilarity env o1 o2 tss s1 s2 =
      tss.mapM (st.queryTokensReturnDistance env o1 o2) := by
  unfold PySimHash.parBulkQueryTokensReturnSimilarity
  rw [parMap_eq_map, (C55_bulk_query st.inner _ o1 o2 s2).2, PyMinIndex.mapM_map_ok]
  rfl

/-- The object of C89 exists, and the word analyzer meets the condition on documents. -/
example (env : PyMinEnv) (ahash : (h : HashSize) → List h.T → UInt64) (senv : PySimEnv w) (st : PySimHash w)
    (ht : st.tokenizer = .whiteSpace) (docs : List PyText) :
    (∃ obj, PyMinObject.init env ahash exArgs = .ok obj) ∧ ∀ d ∈ docs, ∃ s, st.doc2signature senv d = .ok s := by
  refine ⟨exArgs_ok env ahash, fun d _ => ?_⟩
  unfold PySimHash.doc2signature PySimHash.tokenizeAndSimhash
  rw [ht]
  split_ifs <;> exact ⟨_, rfl⟩

end Verif.Props
