import Verif.Lemmas.Display
import Verif.Props.Index
import Verif.Props.StringIndex
import Verif.Props.PythonContent

/-! # Property C114: printed forms -/
namespace Verif.Props
open Verif.Spec

section
variable {T Id C : Type} [DecidableEq T] [DecidableEq Id] [IdContainer C Id] [LawfulIdContainer C Id]

/-- C114: after every history the printed index shows its type, threshold, number of hashes, bands, rows, and the
number of present ids. -/
theorem C114_index (showFloat : Fl → Text) (ty : Text) (b r : Nat) (t : Fl) (h : List T → UInt64)
    (ops : List (Op T Id)) (ids : List Id) (hnd : ids.Nodup) (hmem : ∀ id, id ∈ ids ↔ live (b * r) ops id ≠ none) :
    IndexText ty (showFloat t) b r ids.length ((After C b r t h ops).display showFloat ty) := by
  have I := inv_run (C := C) h b r t ops
  have := (After C b r t h ops).display_text showFloat ty
  rwa [I.hb, I.hr, I.ht, C15_size b r t h ops ids hnd hmem] at this

/-- C114: two indexes that print alike have the same type of hash, a threshold that prints alike, the same bands, rows
and number of documents, whatever their histories, containers and hash functions. -/
theorem C114_unambiguous {T' Id' C' : Type} [DecidableEq T'] [DecidableEq Id'] [IdContainer C' Id']
    [LawfulIdContainer C' Id'] (showFloat : Fl → Text) (ty ty' : Text) (b r b' r' : Nat) (t t' : Fl)
    (h : List T → UInt64) (h' : List T' → UInt64) (ops : List (Op T Id)) (ops' : List (Op T' Id'))
    (hty : '>' ∉ ty) (hty' : '>' ∉ ty') (ht : ',' ∉ showFloat t) (ht' : ',' ∉ showFloat t')
    (e : (After C b r t h ops).display showFloat ty = (After C' b' r' t' h' ops').display showFloat ty') :
    ty = ty' ∧ showFloat t = showFloat t' ∧ b = b' ∧ r = r' ∧
      (After C b r t h ops).size = (After C' b' r' t' h' ops').size := by
  have I := inv_run (C := C) h b r t ops
  have I' := inv_run (C := C') h' b' r' t' ops'
  have k := (After C b r t h ops).display_text showFloat ty
  have k' := (After C' b' r' t' h' ops').display_text showFloat ty'
  rw [I.hb, I.hr, I.ht] at k
  rw [I'.hb, I'.hr, I'.ht] at k'
  obtain ⟨h1, h2, h3, h4, h5, _⟩ := indexText_unique (rest := []) (rest' := []) k k' hty hty' ht ht' (by rw [e])
  exact ⟨h1, h2, h3, h4, h5⟩

end

/-- A way to print thresholds, for the examples. -/
def exShowFloat : Fl → Text
  | .fin q => if q = 1 / 2 then "0.5".toList else if q = 1 then "1".toList else "0".toList
  | _ => "NaN".toList

/-- The text of a concrete index with two documents. -/
example : String.ofList ((After (HashSetContainer Nat) 2 1 (.fin (1 / 2)) exHash
    [.insert 1 [1, 2], .insert 2 [3, 4], .insert 1 [5, 6], .remove 2, .insert 7 [0, 0]]).display exShowFloat "u32".toList) =
    "MinHashIndex<u32> { threshold = 0.5, num_hashes = 2, bands = 2, rows_per_band = 1, size = 2 }" := by
  decide +kernel

/-- The hypotheses of `C114_unambiguous`. -/
example : '>' ∉ "u32".toList ∧ ',' ∉ exShowFloat (.fin (1 / 2)) := by decide +kernel

section
variable (g : Rng) (hash : Text → UInt64) (ah : List UInt64 → UInt64) (b r : Nat) (t : Fl)

/-- C114 for the string index: the size that is printed is the number of texts left, while `size` counts all texts
ever added. -/
theorem C114_string_index (showFloat : Fl → Text) (ops : List SOp) (hn : (texts ops).length < 2 ^ 64) :
    (∃ txt, (SAfter g hash ah b r t ops).display showFloat = "MinHashStringIndex { ".toList ++ txt ++ " } ".toList ∧
      IndexText "u64".toList (showFloat t) b r (survivors ops).length txt) ∧
    (SAfter g hash ah b r t ops).size = (texts ops).length := by
  obtain ⟨h0, P, ⟨K, J⟩, hP⟩ := holds_run (g := g) (hash := hash) (ah := ah) (b := b) (r := r) (t := t) ops hn
  refine ⟨⟨_, rfl, ?_⟩, h0⟩
  have k := (SAfter g hash ah b r t ops).lshIndex.display_text showFloat "u64".toList
  have hsize : (SAfter g hash ah b r t ops).lshIndex.size = (survivors ops).length := by
    unfold MinHashIndex.size
    rw [HMap.len_eq_keys, ← hP, List.length_map, ← List.length_map (f := Prod.fst)]
    apply List.Perm.length_eq
    have hnd : (P.map Prod.fst).Nodup := by
      rw [List.Nodup, List.pairwise_map]
      exact J.sorted.imp fun h e => by rw [e] at h; omega
    rw [List.perm_ext_iff_of_nodup (HMap.keys_nodup _) hnd]
    intro id
    rw [HMap.mem_keys_iff]
    simp only [K.inv.sigs]
    constructor
    · rintro ⟨v, hv⟩
      cases hl : lastPair P id with
      | none => rw [hl] at hv; cases hv
      | some x => exact List.mem_map.mpr ⟨_, lastPair_mem hl, rfl⟩
    · intro hm
      obtain ⟨p, hp, rfl⟩ := List.mem_map.mp hm
      cases hl : lastPair P p.1 with
      | none => exact absurd rfl (lastPair_none.mp hl _ hp)
      | some x => exact ⟨_, rfl⟩
  rwa [K.inv.hb, K.inv.hr, K.inv.ht, hsize] at k

/-- The two numbers differ after an insertion followed by a parallel load of one line. -/
example : (survivors [.insert ['a'], .loadFromFileParallel (some [some ['b']]) [] []]).length = 1 ∧
    (texts [.insert ['a'], .loadFromFileParallel (some [some ['b']]) [] []]).length = 2 := by decide

end

theorem typeName_ok (s : HashSize) : '>' ∉ s.typeName := by
  cases s <;> (unfold HashSize.typeName; simp only [String.reduceToList]; decide)

theorem typeName_inj {s s' : HashSize} (h : s.typeName = s'.typeName) : s = s' := by
  cases s <;> cases s' <;>
    first
    | rfl
    | (exfalso; revert h; unfold HashSize.typeName; simp only [String.reduceToList]; decide)

theorem hashSize_ofInt_inj {n m : Int} {s : HashSize} (h : HashSize.ofInt n = some s)
    (h' : HashSize.ofInt m = some s) : n = m := by
  unfold HashSize.ofInt at h h'
  split_ifs at h <;> split_ifs at h' <;> cases h <;> cases h' <;> omega

/-- C114 in Python: `str(index)` and `repr(index)` show the hash type, threshold, sizes, the number of ids that have a
document, and the tokenizer. -/
theorem C114_python (showFloat : Fl → Text) (env : PyMinEnv) (ahash : (h : HashSize) → List h.T → UInt64) (a : PyMinArgs)
    (obj : PyMinObject) (h : PyMinObject.init env ahash a = .ok obj) (b r : Nat) (hp : BandParams env a b r)
    (pops : List PyMinOp) (ha : AnalyzerReturns env a (pops.flatMap pyDocs)) (ids : List Int64) (hnd : ids.Nodup)
    (hmem : ∀ id, id ∈ ids ↔ pyLive pops id ≠ none) :
    ∃ txt, IndexText obj.hashSize.typeName (showFloat a.jaccardThreshold) b r ids.length txt ∧
      (obj.index.run env pops).str showFloat obj.hashSize.typeName = txt ++ " ".toList ++
        (TokenizerSpec.new (a.analyzer.nativeName.getD "word") a.range).debug := by
  obtain ⟨h1, h2, _⟩ := content_rep h hp pops ha
  obtain ⟨_, _, _, _, _, htok⟩ := init_rep h
  have hsize := C80_size env ahash a obj h pops ha ids hnd hmem
  refine ⟨(obj.index.run env pops).native.inner.display showFloat obj.hashSize.typeName, ?_, ?_⟩
  rotate_left
  · unfold PyMinIndex.str PyMinHash.str
    rw [h2.tokenizer, htok]
  · have I := inv_run (C := obj.container.C) (ahash obj.hashSize) b r a.jaccardThreshold
      (pops.flatMap (PyMinIndex.core (sigD env obj.index)))
    have k := (obj.index.run env pops).native.inner.display_text showFloat obj.hashSize.typeName
    have hs : (obj.index.run env pops).native.inner.size = ids.length := hsize
    have hb : (obj.index.run env pops).native.inner.b = b := by rw [h1.inner]; exact I.hb
    have hr : (obj.index.run env pops).native.inner.r = r := by rw [h1.inner]; exact I.hr
    have hT : (obj.index.run env pops).native.inner.threshold = a.jaccardThreshold := by rw [h1.inner]; exact I.ht
    rwa [hs, hb, hr, hT] at k

/-- C114 in Python: two objects that print alike have the same hash size, a threshold that prints alike, the same band
parameters, as many documents, and (with built-in analyzers and the same setting of `lowercase`, which is not printed)
the same features for all texts. -/
theorem C114_python_unambiguous (showFloat : Fl → Text) (env : PyMinEnv)
    (ahash ahash' : (h : HashSize) → List h.T → UInt64) (a a' : PyMinArgs) (obj obj' : PyMinObject)
    (h : PyMinObject.init env ahash a = .ok obj) (h' : PyMinObject.init env ahash' a' = .ok obj')
    (pops pops' : List PyMinOp) (ha : AnalyzerReturns env a (pops.flatMap pyDocs))
    (ha' : AnalyzerReturns env a' (pops'.flatMap pyDocs))
    (ht : ',' ∉ showFloat a.jaccardThreshold) (ht' : ',' ∉ showFloat a'.jaccardThreshold)
    (e : (obj.index.run env pops).str showFloat obj.hashSize.typeName =
      (obj'.index.run env pops').str showFloat obj'.hashSize.typeName) :
    a.hashSize = a'.hashSize ∧ showFloat a.jaccardThreshold = showFloat a'.jaccardThreshold ∧
      (∃ b r, BandParams env a b r ∧ BandParams env a' b r) ∧
      (obj.index.run env pops).size = (obj'.index.run env pops').size ∧
      ∀ n n', a.analyzer = .named n → a'.analyzer = .named n' → a.lowercase = a'.lowercase →
        ∀ doc, pyFeatures env a doc = pyFeatures env a' doc := by
  obtain ⟨b, r, hh, _, hp, _⟩ := init_native h
  obtain ⟨b', r', hh', _, hp', _⟩ := init_native h'
  obtain ⟨h1, h2, _⟩ := content_rep h hp pops ha
  obtain ⟨h1', h2', _⟩ := content_rep h' hp' pops' ha'
  obtain ⟨_, _, _, _, _, htok⟩ := init_rep h
  obtain ⟨_, _, _, _, _, htok'⟩ := init_rep h'
  have k := (obj.index.run env pops).native.inner.display_text showFloat obj.hashSize.typeName
  have k' := (obj'.index.run env pops').native.inner.display_text showFloat obj'.hashSize.typeName
  have I := inv_run (C := obj.container.C) (ahash obj.hashSize) b r a.jaccardThreshold
    (pops.flatMap (PyMinIndex.core (sigD env obj.index)))
  have I' := inv_run (C := obj'.container.C) (ahash' obj'.hashSize) b' r' a'.jaccardThreshold
    (pops'.flatMap (PyMinIndex.core (sigD env obj'.index)))
  have hb : (obj.index.run env pops).native.inner.b = b := by rw [h1.inner]; exact I.hb
  have hr : (obj.index.run env pops).native.inner.r = r := by rw [h1.inner]; exact I.hr
  have hT : (obj.index.run env pops).native.inner.threshold = a.jaccardThreshold := by rw [h1.inner]; exact I.ht
  have hb' : (obj'.index.run env pops').native.inner.b = b' := by rw [h1'.inner]; exact I'.hb
  have hr' : (obj'.index.run env pops').native.inner.r = r' := by rw [h1'.inner]; exact I'.hr
  have hT' : (obj'.index.run env pops').native.inner.threshold = a'.jaccardThreshold := by rw [h1'.inner]; exact I'.ht
  rw [hb, hr, hT] at k
  rw [hb', hr', hT'] at k'
  unfold PyMinIndex.str PyMinHash.str at e
  rw [List.append_assoc, List.append_assoc] at e
  obtain ⟨q1, q2, q3, q4, q5, q6⟩ := indexText_unique k k' (typeName_ok _) (typeName_ok _) ht ht' e
  have q7 := TokenizerSpec.debug_inj (List.append_cancel_left q6)
  rw [h2.tokenizer, h2'.tokenizer, htok, htok'] at q7
  refine ⟨?_, q2, ⟨b, r, hp, q3 ▸ q4 ▸ hp'⟩, q5, ?_⟩
  · rw [typeName_inj q1] at hh
    exact hashSize_ofInt_inj hh hh'
  · intro n n' hn hn' hl doc
    rw [pyFeatures_eq, pyFeatures_eq]
    unfold minTokens
    rw [hn, hn', hl]
    rw [hn, hn'] at q7
    simp only [Analyzer.nativeName, PyMinArgs.range] at q7
    simp only
    rw [q7]

/-- The hypotheses of C114 in Python are met. -/
example : (∃ obj, PyMinObject.init exPyMinEnv exAhash exArgs = .ok obj) ∧ BandParams exPyMinEnv exArgs 4 2 ∧
    AnalyzerReturns exPyMinEnv exArgs ([PyMinOp.insertDocument 1 "a b".toList].flatMap pyDocs) ∧
    ',' ∉ exShowFloat exArgs.jaccardThreshold :=
  ⟨(C68_accepts_partial exPyMinEnv exAhash exArgs (by decide)).mpr ⟨by decide,
    ⟨1 / 2, by decide +kernel, by decide +kernel, rfl⟩, by decide, exArgs_fit, .inl ⟨by decide, by decide⟩⟩,
    .inl ⟨4, 2, rfl, rfl, rfl, rfl⟩, trivial, by decide +kernel⟩

/-- Printed tokenizers. -/
example : [TokenizerSpec.new "word" none, TokenizerSpec.new "char" none, TokenizerSpec.new "word" (some (2, 2))].map
    (fun s => String.ofList s.debug) = ["WhiteSpace", "CharShingle((3, Some(4)))", "WhiteSpaceShingle((2, None))"] := by
  decide +kernel

end Verif.Props
