import Verif.Spec.PairError
import Verif.Props.Hoeffding
import Verif.Props.NarrowHashes
import Verif.Props.Dedup
import Verif.Props.BothClusterers
import Verif.Props.ClusterIndex

/-!
# Property C141: exact answers, deduplication and clusters in terms of the Jaccard similarity

All answers of an index are right at once, except with a probability that is bounded by a sum over the pairs of
documents.
-/
set_option linter.unusedSectionVars false
namespace Verif.Props
open Verif.Spec

section pairs
variable {Tok : Type} [Fintype Tok] [DecidableEq Tok]

/-- The signatures decide rightly about two documents: if the Jaccard similarity reaches the threshold, they share a band
and are similar, and otherwise they are not similar. -/
def Decides (b r : Nat) (t : ℚ) (rank : Tok → Nat) (π : Fin (b * r) → Equiv.Perm Tok) (A B : List Tok) : Prop :=
  ((t : ℝ) ≤ jaccard A B → (∃ i < b, sameBand r (idealSignature rank (List.ofFn π) A)
      (idealSignature rank (List.ofFn π) B) i) ∧
    SimilarSig (.fin t) (idealSignature rank (List.ofFn π) A) (idealSignature rank (List.ofFn π) B)) ∧
  (SimilarSig (.fin t) (idealSignature rank (List.ofFn π) A) (idealSignature rank (List.ofFn π) B) →
    (t : ℝ) ≤ jaccard A B)

theorem proportion_not {Ω : Type} [Fintype Ω] [Nonempty Ω] (P : Ω → Prop) :
    1 - proportion (fun x => ¬ P x) ≤ proportion P := by
  have h1 := proportion_sub (fun _ : Ω => True) (fun x => ¬ P x)
  have h2 : proportion (fun _ : Ω => True) = 1 := by
    classical
    rw [proportion_eq]
    simp
  rw [h2] at h1
  exact h1.trans (proportion_mono fun x hx => not_not.mp hx.2)

theorem proportion_or {Ω : Type} [Fintype Ω] (P Q : Ω → Prop) :
    proportion (fun x => P x ∨ Q x) ≤ proportion P + proportion Q := by
  have h1 := proportion_sub (fun x => P x ∨ Q x) Q
  have h2 : proportion (fun x => (P x ∨ Q x) ∧ ¬ Q x) ≤ proportion P :=
    proportion_mono fun x hx => hx.1.resolve_right hx.2
  linarith

theorem decides_wrong (b r : Nat) (t : ℚ) (rank : Tok → Nat) (A B : List Tok) (h0 : 0 < b * r) (hn : b * r ≤ 2 ^ 53)
    (hrank : Function.Injective rank) (hA : A ≠ []) (hB : B ≠ []) (htd : Double t) :
    proportion (fun π : Fin (b * r) → Equiv.Perm Tok => ¬ Decides b r t rank π A B) ≤
      pairError b r t (jaccard A B) := by
  classical
  have hlen : ∀ (π : Fin (b * r) → Equiv.Perm Tok) (X : List Tok),
      (idealSignature rank (List.ofFn π) X).length = b * r := by
    intro π X; rw [ideal_length, List.length_ofFn]
  have hone : ∀ E : (Fin (b * r) → Equiv.Perm Tok) → Prop, proportion E ≤ 1 := fun E => (proportion_unit E).2
  have hJ0 := jaccard_nonneg A B
  have hJ1 : jaccard A B ≤ 1 := by
    unfold jaccard
    refine div_le_one_of_le₀ ?_ (by positivity)
    exact_mod_cast Finset.card_le_card (Finset.inter_subset_union)
  unfold pairError
  split
  · rename_i ht
    have hrow := proportion_some_row b r (agreeEvent rank A B) Fintype.card_pos
    rw [proportion_agree hrank hA] at hrow
    have hband : proportion (fun π : Fin (b * r) → Equiv.Perm Tok =>
        ¬ ∃ i : Fin b, ∀ j : Fin r, agreeEvent rank A B (π (finProdFinEquiv (i, j)))) ≤ (1 - jaccard A B ^ r) ^ b := by
      have e : ∀ E : (Fin (b * r) → Equiv.Perm Tok) → Prop, proportion (fun π => ¬ E π) = 1 - proportion E := by
        intro E
        have hc := Finset.card_filter_add_card_filter_not (s := (Finset.univ : Finset (Fin (b * r) → Equiv.Perm Tok))) (p := E)
        have hp : (0 : ℝ) < Fintype.card (Fin (b * r) → Equiv.Perm Tok) := by exact_mod_cast Fintype.card_pos
        rw [proportion_eq, proportion_eq, eq_sub_iff_add_eq, ← add_div, div_eq_one_iff_eq hp.ne']
        rw [Finset.card_univ] at hc
        rw [add_comm]
        exact_mod_cast hc
      rw [e, hrow]
      unfold shareProba
      linarith
    rcases eq_or_lt_of_le ht with hteq | htlt
    · refine (hone _).trans ?_
      rw [← hteq]
      simp only [sub_self, ne_eq, OfNat.ofNat_ne_zero, not_false_eq_true, zero_pow, mul_zero, neg_zero, Real.exp_zero]
      have : 0 ≤ 1 - jaccard A B ^ r := sub_nonneg.mpr (pow_le_one₀ hJ0 hJ1)
      rw [hteq]
      have := pow_nonneg this b
      linarith
    · have hdev := agree_below (n := b * r) h0 hrank hA hB (sub_pos.mpr htlt)
      refine le_trans (proportion_mono ?_) ((proportion_or _ _).trans (add_le_add hdev hband))
      intro π hw
      by_contra hno
      rw [not_or, not_not, not_le] at hno
      obtain ⟨hd, i, hall⟩ := hno
      refine hw ⟨fun _ => ⟨⟨i, i.isLt, ?_⟩, ?_⟩, fun _ => ht⟩
      · intro j h1 h2
        have hj : j - i * r < r := by rw [Nat.add_mul, Nat.one_mul] at h2; omega
        have := (ideal_agree_iff hrank π hA hB (finProdFinEquiv (i, ⟨j - i * r, hj⟩))).mpr (hall ⟨j - i * r, hj⟩)
        have e : (finProdFinEquiv (i, (⟨j - i * r, hj⟩ : Fin r)) : Fin (b * r)).val = j := by
          simp [finProdFinEquiv, Nat.mul_comm r]
          omega
        rwa [e] at this
      · obtain ⟨x, hx, hnear⟩ := C08_nearest_double (idealSignature rank (List.ofFn π) A)
          (idealSignature rank (List.ofFn π) B) (by rw [hlen, hlen]) (by rw [hlen]; exact h0) (by rw [hlen]; exact hn)
        refine ⟨_, hx, ?_⟩
        rw [ge_fin]
        rw [hlen] at hnear
        have hratio : (t : ℝ) ≤ ((((agree (idealSignature rank (List.ofFn π) A)
            (idealSignature rank (List.ofFn π) B) : ℚ) / (b * r : ℕ)) : ℚ) : ℝ) := by
          push_cast
          push_cast at hd
          linarith
        have hratio := (Rat.cast_le (K := ℝ)).mp hratio
        by_contra hlt
        rw [not_le] at hlt
        have h1 := hnear.2.1 t htd
        rw [abs_of_nonpos (by linarith), abs_of_nonpos (by linarith)] at h1
        linarith
  · rename_i ht
    rw [not_le] at ht
    rcases le_or_gt ((t : ℝ) - jaccard A B - 1 / 2 ^ 54) 0 with hm | hm
    · rw [max_eq_left hm]
      simpa using hone _
    · rw [max_eq_right hm.le]
      refine le_trans (proportion_mono fun π hw => ?_) (agree_above h0 hrank hA hB hm)
      by_contra hno
      refine hw ⟨fun h => absurd h (not_le.mpr ht), ?_⟩
      rintro ⟨v, hv, hge⟩
      exfalso
      obtain ⟨x, hx, herr⟩ := ideal_similarity h0 hn rank A B π
      rw [hx, Except.ok.injEq] at hv
      subst hv
      rw [ge_fin] at hge
      have hge' : (t : ℝ) ≤ x := by exact_mod_cast hge
      have := (abs_le.mp herr).2
      apply hno
      linarith

/-- The probability that all pairs are decided rightly. -/
theorem decides_all (b r : Nat) (t : ℚ) (rank : Tok → Nat) (pairs : List (List Tok × List Tok)) (h0 : 0 < b * r)
    (hn : b * r ≤ 2 ^ 53) (hrank : Function.Injective rank) (hp : ∀ p ∈ pairs, p.1 ≠ [] ∧ p.2 ≠ []) (htd : Double t)
    (E : (Fin (b * r) → Equiv.Perm Tok) → Prop)
    (hE : ∀ π, (∀ p ∈ pairs, Decides b r t rank π p.1 p.2) → E π) :
    1 - (pairs.map fun p => pairError b r t (jaccard p.1 p.2)).sum ≤ proportion E := by
  have h1 := proportion_exists_sum pairs (fun p (π : Fin (b * r) → Equiv.Perm Tok) => ¬ Decides b r t rank π p.1 p.2)
    (fun p => pairError b r t (jaccard p.1 p.2))
    fun p hm => decides_wrong b r t rank p.1 p.2 h0 hn hrank (hp p hm).1 (hp p hm).2 htd
  have h2 := proportion_not E
  have h3 : proportion (fun π => ¬ E π) ≤ proportion (fun π => ∃ p ∈ pairs, ¬ Decides b r t rank π p.1 p.2) := by
    refine proportion_mono fun π hw => ?_
    by_contra hno
    exact hw (hE π fun p hm => by_contra fun hd => hno ⟨p, hm, hd⟩)
  linarith

end pairs

section index
variable {Tok Id : Type} [Fintype Tok] [DecidableEq Tok] [DecidableEq Id]
variable {C : Type} [IdContainer C Id] [LawfulIdContainer C Id]

theorem answer_iff {b r : Nat} {t : ℚ} {h : List Nat → UInt64} {rank : Tok → Nat} {π : Fin (b * r) → Equiv.Perm Tok}
    {content : Id → Option (List Tok)} {B : List Tok} {ops : List (Op Nat Id)} (hl : RightLengths (b * r) ops)
    (hlive : ∀ id, live (b * r) ops id = (content id).map (idealSignature rank (List.ofFn π)))
    (hd : ∀ id A, content id = some A → Decides b r t rank π A B) :
    ∃ res, (After C b r (.fin t) h ops).query (idealSignature rank (List.ofFn π) B) = .ok res ∧
      ∀ id, id ∈ res.elems ↔ ∃ A, content id = some A ∧ (t : ℝ) ≤ jaccard A B := by
  obtain ⟨res, hres, _⟩ := C17_query_returns (C := C) b r (.fin t) h ops (idealSignature rank (List.ofFn π) B) hl
    (by rw [ideal_length, List.length_ofFn])
  refine ⟨res, hres, fun id => ⟨fun hid => ?_, ?_⟩⟩
  · obtain ⟨s, v, hs, hv, hge⟩ := C16_query b r (.fin t) h ops _ res hres id hid
    rw [hlive] at hs
    obtain ⟨A, hA, rfl⟩ := Option.map_eq_some_iff.mp hs
    exact ⟨A, hA, (hd id A hA).2 ⟨v, hv, hge⟩⟩
  · rintro ⟨A, hA, hj⟩
    obtain ⟨hb, v, hv, hge⟩ := (hd id A hA).1 hj
    exact C17_complete b r (.fin t) h ops _ res (.inl hres) id _ v (by rw [hlive, hA]; rfl) hb hv hge

/-- C141: all queries answered exactly. After every history that leaves the documents `content` (taken from `docs`) in
the index, every query out of `queries` returns exactly the documents whose Jaccard similarity reaches the threshold, but
for a probability of at most the sum of the errors of all pairs. -/
theorem C141_answers (b r : Nat) (t : ℚ) (h : List Nat → UInt64) (rank : Tok → Nat) (content : Id → Option (List Tok))
    (docs queries : List (List Tok)) (ops : (Fin (b * r) → Equiv.Perm Tok) → List (Op Nat Id)) (h0 : 0 < b * r)
    (hn : b * r ≤ 2 ^ 53) (hrank : Function.Injective rank) (hd : ∀ A ∈ docs, A ≠ []) (hq : ∀ B ∈ queries, B ≠ [])
    (hl : ∀ π, RightLengths (b * r) (ops π)) (hcd : ∀ id A, content id = some A → A ∈ docs)
    (hlive : ∀ π id, live (b * r) (ops π) id = (content id).map (idealSignature rank (List.ofFn π))) (htd : Double t) :
    1 - ((docs ×ˢ queries).map fun p => pairError b r t (jaccard p.1 p.2)).sum ≤
      proportion (fun π : Fin (b * r) → Equiv.Perm Tok => ∀ B ∈ queries, ∃ res,
        (After C b r (.fin t) h (ops π)).query (idealSignature rank (List.ofFn π) B) = .ok res ∧
          ∀ id, id ∈ res.elems ↔ ∃ A, content id = some A ∧ (t : ℝ) ≤ jaccard A B) := by
  refine decides_all b r t rank _ h0 hn hrank (fun p hp => ?_) htd _ fun π hall B hB => ?_
  · obtain ⟨h1, h2⟩ := List.mem_product.mp hp
    exact ⟨hd _ h1, hq _ h2⟩
  · exact answer_iff (hl π) (hlive π) fun id A hA => hall (A, B) (List.mem_product.mpr ⟨hcd id A hA, hB⟩)

omit [DecidableEq Id] in
/-- If signatures are similar exactly when the documents are, first fit makes the same choice with the signatures. -/
theorem firstFit_map {D S : Type} {f : D → S} {N : S → S → Prop} {sim : D → D → Prop} {docs : List (Id × D)}
    {kept' : List (Id × S)} (hnd : (docs.map Prod.fst).Nodup)
    (hnear : ∀ p ∈ docs, ∀ q ∈ docs, N (f p.2) (f q.2) ↔ sim p.2 q.2)
    (hff : FirstFit N (docs.map fun p => (p.1, f p.2)) kept')
    (h3 : ∀ k ∈ kept', ∀ k' ∈ kept', k ≠ k' → ¬ N k.2 k'.2)
    (h4 : ∀ p ∈ docs.map (fun p => (p.1, f p.2)), p ∉ kept' → ∃ k ∈ kept', N k.2 p.2) :
    ∃ kept : List (Id × D), kept' = kept.map (fun p => (p.1, f p.2)) ∧ FirstFit sim docs kept ∧
      (∀ k ∈ kept, ∀ k' ∈ kept, k ≠ k' → ¬ sim k.2 k'.2) ∧ ∀ p ∈ docs, p ∉ kept → ∃ k ∈ kept, sim k.2 p.2 := by
  obtain ⟨kept, hsub, rfl⟩ := List.sublist_map_iff.mp hff.sub
  have hinj : ∀ p ∈ docs, ∀ q ∈ docs, p.1 = q.1 → p = q := fun p hp q hq e => List.inj_on_of_nodup_map hnd hp hq e
  have hmem : ∀ p ∈ docs, (p.1, f p.2) ∈ kept.map (fun p => (p.1, f p.2)) ↔ p ∈ kept := by
    intro p hp
    constructor
    · intro hm
      obtain ⟨q, hq, e⟩ := List.mem_map.mp hm
      rw [← hinj q (hsub.subset hq) p hp (Prod.mk.inj e).1]
      exact hq
    · exact fun hm => List.mem_map.mpr ⟨p, hm, rfl⟩
  refine ⟨kept, rfl, ⟨hsub, fun pre p post e => ?_⟩, fun k hk k' hk' hne hj => ?_, fun p hp hnk => ?_⟩
  · have hpd : p ∈ docs := by rw [e]; simp
    have := hff.iff (pre.map fun p => (p.1, f p.2)) _ (post.map fun p => (p.1, f p.2))
      (by rw [e, List.map_append, List.map_cons])
    rw [hmem p hpd] at this
    rw [this]
    constructor
    · intro hf k hk hpre hj
      exact hf _ (List.mem_map.mpr ⟨k, hk, rfl⟩) (List.mem_map.mpr ⟨k, hpre, rfl⟩)
        ((hnear k (hsub.subset hk) p hpd).mpr hj)
    · intro hf x hx hpre hN
      obtain ⟨k, hk, rfl⟩ := List.mem_map.mp hx
      obtain ⟨k', hk', e'⟩ := List.mem_map.mp hpre
      have hk'd : k' ∈ docs := by rw [e]; simp [hk']
      have := hinj k' hk'd k (hsub.subset hk) (Prod.mk.inj e').1
      subst this
      exact hf k' hk hk' ((hnear k' hk'd p hpd).mp hN)
  · refine h3 _ (List.mem_map.mpr ⟨k, hk, rfl⟩) _ (List.mem_map.mpr ⟨k', hk', rfl⟩) ?_
      ((hnear k (hsub.subset hk) k' (hsub.subset hk')).mpr hj)
    intro e
    exact hne (hinj k (hsub.subset hk) k' (hsub.subset hk') (Prod.mk.inj e).1)
  · obtain ⟨x, hx, hN⟩ := h4 _ (List.mem_map.mpr ⟨p, hp, rfl⟩) fun hm => hnk ((hmem p hp).mp hm)
    obtain ⟨k, hk, rfl⟩ := List.mem_map.mp hx
    exact ⟨k, hk, (hnear k (hsub.subset hk) p hp).mp hN⟩

/-- C141: one-pass deduplication (query, insert if nothing was found) keeps exactly the documents that the first-fit
rule keeps with the Jaccard similarity itself: no two kept documents reach the threshold, and every other document
reaches it with a kept one. -/
theorem C141_dedup (b r : Nat) (t : ℚ) (h : List Nat → UInt64) (rank : Tok → Nat) (docs : List (Id × List Tok))
    (h0 : 0 < b * r) (hn : b * r ≤ 2 ^ 53) (hrank : Function.Injective rank) (hd : ∀ p ∈ docs, p.2 ≠ [])
    (hnd : (docs.map Prod.fst).Nodup) (htd : Double t) :
    1 - ((docs ×ˢ docs).map fun p => pairError b r t (jaccard p.1.2 p.2.2)).sum ≤
      proportion (fun π : Fin (b * r) → Equiv.Perm Tok => ∃ (idx : MinHashIndex Nat Id C) (kept : List (Id × List Tok)),
        keepNew (fun (i : MinHashIndex Nat Id C) q => (i.queryOwned q).map HSet.elems) MinHashIndex.insert
          (MinHashIndex.newIndex b r (.fin t) h) (docs.map fun p => (p.1, idealSignature rank (List.ofFn π) p.2)) =
          .ok (idx, kept.map fun p => (p.1, idealSignature rank (List.ofFn π) p.2)) ∧
        FirstFit (fun A B => (t : ℝ) ≤ jaccard A B) docs kept ∧
        (∀ k ∈ kept, ∀ k' ∈ kept, k ≠ k' → jaccard k.2 k'.2 < t) ∧
        ∀ p ∈ docs, p ∉ kept → ∃ k ∈ kept, (t : ℝ) ≤ jaccard k.2 p.2) := by
  have key := decides_all b r t rank ((docs ×ˢ docs).map fun p => (p.1.2, p.2.2)) h0 hn hrank (by
    intro p hp
    obtain ⟨x, hx, rfl⟩ := List.mem_map.mp hp
    obtain ⟨h1, h2⟩ := List.mem_product.mp hx
    exact ⟨hd _ h1, hd _ h2⟩) htd
  rw [List.map_map] at key
  refine key _ fun π hall => ?_
  have hdec : ∀ p ∈ docs, ∀ q ∈ docs, Decides b r t rank π p.2 q.2 := fun p hp q hq =>
    hall (p.2, q.2) (List.mem_map.mpr ⟨(p, q), List.mem_product.mpr ⟨hp, hq⟩, rfl⟩)
  have hnear : ∀ p ∈ docs, ∀ q ∈ docs, NearMin b r (.fin t) h (idealSignature rank (List.ofFn π) p.2)
      (idealSignature rank (List.ofFn π) q.2) ↔ (t : ℝ) ≤ jaccard p.2 q.2 := by
    intro p hp q hq
    constructor
    · intro hN
      exact (hdec p hp q hq).2 hN.2
    · intro hj
      obtain ⟨⟨i, hi, hb⟩, hs⟩ := (hdec p hp q hq).1 hj
      exact ⟨⟨i, hi, by rw [sameBand_bandOf hb]⟩, hs⟩
  obtain ⟨idx, kept', e1, e2, e3, e4, _⟩ := C128_minhash (C := C) b r (.fin t) h
    (docs.map fun p => (p.1, idealSignature rank (List.ofFn π) p.2)) (by rw [List.map_map]; exact hnd) (by
      intro p hp
      obtain ⟨x, _, rfl⟩ := List.mem_map.mp hp
      simp [ideal_length])
  obtain ⟨kept, rfl, f1, f2, f3⟩ := firstFit_map (f := idealSignature rank (List.ofFn π))
    (sim := fun A B => (t : ℝ) ≤ jaccard A B) hnd hnear e2 e3 e4
  exact ⟨idx, kept, e1, f1, fun k hk k' hk' hne => not_le.mp (f2 k hk k' hk' hne), f3⟩

theorem greedy_perm {P : Type} [DecidableEq P] (min : Nat) {q q' : P → HSet P} (hq : ∀ p x, x ∈ (q p).elems ↔ x ∈ (q' p).elems)
    (points : List P) : ∀ taken : P → Bool, List.Forall₂ List.Perm (greedy min q taken points) (greedy min q' taken points) := by
  have hp : ∀ p, (q p).elems.Perm (q' p).elems := fun p => (List.perm_ext_iff_of_nodup (q p).nodup (q' p).nodup).mpr (hq p)
  induction points with
  | nil => intro taken; simp [greedy]
  | cons p ps ih =>
    intro taken
    have hf := (hp p).filter (fun x => !taken x)
    unfold greedy
    simp only [hf.length_eq]
    split
    · exact ih taken
    · refine .cons hf ?_
      have : (fun x => taken x || decide (x ∈ (q p).elems.filter fun x => !taken x)) =
          (fun x => taken x || decide (x ∈ (q' p).elems.filter fun x => !taken x)) := by
        funext x
        congr 1
        exact decide_eq_decide.mpr hf.mem_iff
      rw [this]
      exact ih _

/-- C141: clustering. The serial clusterer over the index makes the clusters that the greedy rule makes with the Jaccard
similarity itself (`near p` are the documents whose Jaccard similarity to the document of `p` reaches the threshold). -/
theorem C141_clusters (b r : Nat) (t : ℚ) (h : List Nat → UInt64) (rank : Tok → Nat) (content : Id → Option (List Tok))
    (docs : List (List Tok)) (ops : (Fin (b * r) → Equiv.Perm Tok) → List (Op Nat Id)) (h0 : 0 < b * r)
    (hn : b * r ≤ 2 ^ 53) (hrank : Function.Injective rank) (hd : ∀ A ∈ docs, A ≠ [])
    (hl : ∀ π, RightLengths (b * r) (ops π)) (hcd : ∀ id A, content id = some A → A ∈ docs)
    (hlive : ∀ π id, live (b * r) (ops π) id = (content id).map (idealSignature rank (List.ofFn π))) (htd : Double t)
    (near : Id → HSet Id) (hnear : ∀ p q, q ∈ (near p).elems ↔
      ∃ A B, content q = some A ∧ content p = some B ∧ (t : ℝ) ≤ jaccard A B)
    (self : SerialClusterer) (ord : Nat → Order) (labels : HMap Id Nat) (points : List Id) :
    1 - ((docs ×ˢ docs).map fun p => pairError b r t (jaccard p.1 p.2)).sum ≤
      proportion (fun π : Fin (b * r) → Equiv.Perm Tok => ∃ query : Id → HSet Id,
        (∀ p, (After C b r (.fin t) h (ops π)).queryIndexQuery p = .ok (query p)) ∧
        List.Forall₂ List.Perm ((self.cluster query ord labels points).2.2.map fun c => c.points)
          (greedy (self.minClusterSize + 1) near (fun p => (labels.get? p).isSome) points)) := by
  refine decides_all b r t rank _ h0 hn hrank (fun p hp => ?_) htd _ fun π hall => ?_
  · obtain ⟨h1, h2⟩ := List.mem_product.mp hp
    exact ⟨hd _ h1, hd _ h2⟩
  · choose query hq hsound hcomplete using queryIndex_spec (C := C) b r (.fin t) h (ops π) (hl π)
    refine ⟨query, hq, ?_⟩
    refine forall₂_perm_trans (C137_serial_greedy self query ord labels points)
      (greedy_perm _ (fun p x => ?_) points _)
    rw [hnear]
    constructor
    · rintro ⟨A, B, hA, hB, hj⟩
      obtain ⟨hb, hs⟩ := (hall (A, B) (List.mem_product.mpr ⟨hcd _ _ hA, hcd _ _ hB⟩)).1 hj
      exact hcomplete p _ (by rw [hlive, hB]; rfl) x _ (by rw [hlive, hA]; rfl) hs hb
    · intro hx
      obtain ⟨sp, sq, h1, h2, h3⟩ := hsound p x hx
      rw [hlive] at h1 h2
      obtain ⟨B, hB, rfl⟩ := Option.map_eq_some_iff.mp h1
      obtain ⟨A, hA, rfl⟩ := Option.map_eq_some_iff.mp h2
      exact ⟨A, B, hA, hB, (hall (A, B) (List.mem_product.mpr ⟨hcd _ _ hA, hcd _ _ hB⟩)).2 h3⟩

end index

/-- C141: the size of the error. If the Jaccard similarity of a pair is not within `ε` of the threshold, the error of the
pair is at most `exp(-2 n ε²)` plus the probability that no band agrees at similarity `t + ε`. -/
theorem C141_margin (b r : Nat) (t s ε : ℝ) (ht : 0 ≤ t) (hε : 0 ≤ ε) (h1 : t + ε ≤ 1) (hs : s ≤ 1)
    (h : t + ε ≤ s ∨ s + ε + 1 / 2 ^ 54 ≤ t) :
    pairError b r t s ≤ Real.exp (-(2 * (b * r : ℕ) * ε ^ 2)) + (1 - (t + ε) ^ r) ^ b := by
  have hpow : (t + ε) ^ r ≤ 1 := pow_le_one₀ (by linarith) h1
  have h2 : (0 : ℝ) < 1 / 2 ^ 54 := by positivity
  unfold pairError
  rcases h with h | h
  · rw [if_pos (by linarith)]
    refine add_le_add (Real.exp_le_exp.mpr (neg_le_neg ?_)) ?_
    · have : ε ^ 2 ≤ (s - t) ^ 2 := pow_le_pow_left₀ hε (by linarith) 2
      gcongr
    · have h3 : s ^ r ≤ 1 := pow_le_one₀ (by linarith) hs
      have h4 : (t + ε) ^ r ≤ s ^ r := pow_le_pow_left₀ (by linarith) h r
      exact pow_le_pow_left₀ (by linarith) (by linarith) b
  · rw [if_neg (by linarith)]
    have h3 : Real.exp (-(2 * (b * r : ℕ) * (max 0 (t - s - 1 / 2 ^ 54)) ^ 2)) ≤ Real.exp (-(2 * (b * r : ℕ) * ε ^ 2)) := by
      refine Real.exp_le_exp.mpr (neg_le_neg ?_)
      have : ε ^ 2 ≤ (max 0 (t - s - 1 / 2 ^ 54)) ^ 2 := pow_le_pow_left₀ hε (le_max_of_le_right (by linarith)) 2
      gcongr
    have h4 : 0 ≤ (1 - (t + ε) ^ r) ^ b := pow_nonneg (by linarith) b
    linarith

/-- With 200 bands of five rows, threshold 0.6 and a margin of 0.1 every pair is decided wrongly with a probability of at
most `exp (-20)` plus the probability that no band agrees at similarity 0.7. -/
example (s : ℝ) (hs : s ≤ 1) (h : 7 / 10 ≤ s ∨ s ≤ 49 / 100) :
    pairError 200 5 (3 / 5) s ≤ Real.exp (-20) + (1 - (7 / 10) ^ 5) ^ 200 := by
  refine (C141_margin 200 5 (3 / 5) s (1 / 10) (by norm_num) (by norm_num) (by norm_num) hs ?_).trans (le_of_eq ?_)
  · rcases h with h | h
    · left; linarith
    · right
      have : (1 : ℝ) / 2 ^ 54 ≤ 1 / 100 := by norm_num
      linarith
  · norm_num

/-! ## The example of the README -/

/-- The words of the example. -/
def readmeWord : Fin 12 → String := fun i => ["this", "is", "the", "first", "document", "second", "and", "third", "not",
  "nor", "but", "fourth"].getD i ""

/-- The documents of the example (README.md 60-64), in lower case. -/
def readmeText : List String := [
  "this is the first document.",
  "this document is the second document.",
  "and this is the third document.",
  "is this the first document?",
  "this not the first nor the second nor the third, but the fourth document"]

/-- Their words. -/
def readmeDocs : List (List (Fin 12)) := [[0, 1, 2, 3, 4], [0, 4, 1, 2, 5, 4], [6, 0, 1, 2, 7, 4], [1, 0, 2, 3, 4],
  [0, 8, 2, 3, 9, 2, 5, 9, 2, 7, 10, 2, 11, 4]]

/-- `whitespace_split` makes these words of the documents. -/
theorem readme_tokens : readmeDocs.map (fun d => d.map fun i => (readmeWord i).toList) =
    readmeText.map fun s => whitespaceSplit s.toList := by decide +kernel

/-- The calls of the example: each document is inserted under its position. -/
def readmeOps (rank : Fin 12 → Nat) (π : Fin (42 * 3) → Equiv.Perm (Fin 12)) : List (Op Nat Nat) :=
  readmeDocs.zipIdx.map fun p => .insert p.2 (idealSignature rank (List.ofFn π) p.1)

theorem live_zipIdx {α T : Type} (n : Nat) (f : α → List T) (hf : ∀ a, (f a).length = n) (docs : List α) (id : Nat) :
    live n (docs.zipIdx.map fun p => (.insert p.2 (f p.1) : Op T Nat)) id = docs[id]?.map f := by
  induction docs using List.reverseRecOn with
  | nil => rfl
  | append_singleton docs d ih =>
    rw [List.zipIdx_append, List.map_append, List.zipIdx_cons, List.zipIdx_nil, List.map_singleton, live_snoc]
    unfold applyL
    simp only [touch, hf, and_true, Nat.zero_add]
    by_cases e : docs.length = id
    · subst e
      simp
    · rw [if_neg e]
      simp only [ih]
      rcases Nat.lt_or_gt_of_ne e with h | h
      · rw [List.getElem?_eq_none (by omega), List.getElem?_eq_none (by simp; omega)]
      · rw [List.getElem?_append_left h]

theorem readme_jaccard :
    jaccard ([0, 1, 2, 3, 4] : List (Fin 12)) [0, 1, 2, 3, 4] = 1 ∧
    jaccard ([0, 4, 1, 2, 5, 4] : List (Fin 12)) [0, 1, 2, 3, 4] = 2 / 3 ∧
    jaccard ([6, 0, 1, 2, 7, 4] : List (Fin 12)) [0, 1, 2, 3, 4] = 4 / 7 ∧
    jaccard ([1, 0, 2, 3, 4] : List (Fin 12)) [0, 1, 2, 3, 4] = 1 ∧
    jaccard ([0, 8, 2, 3, 9, 2, 5, 9, 2, 7, 10, 2, 11, 4] : List (Fin 12)) [0, 1, 2, 3, 4] = 4 / 11 := by
  have j0 : jaccard ([0, 1, 2, 3, 4] : List (Fin 12)) [0, 1, 2, 3, 4] = 1 := by
    unfold jaccard
    rw [show (([0, 1, 2, 3, 4] : List (Fin 12)).toFinset ∩ [0, 1, 2, 3, 4].toFinset).card = 5 by decide,
      show (([0, 1, 2, 3, 4] : List (Fin 12)).toFinset ∪ [0, 1, 2, 3, 4].toFinset).card = 5 by decide]
    norm_num
  have j1 : jaccard ([0, 4, 1, 2, 5, 4] : List (Fin 12)) [0, 1, 2, 3, 4] = 2 / 3 := by
    unfold jaccard
    rw [show (([0, 4, 1, 2, 5, 4] : List (Fin 12)).toFinset ∩ [0, 1, 2, 3, 4].toFinset).card = 4 by decide,
      show (([0, 4, 1, 2, 5, 4] : List (Fin 12)).toFinset ∪ [0, 1, 2, 3, 4].toFinset).card = 6 by decide]
    norm_num
  have j2 : jaccard ([6, 0, 1, 2, 7, 4] : List (Fin 12)) [0, 1, 2, 3, 4] = 4 / 7 := by
    unfold jaccard
    rw [show (([6, 0, 1, 2, 7, 4] : List (Fin 12)).toFinset ∩ [0, 1, 2, 3, 4].toFinset).card = 4 by decide,
      show (([6, 0, 1, 2, 7, 4] : List (Fin 12)).toFinset ∪ [0, 1, 2, 3, 4].toFinset).card = 7 by decide]
    norm_num
  have j3 : jaccard ([1, 0, 2, 3, 4] : List (Fin 12)) [0, 1, 2, 3, 4] = 1 := by
    unfold jaccard
    rw [show (([1, 0, 2, 3, 4] : List (Fin 12)).toFinset ∩ [0, 1, 2, 3, 4].toFinset).card = 5 by decide,
      show (([1, 0, 2, 3, 4] : List (Fin 12)).toFinset ∪ [0, 1, 2, 3, 4].toFinset).card = 5 by decide]
    norm_num
  have j4 : jaccard ([0, 8, 2, 3, 9, 2, 5, 9, 2, 7, 10, 2, 11, 4] : List (Fin 12)) [0, 1, 2, 3, 4] = 4 / 11 := by
    unfold jaccard
    rw [show (([0, 8, 2, 3, 9, 2, 5, 9, 2, 7, 10, 2, 11, 4] : List (Fin 12)).toFinset ∩ [0, 1, 2, 3, 4].toFinset).card = 4
      by decide,
      show (([0, 8, 2, 3, 9, 2, 5, 9, 2, 7, 10, 2, 11, 4] : List (Fin 12)).toFinset ∪ [0, 1, 2, 3, 4].toFinset).card = 11
      by decide]
    norm_num
  exact ⟨j0, j1, j2, j3, j4⟩

theorem readme_error : (readmeDocs.map fun A => pairError 42 3 ((1 / 2 : ℚ) : ℝ) (jaccard A [0, 1, 2, 3, 4])).sum ≤ 3 / 10 := by
  obtain ⟨j0, j1, j2, j3, j4⟩ := readme_jaccard
  have he := Real.exp_one_gt_d9
  have e7 : Real.exp (-7) ≤ 1 / 1000 := by
    rw [Real.exp_neg, show Real.exp 7 = Real.exp 1 ^ 7 by rw [← Real.exp_nat_mul]; norm_num, inv_le_comm₀ (by positivity)
      (by norm_num)]
    calc ((1 / 1000 : ℝ))⁻¹ ≤ 2.7 ^ 7 := by norm_num
      _ ≤ Real.exp 1 ^ 7 := by gcongr; linarith
  have e63 : Real.exp (-63) ≤ 1 / 1000 := (Real.exp_le_exp.mpr (by norm_num)).trans e7
  have e97 : Real.exp (-(9 / 7)) ≤ 28 / 100 := by
    rw [Real.exp_neg, inv_le_comm₀ (by positivity) (by norm_num)]
    refine le_trans ?_ (Real.sum_le_exp_of_nonneg (by norm_num : (0 : ℝ) ≤ 9 / 7) 5)
    norm_num [Finset.sum_range_succ, Nat.factorial]
  have e92 : Real.exp (-(9 / 2)) ≤ 13 / 1000 := by
    rw [Real.exp_neg, inv_le_comm₀ (by positivity) (by norm_num),
      show (9 / 2 : ℝ) = 4 + 1 / 2 by norm_num, Real.exp_add,
      show Real.exp 4 = Real.exp 1 ^ 4 by rw [← Real.exp_nat_mul]; norm_num]
    have h2 : (1 / 2 : ℝ) + 1 ≤ Real.exp (1 / 2) := Real.add_one_le_exp _
    calc ((13 / 1000 : ℝ))⁻¹ ≤ 2.7 ^ 4 * (1 / 2 + 1) := by norm_num
      _ ≤ Real.exp 1 ^ 4 * Real.exp (1 / 2) := by gcongr; linarith
  have p1 : pairError 42 3 (1 / 2) 1 ≤ 1 / 1000 := by
    unfold pairError
    rw [if_pos (by norm_num)]
    norm_num
    exact (le_of_eq (by norm_num)).trans e63
  have p2 : pairError 42 3 (1 / 2) (2 / 3) ≤ 2 / 1000 := by
    unfold pairError
    rw [if_pos (by norm_num)]
    have : (1 - (2 / 3 : ℝ) ^ 3) ^ 42 ≤ 1 / 1000 := by norm_num
    have h : -(2 * ((42 * 3 : ℕ) : ℝ) * (2 / 3 - 1 / 2) ^ 2) = -7 := by norm_num
    rw [h]
    linarith
  have p3 : pairError 42 3 (1 / 2) (4 / 7) ≤ 281 / 1000 := by
    unfold pairError
    rw [if_pos (by norm_num)]
    have : (1 - (4 / 7 : ℝ) ^ 3) ^ 42 ≤ 1 / 1000 := by norm_num
    have h : -(2 * ((42 * 3 : ℕ) : ℝ) * (4 / 7 - 1 / 2) ^ 2) = -(9 / 7) := by norm_num
    rw [h]
    linarith
  have p4 : pairError 42 3 (1 / 2) (4 / 11) ≤ 13 / 1000 := by
    unfold pairError
    rw [if_neg (by norm_num)]
    refine (Real.exp_le_exp.mpr ?_).trans e92
    rw [max_eq_right (by norm_num)]
    norm_num
  simp only [readmeDocs, List.map_cons, List.map_nil, List.sum_cons, List.sum_nil, j0, j1, j2, j3, j4]
  push_cast
  linarith

variable {C : Type} [IdContainer C Nat] [LawfulIdContainer C Nat]

/-- C141: the example of the README. Over ideal hash functions, with 42 bands of 3 rows and threshold 0.5, the query for
the first document returns the first four documents and not the fifth, as documented, with a probability of at least
0.7. -/
theorem C141_readme (rank : Fin 12 → Nat) (hrank : Function.Injective rank) (h : List Nat → UInt64) :
    readmeDocs.map (fun d => d.map fun i => (readmeWord i).toList) =
      readmeText.map (fun s => whitespaceSplit s.toList) ∧
    7 / 10 ≤ proportion (fun π : Fin (42 * 3) → Equiv.Perm (Fin 12) => ∃ res,
      (After C 42 3 (.fin (1 / 2)) h (readmeOps rank π)).query (idealSignature rank (List.ofFn π) [0, 1, 2, 3, 4]) =
        .ok res ∧ ∀ id, id ∈ res.elems ↔ id < 4) := by
  refine ⟨readme_tokens, ?_⟩
  have hlen : ∀ (π : Fin (42 * 3) → Equiv.Perm (Fin 12)) (X : List (Fin 12)),
      (idealSignature rank (List.ofFn π) X).length = 42 * 3 := by
    intro π X; rw [ideal_length, List.length_ofFn]
  have key := C141_answers (C := C) 42 3 (1 / 2) h rank (fun id => readmeDocs[id]?) readmeDocs [[0, 1, 2, 3, 4]]
    (readmeOps rank) (by norm_num) (by norm_num) hrank (by decide) (by decide)
    (by
      intro π op hop s hs
      obtain ⟨p, _, rfl⟩ := List.mem_map.mp hop
      simp only [sigsOf, List.mem_singleton] at hs
      rw [hs, hlen])
    (fun id A hA => List.mem_of_getElem? hA) (fun π id => live_zipIdx _ _ (hlen π) _ id)
    ⟨1, -1, by norm_num [zpow_neg], by norm_num, by norm_num, by norm_num⟩
  have e : (readmeDocs ×ˢ ([[0, 1, 2, 3, 4]] : List (List (Fin 12)))).map
      (fun p => pairError 42 3 ((1 / 2 : ℚ) : ℝ) (jaccard p.1 p.2)) =
      readmeDocs.map fun A => pairError 42 3 ((1 / 2 : ℚ) : ℝ) (jaccard A [0, 1, 2, 3, 4]) := rfl
  rw [e] at key
  have herr := readme_error
  refine le_trans (by linarith) (key.trans (proportion_mono fun π hp => ?_))
  obtain ⟨res, h1, h2⟩ := hp _ (List.mem_singleton.mpr rfl)
  refine ⟨res, h1, fun id => ?_⟩
  rw [h2 id]
  obtain ⟨j0, j1, j2, j3, j4⟩ := readme_jaccard
  rcases Nat.lt_or_ge id 5 with hid | hid
  · interval_cases id
    · exact ⟨fun _ => by norm_num, fun _ => ⟨_, rfl, by rw [j0]; norm_num⟩⟩
    · exact ⟨fun _ => by norm_num, fun _ => ⟨_, rfl, by rw [j1]; norm_num⟩⟩
    · exact ⟨fun _ => by norm_num, fun _ => ⟨_, rfl, by rw [j2]; norm_num⟩⟩
    · exact ⟨fun _ => by norm_num, fun _ => ⟨_, rfl, by rw [j3]; norm_num⟩⟩
    · refine ⟨?_, fun h => absurd h (by norm_num)⟩
      rintro ⟨A, hA, hj⟩
      cases hA
      rw [j4] at hj
      norm_num at hj
  · refine ⟨?_, fun h => by omega⟩
    rintro ⟨A, hA, _⟩
    rw [List.getElem?_eq_none (by simpa [readmeDocs] using hid)] at hA
    cases hA

/-- C141 deduplicates three documents, two of which have the same words, rightly with a probability of at least 0.99. -/
example (h : List Nat → UInt64) : 99 / 100 ≤ proportion (fun π : Fin (42 * 3) → Equiv.Perm (Fin 3) =>
    ∃ (idx : MinHashIndex Nat Nat C) (kept : List (Nat × List (Fin 3))),
      keepNew (fun (i : MinHashIndex Nat Nat C) q => (i.queryOwned q).map HSet.elems) MinHashIndex.insert
        (MinHashIndex.newIndex 42 3 (.fin (1 / 2)) h)
        ([(1, [0, 1]), (2, [1, 0, 1]), (3, [2])].map fun p => (p.1, idealSignature Fin.val (List.ofFn π) p.2)) =
        .ok (idx, kept.map fun p => (p.1, idealSignature Fin.val (List.ofFn π) p.2)) ∧
      FirstFit (fun A B => ((1 / 2 : ℚ) : ℝ) ≤ jaccard A B) [(1, [0, 1]), (2, [1, 0, 1]), (3, [2])] kept ∧
      (∀ k ∈ kept, ∀ k' ∈ kept, k ≠ k' → jaccard k.2 k'.2 < ((1 / 2 : ℚ) : ℝ)) ∧
      ∀ p ∈ ([(1, [0, 1]), (2, [1, 0, 1]), (3, [2])] : List (Nat × List (Fin 3))), p ∉ kept → ∃ k ∈ kept,
        ((1 / 2 : ℚ) : ℝ) ≤ jaccard k.2 p.2) := by
  have key := C141_dedup (C := C) 42 3 (1 / 2) h Fin.val
    ([(1, [0, 1]), (2, [1, 0, 1]), (3, [2])] : List (Nat × List (Fin 3))) (by norm_num) (by norm_num)
    Fin.val_injective (by decide) (by decide) ⟨1, -1, by norm_num [zpow_neg], by norm_num, by norm_num, by norm_num⟩
  refine le_trans ?_ key
  have e7 : Real.exp (-7) ≤ 1 / 1000 := by
    have he := Real.exp_one_gt_d9
    rw [Real.exp_neg, show Real.exp 7 = Real.exp 1 ^ 7 by rw [← Real.exp_nat_mul]; norm_num, inv_le_comm₀ (by positivity)
      (by norm_num)]
    calc ((1 / 1000 : ℝ))⁻¹ ≤ 2.7 ^ 7 := by norm_num
      _ ≤ Real.exp 1 ^ 7 := by gcongr; linarith
  have p1 : pairError 42 3 (1 / 2) 1 ≤ 1 / 1000 := by
    unfold pairError
    rw [if_pos (by norm_num)]
    norm_num
    exact (Real.exp_le_exp.mpr (by norm_num)).trans (e7.trans (by norm_num))
  have p0 : pairError 42 3 (1 / 2) 0 ≤ 1 / 1000 := by
    unfold pairError
    rw [if_neg (by norm_num)]
    refine (Real.exp_le_exp.mpr ?_).trans e7
    rw [max_eq_right (by norm_num)]
    norm_num
  have hj : ∀ p ∈ ([(1, [0, 1]), (2, [1, 0, 1]), (3, [2])] ×ˢ [(1, [0, 1]), (2, [1, 0, 1]), (3, [2])] :
      List ((Nat × List (Fin 3)) × (Nat × List (Fin 3)))),
      (p.1.2.toFinset ∩ p.2.2.toFinset).card = 0 ∨
        ((p.1.2.toFinset ∩ p.2.2.toFinset).card = (p.1.2.toFinset ∪ p.2.2.toFinset).card ∧
          (p.1.2.toFinset ∪ p.2.2.toFinset).card ≠ 0) := by decide
  have hs := List.sum_le_card_nsmul (([(1, [0, 1]), (2, [1, 0, 1]), (3, [2])] ×ˢ [(1, [0, 1]), (2, [1, 0, 1]), (3, [2])] :
      List ((Nat × List (Fin 3)) × (Nat × List (Fin 3)))).map
      fun p => pairError 42 3 ((1 / 2 : ℚ) : ℝ) (jaccard p.1.2 p.2.2)) (1 / 1000) (by
    intro x hx
    obtain ⟨p, hp, rfl⟩ := List.mem_map.mp hx
    unfold jaccard
    push_cast
    rcases hj p hp with hj | ⟨hj, hne⟩
    · rw [hj]; simpa using p0
    · rw [hj, div_self (by exact_mod_cast hne)]; simpa using p1)
  have hl : (([(1, [0, 1]), (2, [1, 0, 1]), (3, [2])] ×ˢ [(1, [0, 1]), (2, [1, 0, 1]), (3, [2])] :
      List ((Nat × List (Fin 3)) × (Nat × List (Fin 3)))).map
      fun p => pairError 42 3 ((1 / 2 : ℚ) : ℝ) (jaccard p.1.2 p.2.2)).length = 9 := rfl
  rw [hl] at hs
  norm_num at hs ⊢
  linarith

/-- The hypotheses of the theorem on clusters are met. -/
example : ∃ (docs : List (List (Fin 3))) (ops : (Fin (42 * 3) → Equiv.Perm (Fin 3)) → List (Op Nat Nat))
    (near : Nat → HSet Nat), (∀ A ∈ docs, A ≠ []) ∧ (∀ π, RightLengths (42 * 3) (ops π)) ∧
    (∀ π id, live (42 * 3) (ops π) id = docs[id]?.map (idealSignature Fin.val (List.ofFn π))) ∧
    (near 0).elems = [0, 1] ∧
    ∀ p q, q ∈ (near p).elems ↔ ∃ A B, docs[q]? = some A ∧ docs[p]? = some B ∧ ((1 / 2 : ℚ) : ℝ) ≤ jaccard A B := by
  have hlen : ∀ (π : Fin (42 * 3) → Equiv.Perm (Fin 3)) (X : List (Fin 3)),
      (idealSignature Fin.val (List.ofFn π) X).length = 42 * 3 := by
    intro π X; rw [ideal_length, List.length_ofFn]
  have j : ∀ A ∈ ([[0, 1], [1, 0]] : List (List (Fin 3))), ∀ B ∈ ([[0, 1], [1, 0]] : List (List (Fin 3))),
      ((1 / 2 : ℚ) : ℝ) ≤ jaccard A B := by
    intro A hA B hB
    have : (A.toFinset ∩ B.toFinset).card = 2 ∧ (A.toFinset ∪ B.toFinset).card = 2 := by
      revert A B; decide
    unfold jaccard
    rw [this.1, this.2]
    norm_num
  refine ⟨[[0, 1], [1, 0]], fun π => ([[0, 1], [1, 0]] : List (List (Fin 3))).zipIdx.map fun p =>
    .insert p.2 (idealSignature Fin.val (List.ofFn π) p.1), fun p => if p < 2 then ⟨[0, 1], by decide⟩ else HSet.empty,
    by decide, ?_, fun π id => live_zipIdx _ _ (hlen π) _ id, rfl, ?_⟩
  · intro π op hop s hs
    obtain ⟨p, _, rfl⟩ := List.mem_map.mp hop
    simp only [sigsOf, List.mem_singleton] at hs
    rw [hs, hlen]
  · intro p q
    constructor
    · intro hq
      by_cases hp : p < 2
      · simp only [hp, if_true] at hq
        have hq : q < 2 := by simp at hq; omega
        exact ⟨_, _, List.getElem?_eq_getElem hq, List.getElem?_eq_getElem hp,
          j _ (List.getElem_mem _) _ (List.getElem_mem _)⟩
      · simp only [hp, if_false] at hq
        cases hq
    · rintro ⟨A, B, hA, hB, _⟩
      have hp := (List.getElem?_eq_some_iff.mp hB).1
      have hq := (List.getElem?_eq_some_iff.mp hA).1
      simp only [List.length_cons, List.length_nil] at hp hq
      have hp : p < 2 := hp
      simp only [hp, if_true]
      simp
      omega

end Verif.Props
