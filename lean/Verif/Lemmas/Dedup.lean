import Verif.Spec.Dedup
import Mathlib.Data.List.Nodup
import Mathlib.Data.List.Induction
import Mathlib.Logic.Function.Basic

/-! # One-pass deduplication over any index that answers exactly -/
namespace Verif
open Verif.Spec

theorem keepNew_run {σ D ε Id : Type} [DecidableEq Id] {query : σ → D → Except ε (List Id)}
    {insert : σ → Id → D → σ × Except ε Unit} (Holds : σ → (Id → Option D) → Prop) (Ok : D → Prop)
    (Found : D → D → Prop)
    (hq : ∀ st L d, Holds st L → Ok d → ∃ res, query st d = .ok res ∧ ∀ id, id ∈ res ↔ ∃ d', L id = some d' ∧ Found d' d)
    (hi : ∀ st L id d, Holds st L → Ok d → L id = none → (insert st id d).2 = .ok () ∧
      Holds (insert st id d).1 (Function.update L id (some d))) :
    ∀ (docs : List (Id × D)) (st : σ) (L : Id → Option D), Holds st L → (docs.map Prod.fst).Nodup →
      (∀ p ∈ docs, L p.1 = none) → (∀ p ∈ docs, Ok p.2) →
      ∃ (st' : σ) (kept : List (Id × D)) (L' : Id → Option D), keepNew query insert st docs = .ok (st', kept) ∧
        kept.Sublist docs ∧ Holds st' L' ∧ (∀ id d, L' id = some d ↔ L id = some d ∨ (id, d) ∈ kept) ∧
        ∀ pre p post, docs = pre ++ p :: post → (p ∈ kept ↔ (∀ id d, L id = some d → ¬ Found d p.2) ∧
          ∀ k ∈ kept, k ∈ pre → ¬ Found k.2 p.2) := by
  intro docs
  induction docs with
  | nil =>
    intro st L h _ _ _
    exact ⟨st, [], L, rfl, List.Sublist.refl _, h, by simp, by simp⟩
  | cons p ps ih =>
    intro st L h hnd hL hok
    rw [List.map_cons, List.nodup_cons] at hnd
    have hp : p ∉ ps := fun h' => hnd.1 (List.mem_map_of_mem h')
    obtain ⟨res, e1, e2⟩ := hq st L p.2 h (hok p (by simp))
    unfold keepNew
    rw [e1]
    cases res with
    | cons x xs =>
      obtain ⟨st', kept, L', h1, h2, h3, h4, h5⟩ := ih st L h hnd.2 (fun q hq => hL q (by simp [hq]))
        fun q hq => hok q (by simp [hq])
      refine ⟨st', kept, L', h1, h2.cons _, h3, h4, ?_⟩
      have hpk : p ∉ kept := fun h' => hp (h2.subset h')
      obtain ⟨d', f1, f2⟩ := (e2 x).mp (by simp)
      intro pre q post e
      cases pre with
      | nil =>
        simp only [List.nil_append, List.cons.injEq] at e
        rw [← e.1]
        exact ⟨fun h' => absurd h' hpk, fun h' => absurd f2 (h'.1 x d' f1)⟩
      | cons y pre =>
        simp only [List.cons_append, List.cons.injEq] at e
        rw [h5 pre q post e.2, ← e.1]
        refine and_congr_right fun _ => forall_congr' fun k => forall_congr' fun hk => ?_
        have : k ≠ p := fun e => hpk (e ▸ hk)
        simp [this]
    | nil =>
      have hnone : ∀ id d, L id = some d → ¬ Found d p.2 := fun id d h1 h2 => by
        have := (e2 id).mpr ⟨d, h1, h2⟩
        cases this
      obtain ⟨i1, i2⟩ := hi st L p.1 p.2 h (hok p (by simp)) (hL p (by simp))
      have hup : ∀ id d, Function.update L p.1 (some p.2) id = some d ↔ L id = some d ∨ (id, d) = p := by
        intro id d
        by_cases e : id = p.1
        · subst e
          rw [Function.update_self, hL p (by simp), Option.some.injEq]
          constructor
          · rintro rfl; exact .inr rfl
          · rintro (h' | h')
            · cases h'
            · rw [← h']
        · rw [Function.update_of_ne e]
          exact ⟨.inl, fun h' => h'.resolve_right fun h'' => e (by rw [← h''])⟩
      obtain ⟨st', kept, L', h1, h2, h3, h4, h5⟩ := ih _ _ i2 hnd.2
        (fun q hq => by
          rw [Function.update_of_ne (show q.1 ≠ p.1 from fun e => hnd.1 (by rw [← e]; exact List.mem_map_of_mem hq))]
          exact hL q (by simp [hq]))
        fun q hq => hok q (by simp [hq])
      refine ⟨st', p :: kept, L', ?_, h2.cons_cons _, h3, ?_, ?_⟩
      · rcases hins : insert st p.1 p.2 with ⟨st1, r1⟩
        rw [hins] at i1 h1
        simp only at i1 h1
        subst i1
        simp only [h1]
      · intro id d
        rw [h4, hup, List.mem_cons]
        exact or_assoc
      intro pre q post e
      cases pre with
      | nil =>
        simp only [List.nil_append, List.cons.injEq] at e
        rw [← e.1]
        exact ⟨fun _ => ⟨hnone, by simp⟩, fun _ => by simp⟩
      | cons y pre =>
        simp only [List.cons_append, List.cons.injEq] at e
        have hqp : q ≠ p := fun h' => hp (by rw [← h', e.2]; simp)
        rw [List.mem_cons, or_iff_right hqp, h5 pre q post e.2, ← e.1]
        constructor
        · rintro ⟨g1, g2⟩
          refine ⟨fun id d h' => g1 id d ((hup id d).mpr (.inl h')), fun k hk hk' => ?_⟩
          by_cases hkp : k = p
          · subst hkp
            exact g1 k.1 k.2 ((hup _ _).mpr (.inr rfl))
          · exact g2 k ((List.mem_cons.mp hk).resolve_left hkp) ((List.mem_cons.mp hk').resolve_left hkp)
        · rintro ⟨g1, g2⟩
          refine ⟨fun id d h' => ?_, fun k hk hk' => g2 k (by simp [hk]) (by simp [hk'])⟩
          rcases (hup id d).mp h' with h' | h'
          · exact g1 id d h'
          · rw [← h'] at g2
            exact g2 (id, d) (by simp) (by simp)

/-- The same on an index that holds nothing. -/
theorem keepNew_fresh {σ D ε Id : Type} [DecidableEq Id] {query : σ → D → Except ε (List Id)}
    {insert : σ → Id → D → σ × Except ε Unit} (Holds : σ → (Id → Option D) → Prop) (Ok : D → Prop)
    (Found : D → D → Prop)
    (hq : ∀ st L d, Holds st L → Ok d → ∃ res, query st d = .ok res ∧ ∀ id, id ∈ res ↔ ∃ d', L id = some d' ∧ Found d' d)
    (hi : ∀ st L id d, Holds st L → Ok d → L id = none → (insert st id d).2 = .ok () ∧
      Holds (insert st id d).1 (Function.update L id (some d)))
    (docs : List (Id × D)) (st : σ) (h : Holds st fun _ => none) (hnd : (docs.map Prod.fst).Nodup)
    (hok : ∀ p ∈ docs, Ok p.2) :
    ∃ (st' : σ) (kept : List (Id × D)), keepNew query insert st docs = .ok (st', kept) ∧ FirstFit Found docs kept ∧
      ∀ d, Ok d → ∃ res, query st' d = .ok res ∧ ∀ id, id ∈ res ↔ ∃ d', (id, d') ∈ kept ∧ Found d' d := by
  obtain ⟨st', kept, L', h1, h2, h3, h4, h5⟩ := keepNew_run Holds Ok Found hq hi docs st _ h hnd (fun _ _ => rfl) hok
  refine ⟨st', kept, h1, ⟨h2, fun pre p post e => ?_⟩, fun d hd => ?_⟩
  · rw [h5 pre p post e]
    exact ⟨fun g => g.2, fun g => ⟨by simp, g⟩⟩
  · obtain ⟨res, e1, e2⟩ := hq st' L' d h3 hd
    refine ⟨res, e1, fun id => ?_⟩
    rw [e2]
    simp [h4]

/-- In a first-fit choice, by a symmetric relation, no two documents are similar and every document that was not kept
is similar to one kept before it. -/
theorem Spec.FirstFit.separated {D Id : Type} {sim : D → D → Prop} {docs kept : List (Id × D)} (h : FirstFit sim docs kept)
    (hnd : (docs.map Prod.fst).Nodup) (hs : ∀ x y, sim x y → sim y x) :
    (∀ k ∈ kept, ∀ k' ∈ kept, k ≠ k' → ¬ sim k.2 k'.2) ∧
    ∀ p ∈ docs, p ∉ kept → ∃ k ∈ kept, sim k.2 p.2 := by
  refine ⟨fun k hk k' hk' hne => ?_, fun p hp hpk => ?_⟩
  · obtain ⟨pre, post, e⟩ := List.append_of_mem (h.sub.subset hk')
    have hm : k ∈ pre ∨ k ∈ post := by
      have := h.sub.subset hk
      rw [e, List.mem_append, List.mem_cons] at this
      rcases this with h1 | h1 | h1
      · exact .inl h1
      · exact absurd h1 hne
      · exact .inr h1
    rcases hm with hm | hm
    · exact (h.iff pre k' post e).mp hk' k hk hm
    · obtain ⟨a, b, e'⟩ := List.append_of_mem hm
      have e2 : docs = (pre ++ k' :: a) ++ k :: b := by rw [e, e']; simp
      exact fun hsim => (h.iff _ k b e2).mp hk k' hk' (by simp) (hs _ _ hsim)
  · obtain ⟨pre, post, e⟩ := List.append_of_mem hp
    by_contra hcon
    refine hpk ((h.iff pre p post e).mpr fun k hk _ hsim => hcon ⟨k, hk, hsim⟩)

/-- What the final index answers: a kept document finds itself only, and every document of the input finds one. -/
theorem Spec.FirstFit.answers {D Id : Type} {sim : D → D → Prop} {docs kept : List (Id × D)} (h : FirstFit sim docs kept)
    (hnd : (docs.map Prod.fst).Nodup) (hs : ∀ x y, sim x y → sim y x) (hself : ∀ p ∈ docs, sim p.2 p.2) :
    (∀ k ∈ kept, ∀ id, (∃ d', (id, d') ∈ kept ∧ sim d' k.2) ↔ id = k.1) ∧
    ∀ p ∈ docs, ∃ k ∈ kept, sim k.2 p.2 := by
  obtain ⟨h1, h2⟩ := h.separated hnd hs
  refine ⟨fun k hk id => ⟨?_, ?_⟩, fun p hp => ?_⟩
  · rintro ⟨d', hd, hsim⟩
    by_contra hne
    exact h1 _ hd k hk (fun e => hne (by rw [← e])) hsim
  · rintro rfl
    exact ⟨k.2, hk, hself k (h.sub.subset hk)⟩
  · by_cases hk : p ∈ kept
    · exact ⟨p, hk, hself p hp⟩
    · exact h2 p hp hk

/-- There is only one first-fit choice. -/
theorem Spec.FirstFit.unique {D Id : Type} {sim : D → D → Prop} {docs kept kept' : List (Id × D)}
    (hnd : (docs.map Prod.fst).Nodup) (h : FirstFit sim docs kept) (h' : FirstFit sim docs kept') : kept = kept' := by
  have hmem : ∀ pre post, docs = pre ++ post → ∀ p ∈ pre, p ∈ kept ↔ p ∈ kept' := by
    intro pre
    induction pre using List.reverseRecOn with
    | nil => simp
    | append_singleton pre x ih =>
      intro post e
      rw [List.append_assoc, List.singleton_append] at e
      have ih' := ih _ e
      intro p hp
      rcases List.mem_append.mp hp with hp | hp
      · exact ih' p hp
      · obtain rfl := List.mem_singleton.mp hp
        rw [h.iff pre _ post e, h'.iff pre _ post e]
        exact ⟨fun g k hk hk' => g k ((ih' k hk').mpr hk) hk', fun g k hk hk' => g k ((ih' k hk').mp hk) hk'⟩
  have hm : ∀ p, p ∈ kept ↔ p ∈ kept' := fun p =>
    ⟨fun hp => (hmem docs [] (by simp) p (h.sub.subset hp)).mp hp,
      fun hp => (hmem docs [] (by simp) p (h'.sub.subset hp)).mpr hp⟩
  have hd : docs.Nodup := List.Nodup.of_map _ hnd
  have hsub : ∀ (ds k1 k2 : List (Id × D)), ds.Nodup → k1.Sublist ds → k2.Sublist ds → (∀ p, p ∈ k1 ↔ p ∈ k2) →
      k1 = k2 := by
    intro ds
    induction ds with
    | nil => intro k1 k2 _ h1 h2 _; rw [List.sublist_nil.mp h1, List.sublist_nil.mp h2]
    | cons x ds ih =>
      intro k1 k2 hn h1 h2 he
      rw [List.nodup_cons] at hn
      cases h1 with
      | cons _ h1 =>
        cases h2 with
        | cons _ h2 => exact ih _ _ hn.2 h1 h2 he
        | cons_cons _ h2 => exact absurd (h1.subset ((he x).mpr (by simp))) hn.1
      | cons_cons _ h1 =>
        cases h2 with
        | cons _ h2 => exact absurd (h2.subset ((he x).mp (by simp))) hn.1
        | cons_cons _ h2 =>
          rename_i l1 l2
          congr 1
          refine ih _ _ hn.2 h1 h2 fun p => ?_
          have := he p
          simp only [List.mem_cons] at this
          by_cases hp : p = x
          · subst hp
            exact ⟨fun h => absurd (h1.subset h) hn.1, fun h => absurd (h2.subset h) hn.1⟩
          · simpa [hp] using this
  exact hsub docs kept kept' hd h.sub h'.sub hm

end Verif
