import Verif.Lemmas.IndexExact
import Verif.Lemmas.Sort

/-! What the ranked queries return when they return. -/
set_option linter.unusedSectionVars false
namespace Verif
open Spec

variable {T Id C : Type} [DecidableEq T] [DecidableEq Id] [IdContainer C Id]

theorem forall₂_mem_left {α β : Type} {R : α → β → Prop} {l : List α} {l' : List β}
    (h : List.Forall₂ R l l') : ∀ x ∈ l, ∃ y ∈ l', R x y := by
  intro x hx
  obtain ⟨y, hy, hr⟩ := forall₂_mem_right h.flip x hx
  exact ⟨y, hy, hr⟩

theorem bind_ok {α β : Type} {x : Except Panic α} {f : α → Except Panic β} {y : β}
    (h : (x >>= f) = .ok y) : ∃ a, x = .ok a ∧ f a = .ok y := by
  cases x with
  | error e => cases h
  | ok a => exact ⟨a, rfl, h⟩

theorem forall₂_map_eq {α β γ : Type} {R : α → β → Prop} {f : α → γ} {g : β → γ} {l : List α} {l' : List β}
    (h : List.Forall₂ R l l') (hR : ∀ a b, R a b → g b = f a) : l'.map g = l.map f := by
  induction h with
  | nil => rfl
  | cons h1 _ ih => simp [hR _ _ h1, ih]

theorem signatureAt_ok {idx : MinHashIndex T Id C} {id : Id} {s : List T} :
    idx.signatureAt id = .ok s ↔ idx.idSignatures.get? id = some s := by
  unfold MinHashIndex.signatureAt
  cases idx.idSignatures.get? id with
  | none => simp
  | some s' => simp

/-! ### query_one -/

theorem oneCandidates_mem {idx : MinHashIndex T Id C} {q : List T} {ids : List Id} {l : List (Id × Fl)}
    (h : idx.oneCandidates q ids = .ok l) (p : Id × Fl) :
    p ∈ l ↔ p.1 ∈ ids ∧ ∃ s, idx.idSignatures.get? p.1 = some s ∧ minhashSimilarity s q = .ok p.2 ∧
      Fl.gt p.2 idx.threshold = true := by
  unfold MinHashIndex.oneCandidates at h
  simp only at h
  obtain ⟨l', h1, h2⟩ := bind_ok h
  cases h2
  rw [mapM_ok_iff] at h1
  have hR : ∀ (a : Id × List T) (b : Id × Fl), (do
      let s ← minhashSimilarity a.2 q
      pure (a.1, s) : Except Panic (Id × Fl)) = .ok b ↔ b.1 = a.1 ∧ minhashSimilarity a.2 q = .ok b.2 := by
    intro a b
    cases hs : minhashSimilarity a.2 q with
    | error e => constructor <;> intro hh <;> [cases hh; cases hh.2]
    | ok v =>
      constructor
      · intro hh; cases hh; exact ⟨rfl, rfl⟩
      · rintro ⟨e1, e2⟩; cases e2; rw [← e1]; rfl
  rw [List.mem_filter]
  constructor
  · rintro ⟨hm, hg⟩
    obtain ⟨a, ha, hab⟩ := forall₂_mem_right h1 p hm
    obtain ⟨e1, e2⟩ := (hR a p).mp hab
    rw [List.mem_filterMap] at ha
    obtain ⟨id, hid, hsome⟩ := ha
    rw [Option.map_eq_some_iff] at hsome
    obtain ⟨s, hs, rfl⟩ := hsome
    simp only at e1 e2
    rw [e1]
    exact ⟨hid, s, hs, e2, hg⟩
  · rintro ⟨hid, s, hs, hv, hg⟩
    refine ⟨?_, hg⟩
    have ha : (p.1, s) ∈ ids.filterMap fun id => (idx.idSignatures.get? id).map fun sig => (id, sig) := by
      rw [List.mem_filterMap]; exact ⟨p.1, hid, by rw [hs]; rfl⟩
    obtain ⟨b, hb, hab⟩ := forall₂_mem_left h1 _ ha
    obtain ⟨e1, e2⟩ := (hR _ b).mp hab
    simp only at e1 e2
    rw [hv] at e2
    injection e2 with e2
    have : p = b := Prod.ext e1.symm e2
    rwa [this]

theorem oneCandidates_ok {idx : MinHashIndex T Id C} {q : List T} {ids : List Id}
    (h : ∀ id ∈ ids, ∀ s, idx.idSignatures.get? id = some s → s.length = q.length) :
    ∃ l, idx.oneCandidates q ids = .ok l := by
  unfold MinHashIndex.oneCandidates
  simp only
  obtain ⟨l, hl⟩ := mapM_isOk (l := ids.filterMap fun id => (idx.idSignatures.get? id).map fun sig => (id, sig))
    (f := fun p => (do
      let s ← minhashSimilarity p.2 q
      pure (p.1, s) : Except Panic (Id × Fl))) (by
    intro a ha
    rw [List.mem_filterMap] at ha
    obtain ⟨id, hid, hsome⟩ := ha
    rw [Option.map_eq_some_iff] at hsome
    obtain ⟨s, hs, rfl⟩ := hsome
    obtain ⟨v, hv⟩ := minhashSimilarity_ok (h id hid s hs)
    exact ⟨(id, v), by simp only [hv]; rfl⟩)
  rw [hl]
  exact ⟨_, rfl⟩

/-! ### query_owned_return_similarity -/

theorem similarEntry_ok {idx : MinHashIndex T Id C} {q : List T} {id : Id} {e : Option (Id × Fl)} :
    idx.similarEntry q id = .ok e ↔ ∃ s v, idx.idSignatures.get? id = some s ∧ minhashSimilarity s q = .ok v ∧
      e = if Fl.ge v idx.threshold then some (id, v) else none := by
  unfold MinHashIndex.similarEntry
  constructor
  · intro h
    obtain ⟨s, h1, h2⟩ := bind_ok h
    obtain ⟨v, h3, h4⟩ := bind_ok h2
    cases h4
    exact ⟨s, v, signatureAt_ok.mp h1, h3, rfl⟩
  · rintro ⟨s, v, h1, h2, rfl⟩
    rw [signatureAt_ok.mpr h1]
    show (minhashSimilarity s q >>= _) = _
    rw [h2]; rfl

theorem retSim_ok {o1 o2 : Order} {idx : MinHashIndex T Id C} {q : List T} {l : List (Id × Fl)}
    (h : idx.queryOwnedReturnSimilarity o1 o2 q = .ok l) :
    ∃ S, idx.candidatesOwned q = .ok S ∧
      (∀ id ∈ S.elems, ∃ s v, idx.idSignatures.get? id = some s ∧ minhashSimilarity s q = .ok v) ∧
      (l.map Prod.fst).Nodup ∧
      (∀ p, p ∈ l ↔ p.1 ∈ S.elems ∧ ∃ s, idx.idSignatures.get? p.1 = some s ∧
        minhashSimilarity s q = .ok p.2 ∧ Fl.ge p.2 idx.threshold = true) ∧
      l.Pairwise fun a b => Fl.ge a.2 b.2 = true := by
  unfold MinHashIndex.queryOwnedReturnSimilarity at h
  obtain ⟨S, h1, h2⟩ := bind_ok h
  obtain ⟨res, h3, h4⟩ := bind_ok h2
  obtain ⟨hp, hs⟩ := sortByKeyE_desc h4
  rw [mapM_ok_iff] at h3
  refine ⟨S, h1, ?_, ?_, ?_, hs⟩
  · intro id hid
    obtain ⟨e, _, he⟩ := forall₂_mem_left h3 id ((o1.mem_perm _ _).mpr hid)
    obtain ⟨s, v, e1, e2, _⟩ := similarEntry_ok.mp he
    exact ⟨s, v, e1, e2⟩
  · have hsub : ((res.filterMap fun x => x).map Prod.fst).Sublist (o1.perm S.elems) := by
      clear h4 hp hs
      generalize o1.perm S.elems = ids at h3
      induction h3 with
      | nil => simp
      | @cons a e as es he _ ih =>
        obtain ⟨s, v, _, _, rfl⟩ := similarEntry_ok.mp he
        by_cases hg : Fl.ge v idx.threshold = true
        · rw [if_pos hg]; exact ih.cons_cons a
        · rw [if_neg hg]; exact ih.cons a
    rw [(hp.map Prod.fst).nodup_iff]
    exact hsub.nodup ((o1.isPerm _).nodup_iff.mpr S.nodup)
  · intro p
    rw [hp.mem_iff, List.mem_filterMap]
    constructor
    · rintro ⟨e, he, rfl⟩
      obtain ⟨id, hid, hh⟩ := forall₂_mem_right h3 _ he
      obtain ⟨s, v, e1, e2, e3⟩ := similarEntry_ok.mp hh
      split_ifs at e3 with hg
      cases e3
      exact ⟨(o1.mem_perm _ _).mp hid, s, e1, e2, hg⟩
    · rintro ⟨hid, s, e1, e2, e3⟩
      obtain ⟨e, he, hh⟩ := forall₂_mem_left h3 p.1 ((o1.mem_perm _ _).mpr hid)
      obtain ⟨s', v, e4, e5, e6⟩ := similarEntry_ok.mp hh
      rw [e1] at e4; cases e4
      rw [e2] at e5; cases e5
      rw [if_pos e3] at e6
      exact ⟨e, he, e6⟩

theorem retSim_returns {o1 o2 : Order} {idx : MinHashIndex T Id C} {q : List T} {S : HSet Id}
    (hS : idx.candidatesOwned q = .ok S)
    (h : ∀ id ∈ S.elems, ∃ s, idx.idSignatures.get? id = some s ∧ s.length = q.length) :
    ∃ l, idx.queryOwnedReturnSimilarity o1 o2 q = .ok l := by
  unfold MinHashIndex.queryOwnedReturnSimilarity
  rw [hS]
  obtain ⟨res, hres⟩ := mapM_isOk (l := o1.perm S.elems) (f := idx.similarEntry q) (by
    intro id hid
    obtain ⟨s, h1, h2⟩ := h id ((o1.mem_perm _ _).mp hid)
    obtain ⟨v, hv⟩ := minhashSimilarity_ok h2
    exact ⟨_, similarEntry_ok.mpr ⟨s, v, h1, hv, rfl⟩⟩)
  show ∃ l, ((o1.perm S.elems).mapM (idx.similarEntry q) >>= _) = .ok l
  rw [hres]
  rw [mapM_ok_iff] at hres
  show ∃ l, sortByKeyE o2 (fun x y => Fl.tcmp y x != .gt) Prod.snd (res.filterMap fun x => x) = .ok l
  refine (sortByKeyE_ok_iff o2 _ Prod.snd _).mpr ?_
  intro _ x hx
  rw [List.mem_filterMap] at hx
  obtain ⟨e, he, rfl⟩ := hx
  obtain ⟨id, _, hh⟩ := forall₂_mem_right hres _ he
  obtain ⟨s, v, _, _, e3⟩ := similarEntry_ok.mp hh
  split_ifs at e3 with hg
  cases e3
  exact (Fl.ge_ne_nan hg).1

/-! ### query_top_k -/

theorem distanceEntry_ok {idx : MinHashIndex T Id C} {q : List T} {id : Id} {e : Id × Fl} :
    idx.distanceEntry q id = .ok e ↔ e.1 = id ∧ ∃ s, idx.idSignatures.get? id = some s ∧
      minhashDistance q s = .ok e.2 := by
  unfold MinHashIndex.distanceEntry
  constructor
  · intro h
    obtain ⟨s, h1, h2⟩ := bind_ok h
    obtain ⟨v, h3, h4⟩ := bind_ok h2
    cases h4
    exact ⟨rfl, s, signatureAt_ok.mp h1, h3⟩
  · rintro ⟨rfl, s, h1, h2⟩
    rw [signatureAt_ok.mpr h1]
    show (minhashDistance q s >>= _) = _
    rw [h2]; rfl

theorem topK_ok {o1 o2 : Order} {idx : MinHashIndex T Id C} {q : List T} {k : Nat} {l : List (Id × Fl)}
    (h : idx.queryTopK o1 o2 q k = .ok l) :
    ∃ (S : HSet Id) (all : List (Id × Fl)), idx.candidatesOwned q = .ok S ∧ (all.map Prod.fst).Perm S.elems ∧
      (∀ p ∈ all, ∃ s, idx.idSignatures.get? p.1 = some s ∧ minhashDistance q s = .ok p.2) ∧
      all.Pairwise (fun a b => Fl.ge b.2 a.2 = true) ∧ l = all.take k := by
  unfold MinHashIndex.queryTopK at h
  obtain ⟨S, h1, h2⟩ := bind_ok h
  obtain ⟨res, h3, h4⟩ := bind_ok h2
  obtain ⟨all, h5, h6⟩ := bind_ok h4
  obtain ⟨hp, hs⟩ := sortByKeyE_asc h5
  rw [mapM_ok_iff] at h3
  have hmap : res.map Prod.fst = o1.perm S.elems := by
    have := forall₂_map_eq (f := fun x => x) (g := Prod.fst) h3 (fun a b hab => (distanceEntry_ok.mp hab).1)
    rw [this, List.map_id']
  refine ⟨S, all, h1, ?_, ?_, hs, ?_⟩
  · have := hp.map Prod.fst
    rw [hmap] at this
    exact this.trans (o1.isPerm _)
  · intro p hpm
    obtain ⟨id, _, hh⟩ := forall₂_mem_right h3 p (hp.mem_iff.mp hpm)
    obtain ⟨e1, s, e2, e3⟩ := distanceEntry_ok.mp hh
    exact ⟨s, by rw [e1]; exact e2, e3⟩
  · unfold slice at h6
    rw [if_pos (by simp)] at h6
    cases h6
    simp only [List.drop_zero, Nat.sub_zero]
    rcases le_total all.length k with hk | hk
    · rw [min_eq_left hk, List.take_length, List.take_of_length_le hk]
    · rw [min_eq_right hk]

theorem topK_returns {o1 o2 : Order} {idx : MinHashIndex T Id C} {q : List T} {k : Nat} {S : HSet Id}
    (hS : idx.candidatesOwned q = .ok S)
    (h : ∀ id ∈ S.elems, ∃ s d, idx.idSignatures.get? id = some s ∧ minhashDistance q s = .ok d ∧ d ≠ .nan) :
    ∃ l, idx.queryTopK o1 o2 q k = .ok l := by
  unfold MinHashIndex.queryTopK
  rw [hS]
  obtain ⟨res, hres⟩ := mapM_isOk (l := o1.perm S.elems) (f := idx.distanceEntry q) (by
    intro id hid
    obtain ⟨s, d, h1, h2, _⟩ := h id ((o1.mem_perm _ _).mp hid)
    exact ⟨(id, d), distanceEntry_ok.mpr ⟨rfl, s, h1, h2⟩⟩)
  show ∃ l, ((o1.perm S.elems).mapM (idx.distanceEntry q) >>= _) = .ok l
  rw [hres]
  rw [mapM_ok_iff] at hres
  obtain ⟨sorted, hso⟩ := (sortByKeyE_ok_iff o2 (fun x y => Fl.tcmp x y != .gt) Prod.snd res).mpr (by
    intro _ x hx
    obtain ⟨id, hid, hh⟩ := forall₂_mem_right hres _ hx
    obtain ⟨e1, s, e2, e3⟩ := distanceEntry_ok.mp hh
    obtain ⟨s', d, h1, h2, h3⟩ := h id ((o1.mem_perm _ _).mp hid)
    rw [e2] at h1; cases h1
    rw [e3] at h2; cases h2
    exact h3)
  show ∃ l, (sortByKeyE o2 (fun x y => Fl.tcmp x y != .gt) Prod.snd res >>= _) = .ok l
  rw [hso]
  show ∃ l, slice sorted 0 (min sorted.length k) = .ok l
  unfold slice
  rw [if_pos (by simp)]
  exact ⟨_, rfl⟩

end Verif
