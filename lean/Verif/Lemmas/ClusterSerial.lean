import Verif.Model.ClusterSerial
import Verif.Lemmas.Prelude

/-! # Lemmas on serial clustering -/
namespace Verif
variable {P : Type} [DecidableEq P]

theorem createNewCluster_eq (labels : HMap P Nat) (points : List P) (cid : Nat) :
    (createNewCluster labels points cid).2 = { points, clusterId := cid } ∧
    ∀ p, (createNewCluster labels points cid).1.get? p = if p ∈ points then some cid else labels.get? p := by
  have key : ∀ (points : List P) (s : HMap P Nat × SerialCluster P),
      (points.foldl (fun s point => (s.1.insert point cid, { s.2 with points := s.2.points ++ [point] })) s).2 =
        { s.2 with points := s.2.points ++ points } ∧
      ∀ p, (points.foldl (fun s point => (s.1.insert point cid, { s.2 with points := s.2.points ++ [point] })) s).1.get? p =
        if p ∈ points then some cid else s.1.get? p := by
    intro points
    induction points with
    | nil => intro s; simp
    | cons x points ih =>
      intro s
      rw [List.foldl_cons]
      obtain ⟨h1, h2⟩ := ih (s.1.insert x cid, { s.2 with points := s.2.points ++ [x] })
      refine ⟨by rw [h1]; simp, fun p => ?_⟩
      rw [h2]
      simp only
      rw [HMap.get?_insert]
      by_cases hp : p ∈ points
      · simp [hp]
      · by_cases hx : p = x
        · simp [hx]
        · simp [hp, hx]
  obtain ⟨h1, h2⟩ := key points (labels, { points := [], clusterId := cid })
  exact ⟨by unfold createNewCluster; rw [h1]; simp, h2⟩

/-- What the loop maintains; `done` are the points already processed, `L0` the labels at the start. -/
structure SerialInv (min seq : Nat) (query : P → HSet P) (L0 : HMap P Nat) (done : List P) (s : SerialState P) :
    Prop where
  ids : s.clusters.map (fun c => c.clusterId) = List.range' (seq + 1) s.clusters.length
  seq_eq : s.clusterIdSeq = seq + s.clusters.length
  nodup : ∀ c ∈ s.clusters, c.points.Nodup
  disjoint : s.clusters.Pairwise fun a b => ∀ p ∈ a.points, p ∉ b.points
  fresh : ∀ c ∈ s.clusters, ∀ p ∈ c.points, L0.get? p = none
  labels : ∀ p k, s.labels.get? p = some k ↔
    L0.get? p = some k ∨ ∃ c ∈ s.clusters, c.clusterId = k ∧ p ∈ c.points
  large : ∀ c ∈ s.clusters, min < c.points.length
  center : ∀ c ∈ s.clusters, ∃ p ∈ done, L0.get? p = none ∧ ∀ q ∈ c.points, q ∈ (query p).elems
  maximal : ∀ p ∈ done, s.labels.get? p = none →
    ((query p).elems.filter fun q => (s.labels.get? q).isNone).length ≤ min

theorem serialInv_step {min seq : Nat} {query : P → HSet P} {ord : Nat → Order} {L0 : HMap P Nat} {done : List P}
    {s : SerialState P} (I : SerialInv min seq query L0 done s) (p : P × Nat) :
    SerialInv min seq query L0 (done ++ [p.1]) (serialStep min query ord s p) := by
  have center' : ∀ c ∈ s.clusters, ∃ x ∈ done ++ [p.1], L0.get? x = none ∧ ∀ q ∈ c.points, q ∈ (query x).elems := by
    intro c hc
    obtain ⟨x, h1, h2⟩ := I.center c hc
    exact ⟨x, by simp [h1], h2⟩
  unfold serialStep
  split_ifs with h1
  · refine ⟨I.ids, I.seq_eq, I.nodup, I.disjoint, I.fresh, I.labels, I.large, center', ?_⟩
    intro x hx hn
    rcases List.mem_append.mp hx with hx | hx
    · exact I.maximal x hx hn
    · rw [List.mem_singleton.mp hx] at hn
      rw [hn] at h1
      cases h1
  · simp only
    have hp0 : s.labels.get? p.1 = none := by
      cases h : s.labels.get? p.1 with
      | none => rfl
      | some _ => rw [h] at h1; exact absurd rfl h1
    set similar := ((ord p.2).perm (query p.1).elems).filter fun q => (s.labels.get? q).isNone with hsim
    have hlen : similar.length = ((query p.1).elems.filter fun q => (s.labels.get? q).isNone).length :=
      (((ord p.2).isPerm _).filter _).length_eq
    have hmem : ∀ q, q ∈ similar ↔ q ∈ (query p.1).elems ∧ s.labels.get? q = none := by
      intro q
      rw [hsim, List.mem_filter, Order.mem_perm, Option.isNone_iff_eq_none]
    split_ifs with h2
    · obtain ⟨e1, e2⟩ := createNewCluster_eq s.labels similar (s.clusterIdSeq + 1)
      -- points of the new cluster are not in the old ones
      have hold : ∀ c ∈ s.clusters, ∀ q ∈ c.points, q ∉ similar := by
        intro c hc q hq hs
        have := (I.labels q c.clusterId).mpr (Or.inr ⟨c, hc, rfl, hq⟩)
        rw [((hmem q).mp hs).2] at this
        cases this
      have hfresh : ∀ q, s.labels.get? q = none → L0.get? q = none := by
        intro q hq
        cases h : L0.get? q with
        | none => rfl
        | some k =>
          have := (I.labels q k).mpr (Or.inl h)
          rw [hq] at this
          cases this
      have hcl : ∀ c ∈ s.clusters ++ [(createNewCluster s.labels similar (s.clusterIdSeq + 1)).2],
          c ∈ s.clusters ∨ c = { points := similar, clusterId := s.clusterIdSeq + 1 } := by
        intro c hc
        rcases List.mem_append.mp hc with hc | hc
        · exact Or.inl hc
        · rw [List.mem_singleton.mp hc, e1]; exact Or.inr rfl
      refine ⟨?_, ?_, ?_, ?_, ?_, ?_, ?_, ?_, ?_⟩
      · simp only
        rw [List.map_append, I.ids, List.length_append, e1]
        simp only [List.map_cons, List.map_nil, List.length_cons, List.length_nil]
        rw [List.range'_concat, I.seq_eq]
        congr 2
        omega
      · simp only
        rw [List.length_append, I.seq_eq]
        simp only [List.length_cons, List.length_nil]
        omega
      · intro c hc
        rcases hcl c hc with hc | rfl
        · exact I.nodup c hc
        · exact ((((ord p.2).isPerm _).nodup_iff.mpr (query p.1).nodup)).filter _
      · simp only
        rw [List.pairwise_append]
        refine ⟨I.disjoint, by simp, ?_⟩
        intro a ha b hb q hq
        rw [List.mem_singleton.mp hb, e1]
        exact hold a ha q hq
      · intro c hc q hq
        rcases hcl c hc with hc | rfl
        · exact I.fresh c hc q hq
        · exact hfresh q ((hmem q).mp hq).2
      · intro q k
        simp only
        rw [e2]
        constructor
        · split_ifs with hq
          · intro hk
            injection hk with hk
            exact Or.inr ⟨_, List.mem_append.mpr (Or.inr (List.mem_singleton.mpr rfl)), by rw [e1]; exact hk,
              by rw [e1]; exact hq⟩
          · intro hk
            rcases (I.labels q k).mp hk with h | ⟨c, hc, h⟩
            · exact Or.inl h
            · exact Or.inr ⟨c, List.mem_append.mpr (Or.inl hc), h⟩
        · rintro (h | ⟨c, hc, hk, hq⟩)
          · have hn := (I.labels q k).mpr (Or.inl h)
            rw [if_neg, hn]
            intro hs
            rw [((hmem q).mp hs).2] at hn
            cases hn
          · rcases hcl c hc with hc | rfl
            · rw [if_neg (hold c hc q hq)]
              exact (I.labels q k).mpr (Or.inr ⟨c, hc, hk, hq⟩)
            · rw [if_pos hq]
              exact congrArg some hk
      · intro c hc
        rcases hcl c hc with hc | rfl
        · exact I.large c hc
        · exact h2
      · intro c hc
        rcases hcl c hc with hc | rfl
        · exact center' c hc
        · exact ⟨p.1, by simp, hfresh p.1 hp0, fun q hq => ((hmem q).mp hq).1⟩
      · have mono : ∀ q, (createNewCluster s.labels similar (s.clusterIdSeq + 1)).1.get? q = none →
            s.labels.get? q = none := by
          intro q hq
          rw [e2] at hq
          split_ifs at hq
          exact hq
        intro x hx hn
        simp only at hn ⊢
        rcases List.mem_append.mp hx with hx | hx
        · refine Nat.le_trans ?_ (I.maximal x hx (mono x hn))
          rw [← List.countP_eq_length_filter, ← List.countP_eq_length_filter]
          apply List.countP_mono_left
          intro q _ hq
          rw [Option.isNone_iff_eq_none] at hq ⊢
          exact mono q hq
        · rw [List.mem_singleton.mp hx]
          have : ((query p.1).elems.filter fun q =>
              ((createNewCluster s.labels similar (s.clusterIdSeq + 1)).1.get? q).isNone) = [] := by
            rw [List.filter_eq_nil_iff]
            intro q hq
            rw [Option.isNone_iff_eq_none]
            intro hn
            have := mono q hn
            rw [e2, if_pos ((hmem q).mpr ⟨hq, this⟩)] at hn
            cases hn
          rw [this]
          exact Nat.zero_le _
    · refine ⟨I.ids, I.seq_eq, I.nodup, I.disjoint, I.fresh, I.labels, I.large, center', ?_⟩
      intro x hx hn
      rcases List.mem_append.mp hx with hx | hx
      · exact I.maximal x hx hn
      · rw [List.mem_singleton.mp hx, ← hlen]
        omega

theorem serialInv_run {min seq : Nat} {query : P → HSet P} {ord : Nat → Order} {L0 : HMap P Nat} (points : List P) :
    SerialInv min seq query L0 points (points.zipIdx.foldl (serialStep min query ord)
      { labels := L0, clusters := [], clusterIdSeq := seq }) := by
  have key : ∀ (ps : List (P × Nat)) (done : List P) (s : SerialState P), SerialInv min seq query L0 done s →
      SerialInv min seq query L0 (done ++ ps.map Prod.fst) (ps.foldl (serialStep min query ord) s) := by
    intro ps
    induction ps with
    | nil => intro done s h; simpa using h
    | cons p ps ih =>
      intro done s h
      rw [List.foldl_cons, List.map_cons]
      have := ih (done ++ [p.1]) _ (serialInv_step (ord := ord) h p)
      simpa using this
  have h0 : SerialInv min seq query L0 [] { labels := L0, clusters := [], clusterIdSeq := seq } :=
    ⟨rfl, rfl, by simp, by simp, by simp, by simp, by simp, by simp, by simp⟩
  have := key points.zipIdx [] _ h0
  rwa [List.nil_append, List.zipIdx_map_fst] at this

end Verif
