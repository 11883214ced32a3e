import Verif.Props.DecayGraphDfs
import Mathlib.Data.List.Induction
import Mathlib.Data.List.GetD
import Mathlib.Tactic.Linarith
/-! # Graphs that are built vertex by vertex (C70) -/
namespace Rpwa.Dec
variable {M : Type}

def setPart (m : ℕ → Option (ℕ × ℕ)) (e : Edge) : ℕ → Option (ℕ × ℕ) := Function.update m e.part (some (e.src, e.dst))

theorem setParts_some (es : List Edge) : ∀ (m : ℕ → Option (ℕ × ℕ)) (p a b : ℕ), es.foldl setPart m p = some (a, b) → m p = some (a, b) ∨ (⟨a, b, p⟩ : Edge) ∈ es := by
  induction es with
  | nil => exact fun m p a b h => .inl h
  | cons e es ih =>
    intro m p a b h
    rcases ih _ p a b h with h | h
    · unfold setPart at h
      by_cases hp : p = e.part
      · subst hp
        rw [Function.update_self] at h
        cases h
        exact .inr List.mem_cons_self
      · rw [Function.update_of_ne hp] at h
        exact .inl h
    · exact .inr (List.mem_cons_of_mem _ h)

theorem setParts_isSome (es : List Edge) : ∀ (m : ℕ → Option (ℕ × ℕ)) (p : ℕ), (m p).isSome ∨ (∃ e ∈ es, e.part = p) → (es.foldl setPart m p).isSome := by
  induction es with
  | nil =>
    rintro m p (h | ⟨e, he, _⟩)
    · exact h
    · cases he
  | cons e es ih =>
    rintro m p (h | ⟨e', he, hp⟩)
    · refine ih _ p (.inl ?_)
      unfold setPart
      by_cases hp : p = e.part
      · subst hp; rw [Function.update_self]; rfl
      · rw [Function.update_of_ne hp]; exact h
    · rcases List.mem_cons.1 he with rfl | he
      · refine ih _ p (.inl ?_)
        unfold setPart
        rw [hp, Function.update_self]
        rfl
      · exact ih _ p (.inr ⟨e', he, hp⟩)

theorem setParts_none (es : List Edge) (m : ℕ → Option (ℕ × ℕ)) (p : ℕ) (hm : m p = none) (hn : ∀ e ∈ es, e.part ≠ p) : es.foldl setPart m p = none := by
  induction es generalizing m with
  | nil => exact hm
  | cons e es ih =>
    refine ih _ ?_ fun x hx => hn x (List.mem_cons_of_mem _ hx)
    unfold setPart
    rw [Function.update_of_ne fun hc => hn e List.mem_cons_self hc.symm]
    exact hm

theorem mem_inEdges (h : Heap M) (g : Graph) (v n : ℕ) (e : Edge) : e ∈ inEdges h g v n ↔
    e.dst = n ∧ e.src < n ∧ e.part ∈ (h.vtx v).ins ∧ e.part ∈ (h.vtx (g.vertex e.src)).outs := by
  unfold inEdges
  simp only [List.mem_flatMap, List.mem_range, List.mem_map, List.mem_filter, decide_eq_true_eq]
  constructor
  · rintro ⟨p, hp, i, hi, q, ⟨hq, rfl⟩, rfl⟩
    exact ⟨rfl, hi, hp, hq⟩
  · rintro ⟨h1, h2, h3, h4⟩
    exact ⟨e.part, h3, e.src, h2, e.part, ⟨h4, rfl⟩, by rw [← h1]⟩

theorem mem_outEdges (h : Heap M) (g : Graph) (v n : ℕ) (e : Edge) : e ∈ outEdges h g v n ↔
    e.src = n ∧ e.dst < n ∧ e.part ∈ (h.vtx v).outs ∧ e.part ∈ (h.vtx (g.vertex e.dst)).ins := by
  unfold outEdges
  simp only [List.mem_flatMap, List.mem_range, List.mem_map, List.mem_filter, decide_eq_true_eq]
  constructor
  · rintro ⟨p, hp, i, hi, q, ⟨hq, rfl⟩, rfl⟩
    exact ⟨rfl, hi, hp, hq⟩
  · rintro ⟨h1, h2, h3, h4⟩
    exact ⟨e.part, h3, e.dst, h2, e.part, ⟨h4, rfl⟩, by rw [← h1]⟩

/-- the edges of a graph are those that the vertices ask for, and the map of the particles leads to edges. -/
structure GInv (h : Heap M) (g : Graph) : Prop where
  hedges : ∀ e, e ∈ g.edges ↔ e.src < g.nodes.length ∧ e.dst < g.nodes.length ∧ e.src ≠ e.dst ∧
    e.part ∈ (h.vtx (g.vertex e.src)).outs ∧ e.part ∈ (h.vtx (g.vertex e.dst)).ins
  hpmap : ∀ p a b, g.pmap p = some (a, b) → (⟨a, b, p⟩ : Edge) ∈ g.edges
  hpart : ∀ e ∈ g.edges, (g.pmap e.part).isSome

theorem addVertex_nodes (h : Heap M) (g : Graph) (v : ℕ) : (addVertex h g v).nodes = g.nodes ++ [v] := rfl

theorem addVertex_vmap (h : Heap M) (g : Graph) (v : ℕ) : (addVertex h g v).vmap = Function.update g.vmap v (some g.nodes.length) := rfl

theorem addVertex_edges (h : Heap M) (g : Graph) (v : ℕ) :
    (addVertex h g v).edges = g.edges ++ inEdges h g v g.nodes.length ++ outEdges h g v g.nodes.length := rfl

theorem addVertex_pmap (h : Heap M) (g : Graph) (v : ℕ) :
    (addVertex h g v).pmap = (outEdges h g v g.nodes.length).foldl setPart ((inEdges h g v g.nodes.length).foldl setPart g.pmap) := rfl

theorem vertex_snoc_lt {g g' : Graph} {v : ℕ} (hg : g'.nodes = g.nodes ++ [v]) {i : ℕ} (hi : i < g.nodes.length) : g'.vertex i = g.vertex i := by
  unfold Graph.vertex
  rw [hg]
  simp [List.getD, List.getElem?_append_left hi]

theorem vertex_snoc_eq {g g' : Graph} {v : ℕ} (hg : g'.nodes = g.nodes ++ [v]) : g'.vertex g.nodes.length = v := by
  unfold Graph.vertex
  rw [hg]
  simp [List.getD]

theorem ginv_empty (h : Heap M) : GInv h Graph.empty :=
  ⟨fun e => ⟨fun he => (by cases he), fun he => absurd he.1 (Nat.not_lt_zero _)⟩, fun _ _ _ hc => (by cases hc), fun _ he => (by cases he)⟩

theorem ginv_addVertex (h : Heap M) (g : Graph) (v : ℕ) (hg : GInv h g) : GInv h (addVertex h g v) := by
  have hn : (addVertex h g v).nodes = g.nodes ++ [v] := rfl
  have hlen : (addVertex h g v).nodes.length = g.nodes.length + 1 := by rw [hn]; simp
  have hedges : ∀ e, e ∈ (addVertex h g v).edges ↔ e.src < (addVertex h g v).nodes.length ∧ e.dst < (addVertex h g v).nodes.length ∧ e.src ≠ e.dst ∧
    e.part ∈ (h.vtx ((addVertex h g v).vertex e.src)).outs ∧ e.part ∈ (h.vtx ((addVertex h g v).vertex e.dst)).ins := by
    intro e
    rw [addVertex_edges, hlen, List.mem_append, List.mem_append, mem_inEdges, mem_outEdges, hg.hedges]
    constructor
    · rintro ((⟨h1, h2, h3, h4, h5⟩ | ⟨h1, h2, h3, h4⟩) | ⟨h1, h2, h3, h4⟩)
      · rw [vertex_snoc_lt hn h1, vertex_snoc_lt hn h2]
        exact ⟨by omega, by omega, h3, h4, h5⟩
      · rw [h1, vertex_snoc_eq hn, vertex_snoc_lt hn h2]
        exact ⟨by omega, by omega, by omega, h4, h3⟩
      · rw [h1, vertex_snoc_eq hn, vertex_snoc_lt hn h2]
        exact ⟨by omega, by omega, by omega, h3, h4⟩
    · rintro ⟨h1, h2, h3, h4, h5⟩
      rcases Nat.lt_succ_iff_lt_or_eq.1 h1 with h1 | h1
      · rw [vertex_snoc_lt hn h1] at h4
        rcases Nat.lt_succ_iff_lt_or_eq.1 h2 with h2 | h2
        · rw [vertex_snoc_lt hn h2] at h5
          exact .inl (.inl ⟨h1, h2, h3, h4, h5⟩)
        · rw [h2, vertex_snoc_eq hn] at h5
          exact .inl (.inr ⟨h2, h1, h5, h4⟩)
      · rw [h1, vertex_snoc_eq hn] at h4
        have h2 : e.dst < g.nodes.length := by omega
        rw [vertex_snoc_lt hn h2] at h5
        exact .inr ⟨h1, h2, h4, h5⟩
  refine ⟨hedges, ?_, ?_⟩
  · intro p a b hp
    rw [addVertex_pmap] at hp
    rw [addVertex_edges]
    rcases setParts_some _ _ _ _ _ hp with hp | hp
    · rcases setParts_some _ _ _ _ _ hp with hp | hp
      · exact List.mem_append_left _ (List.mem_append_left _ (hg.hpmap p a b hp))
      · exact List.mem_append_left _ (List.mem_append_right _ hp)
    · exact List.mem_append_right _ hp
  · intro e he
    rw [addVertex_edges] at he
    rw [addVertex_pmap]
    rcases List.mem_append.1 he with he | he
    · refine setParts_isSome _ _ _ (.inl ?_)
      rcases List.mem_append.1 he with he | he
      · exact setParts_isSome _ _ _ (.inl (hg.hpart e he))
      · exact setParts_isSome _ _ _ (.inr ⟨e, he, rfl⟩)
    · exact setParts_isSome _ _ _ (.inr ⟨e, he, rfl⟩)

theorem build_inv (h : Heap M) (vs : List ℕ) : GInv h (vs.foldl (addVertex h) Graph.empty) ∧ (vs.foldl (addVertex h) Graph.empty).nodes = vs := by
  induction vs using List.reverseRecOn with
  | nil => exact ⟨ginv_empty h, rfl⟩
  | append_singleton vs v ih =>
    rw [List.foldl_append]
    refine ⟨ginv_addVertex h _ v ih.1, ?_⟩
    show (addVertex h _ v).nodes = _
    rw [addVertex_nodes, ih.2]

/-- the map of the vertices, if no vertex is there twice. -/
def VInv (g : Graph) : Prop := ∀ v i, g.vmap v = some i ↔ g.nodes[i]? = some v

theorem vinv_addVertex (h : Heap M) (g : Graph) (v : ℕ) (hg : VInv g) (hv : v ∉ g.nodes) : VInv (addVertex h g v) := by
  intro u i
  rw [addVertex_vmap, addVertex_nodes]
  by_cases hu : u = v
  · subst hu
    rw [Function.update_self]
    constructor
    · intro hi
      cases hi
      simp
    · intro hi
      rcases Nat.lt_trichotomy i g.nodes.length with hl | hl | hl
      · rw [List.getElem?_append_left hl] at hi
        exact absurd (List.mem_of_getElem? hi) hv
      · rw [hl]
      · rw [List.getElem?_eq_none (by simp; omega)] at hi
        cases hi
  · rw [Function.update_of_ne hu, hg u i]
    by_cases hl : i < g.nodes.length
    · rw [List.getElem?_append_left hl]
    · rw [List.getElem?_eq_none (by omega)]
      constructor
      · intro hc; cases hc
      · intro hc
        rw [List.getElem?_append_right (by omega)] at hc
        have := List.mem_of_getElem? hc
        exact absurd (List.mem_singleton.1 this) hu

theorem build_vinv (h : Heap M) (vs : List ℕ) (hn : vs.Nodup) : VInv (vs.foldl (addVertex h) Graph.empty) := by
  induction vs using List.reverseRecOn with
  | nil => exact fun v i => ⟨fun hc => (by cases hc), fun hc => (by cases hc)⟩
  | append_singleton vs v ih =>
    rw [List.foldl_append]
    have h1 := List.nodup_append.1 hn
    refine vinv_addVertex h _ v (ih h1.1) ?_
    rw [(build_inv h vs).2]
    exact fun hc => h1.2.2 v hc v List.mem_cons_self rfl

/-! ### no edge twice -/

theorem nodup_inEdges (h : Heap M) (g : Graph) (v n : ℕ) (hi : (h.vtx v).ins.Nodup) (ho : ∀ i, i < n → (h.vtx (g.vertex i)).outs.Nodup) : (inEdges h g v n).Nodup := by
  unfold inEdges
  refine List.nodup_flatMap.2 ⟨fun p _ => List.nodup_flatMap.2 ⟨fun i hi => ?_, ?_⟩, ?_⟩
  · refine List.Nodup.map_on ?_ ((ho i (List.mem_range.1 hi)).filter _)
    intro a ha b hb _
    rw [List.mem_filter] at ha hb
    rw [of_decide_eq_true ha.2, of_decide_eq_true hb.2]
  · refine List.nodup_range.imp fun {i j} hij => ?_
    intro e h1 h2
    obtain ⟨_, _, rfl⟩ := List.mem_map.1 h1
    obtain ⟨_, _, h3⟩ := List.mem_map.1 h2
    exact hij (Edge.mk.inj h3).1.symm
  · refine hi.imp fun {p q} hpq => ?_
    intro e h1 h2
    simp only [List.mem_flatMap, List.mem_map] at h1 h2
    obtain ⟨i, _, _, _, rfl⟩ := h1
    obtain ⟨j, _, _, _, h3⟩ := h2
    exact hpq (Edge.mk.inj h3).2.2.symm

theorem nodup_outEdges (h : Heap M) (g : Graph) (v n : ℕ) (hi : (h.vtx v).outs.Nodup) (ho : ∀ i, i < n → (h.vtx (g.vertex i)).ins.Nodup) : (outEdges h g v n).Nodup := by
  unfold outEdges
  refine List.nodup_flatMap.2 ⟨fun p _ => List.nodup_flatMap.2 ⟨fun i hi => ?_, ?_⟩, ?_⟩
  · refine List.Nodup.map_on ?_ ((ho i (List.mem_range.1 hi)).filter _)
    intro a ha b hb _
    rw [List.mem_filter] at ha hb
    rw [of_decide_eq_true ha.2, of_decide_eq_true hb.2]
  · refine List.nodup_range.imp fun {i j} hij => ?_
    intro e h1 h2
    obtain ⟨_, _, rfl⟩ := List.mem_map.1 h1
    obtain ⟨_, _, h3⟩ := List.mem_map.1 h2
    exact hij (Edge.mk.inj h3).2.1.symm
  · refine hi.imp fun {p q} hpq => ?_
    intro e h1 h2
    simp only [List.mem_flatMap, List.mem_map] at h1 h2
    obtain ⟨i, _, _, _, rfl⟩ := h1
    obtain ⟨j, _, _, _, h3⟩ := h2
    exact hpq (Edge.mk.inj h3).2.2.symm

theorem vertex_mem {g : Graph} {i : ℕ} (hi : i < g.nodes.length) : g.vertex i ∈ g.nodes := by
  unfold Graph.vertex
  rw [List.getD_eq_getElem _ _ hi]
  exact List.getElem_mem hi

theorem vertex_get {g : Graph} {i : ℕ} (hi : i < g.nodes.length) : g.nodes[i]? = some (g.vertex i) := by
  unfold Graph.vertex
  rw [List.getD_eq_getElem _ _ hi, List.getElem?_eq_getElem hi]

theorem nodup_addVertex (h : Heap M) (g : Graph) (v : ℕ) (hg : GInv h g) (hn : g.edges.Nodup) (hs : ∀ u ∈ g.nodes, (h.vtx u).ins.Nodup ∧ (h.vtx u).outs.Nodup)
    (hv : (h.vtx v).ins.Nodup ∧ (h.vtx v).outs.Nodup) : (addVertex h g v).edges.Nodup := by
  rw [addVertex_edges]
  refine List.nodup_append.2 ⟨List.nodup_append.2 ⟨hn, ?_, ?_⟩, ?_, ?_⟩
  · exact nodup_inEdges h g v _ hv.1 fun i hi => (hs _ (vertex_mem hi)).2
  · intro a ha b hb hab
    subst hab
    have h1 := ((hg.hedges a).1 ha).2.1
    have h2 := ((mem_inEdges h g v _ a).1 hb).1
    omega
  · exact nodup_outEdges h g v _ hv.2 fun i hi => (hs _ (vertex_mem hi)).1
  · intro a ha b hb hab
    subst hab
    have h2 := ((mem_outEdges h g v _ a).1 hb).1
    rcases List.mem_append.1 ha with ha | ha
    · have h1 := ((hg.hedges a).1 ha).1
      omega
    · have h1 := ((mem_inEdges h g v _ a).1 ha).2.1
      omega

theorem build_nodup (h : Heap M) (vs : List ℕ) (hs : ∀ u ∈ vs, (h.vtx u).ins.Nodup ∧ (h.vtx u).outs.Nodup) : (vs.foldl (addVertex h) Graph.empty).edges.Nodup := by
  induction vs using List.reverseRecOn with
  | nil => exact List.nodup_nil
  | append_singleton vs v ih =>
    rw [List.foldl_append]
    have h1 := build_inv h vs
    refine nodup_addVertex h _ v h1.1 (ih fun u hu => hs u (List.mem_append_left _ hu)) ?_ (hs v (by simp))
    rw [h1.2]
    exact fun u hu => hs u (List.mem_append_left _ hu)

end Rpwa.Dec
