import Verif.Props.DecayGraphSum
/-! # Topologies that differ in the objects only (C71) -/
namespace Rpwa.Dec
variable {M : Type} [Inhabited M]

omit [Inhabited M] in
theorem all_congr_mem {α : Type} {l : List α} {f g : α → Bool} (hfg : ∀ a ∈ l, f a = g a) : l.all f = l.all g := by
  induction l with
  | nil => rfl
  | cons a l ih => rw [List.all_cons, List.all_cons, hfg a List.mem_cons_self, ih fun b hb => hfg b (List.mem_cons_of_mem _ hb)]

/-- consistency of a topology with the objects in the heap. -/
structure Good (h : Heap M) (t : Topo) : Prop where
  hnd : t.nodes.Nodup
  hend : t.edges.Nodup
  hlt : ∀ v ∈ t.nodes, v < h.verts.length
  hvinv : VInv t.toGraph
  hedges : ∀ e, e ∈ t.edges ↔ e.src < t.nodes.length ∧ e.dst < t.nodes.length ∧ e.src ≠ e.dst ∧
    e.part ∈ (h.vtx (t.vertex e.src)).outs ∧ e.part ∈ (h.vtx (t.vertex e.dst)).ins
  hpm : ∀ p a b, t.pmap p = some (a, b) ↔ (⟨a, b, p⟩ : Edge) ∈ t.edges
  hplt : ∀ v ∈ t.nodes, ∀ p, p ∈ (h.vtx v).ins ∨ p ∈ (h.vtx v).outs → p < h.parts.length
  hshare : ∀ v ∈ t.nodes, ∀ u ∈ t.nodes, ∀ p, p ∈ (h.vtx v).outs → p ∈ (h.vtx u).outs → v = u
  hshareIn : ∀ v ∈ t.nodes, ∀ u ∈ t.nodes, ∀ p, p ∈ (h.vtx v).ins → p ∈ (h.vtx u).ins → v = u
  hins : ∀ v ∈ t.nodes, (h.vtx v).ins.Nodup
  hself : ∀ v ∈ t.nodes, ∀ p, p ∈ (h.vtx v).ins → p ∉ (h.vtx v).outs
  hprod : ∀ v, t.prod = some v → v ∈ t.nodes ∧ (h.vtx v).kind = .prod ∧ (h.vtx v).outs ≠ []
  hdec : ∀ v ∈ t.decays, v ∈ t.nodes ∧ ∃ p outs, h.vtx v = ⟨.decay, [p], outs⟩
  hfsv : ∀ v ∈ t.nodes, t.prod = some v ∨ v ∈ t.decays ∨ ∃ p ∈ t.fsParts, h.vtx v = ⟨.fs, [p], []⟩
  hfs : ∀ p ∈ t.fsParts, p < h.parts.length ∧ (∀ v ∈ t.decays, p ∉ (h.vtx v).ins) ∧ ∀ v, t.prod = some v → p ∉ (h.vtx v).ins
  hpin : ∀ e ∈ t.edges, t.prod ≠ some (t.vertex e.dst)

/-- the second topology is the first one with other vertex and particle objects. -/
structure Iso (h : Heap M) (t : Topo) (h2 : Heap M) (t2 : Topo) (σ τ : ℕ → ℕ) : Prop where
  hnodes : t2.nodes = t.nodes.map σ
  hedges : t2.edges = t.edges.map fun e => ⟨e.src, e.dst, τ e.part⟩
  hvtx : ∀ v ∈ t.nodes, h2.vtx (σ v) = ⟨(h.vtx v).kind, (h.vtx v).ins.map τ, (h.vtx v).outs.map τ⟩
  hσ : ∀ v ∈ t.nodes, ∀ u ∈ t.nodes, σ v = σ u → v = u
  hτ : ∀ p, p < h.parts.length → ∀ q, q < h.parts.length → τ p = τ q → p = q
  hpart : ∀ p, p < h.parts.length → τ p < h2.parts.length ∧ h2.part (τ p) = h.part p
  hprod : t2.prod = t.prod.map σ
  hdecays : t2.decays = t.decays.map σ
  hfs : t2.fsParts = t.fsParts.map τ

section
variable {h h2 h3 : Heap M} {t t2 t3 : Topo} {σ τ σ' τ' : ℕ → ℕ}

theorem Iso.refl (h : Heap M) (t : Topo) : Iso h t h t id id :=
  ⟨by simp, by simp, fun v _ => by simp, fun _ _ _ _ hc => hc, fun _ _ _ _ hc => hc, fun p hp => ⟨hp, rfl⟩, by simp, by simp, by simp⟩

theorem Iso.trans (i : Iso h t h2 t2 σ τ) (j : Iso h2 t2 h3 t3 σ' τ') : Iso h t h3 t3 (σ' ∘ σ) (τ' ∘ τ) := by
  have hm : ∀ v ∈ t.nodes, σ v ∈ t2.nodes := fun v hv => by rw [i.hnodes]; exact List.mem_map_of_mem hv
  refine ⟨by rw [j.hnodes, i.hnodes, List.map_map], by rw [j.hedges, i.hedges, List.map_map]; rfl, fun v hv => ?_, fun v hv u hu hc => ?_, fun p hp q hq hc => ?_,
    fun p hp => ?_, by rw [j.hprod, i.hprod, Option.map_map], by rw [j.hdecays, i.hdecays, List.map_map], by rw [j.hfs, i.hfs, List.map_map]⟩
  · show h3.vtx (σ' (σ v)) = _
    rw [j.hvtx _ (hm v hv), i.hvtx v hv, List.map_map, List.map_map]
  · exact i.hσ v hv u hu (j.hσ _ (hm v hv) _ (hm u hu) hc)
  · exact i.hτ p hp q hq (j.hτ _ (i.hpart p hp).1 _ (i.hpart q hq).1 hc)
  · obtain ⟨a, b⟩ := i.hpart p hp
    obtain ⟨c, d⟩ := j.hpart _ a
    exact ⟨c, d.trans b⟩

theorem Iso.vertex (i : Iso h t h2 t2 σ τ) {n : ℕ} (hn : n < t.nodes.length) : t2.vertex n = σ (t.vertex n) := by
  unfold Graph.vertex
  rw [i.hnodes]
  simp [List.getD, List.getElem?_eq_getElem hn]

theorem Iso.len (i : Iso h t h2 t2 σ τ) : t2.nodes.length = t.nodes.length := by rw [i.hnodes, List.length_map]

theorem Iso.succ (i : Iso h t h2 t2 σ τ) : t2.succ = t.succ := by
  funext u
  unfold Graph.succ
  rw [i.hedges, List.filter_map, List.map_map]
  rfl

theorem Iso.dfs (i : Iso h t h2 t2 σ τ) (n : ℕ) : t2.dfs n = t.dfs n := by
  unfold Graph.dfs
  rw [i.succ, i.hedges, List.length_map]

theorem Iso.outDeg (i : Iso h t h2 t2 σ τ) (n : ℕ) : t2.outDeg n = t.outDeg n := by
  unfold Graph.outDeg
  rw [i.hedges, List.filter_map, List.length_map]
  rfl

theorem Iso.inDeg (i : Iso h t h2 t2 σ τ) (n : ℕ) : t2.inDeg n = t.inDeg n := by
  unfold Graph.inDeg
  rw [i.hedges, List.filter_map, List.length_map]
  rfl

theorem Iso.node (i : Iso h t h2 t2 σ τ) (g : Good h t) (g2 : Good h2 t2) {v : ℕ} (hv : v ∈ t.nodes) : t2.node (σ v) = t.node v := by
  obtain ⟨n, hn, rfl⟩ := mem_vertex hv
  rw [node_ok g.hvinv hn, ← i.vertex hn]
  exact node_ok g2.hvinv (i.len ▸ hn)

theorem edge_lt (g : Good h t) {e : Edge} (he : e ∈ t.edges) : e.part < h.parts.length := by
  obtain ⟨h1, _, _, h4, _⟩ := (g.hedges e).1 he
  exact g.hplt _ (vertex_mem h1) _ (.inr h4)

theorem Iso.pmap (i : Iso h t h2 t2 σ τ) (g : Good h t) (g2 : Good h2 t2) {p : ℕ} (hp : p < h.parts.length) : t2.pmap (τ p) = t.pmap p := by
  have key : ∀ a b, t2.pmap (τ p) = some (a, b) ↔ t.pmap p = some (a, b) := by
    intro a b
    rw [g.hpm, g2.hpm, i.hedges]
    constructor
    · intro he
      obtain ⟨e, he, heq⟩ := List.mem_map.1 he
      obtain ⟨h1, h2', h3'⟩ := Edge.mk.inj heq
      have := i.hτ _ (edge_lt g he) _ hp h3'
      obtain ⟨x, y, z⟩ := e
      dsimp only at h1 h2' this
      rw [← h1, ← h2', ← this]
      exact he
    · intro he
      exact List.mem_map.2 ⟨_, he, rfl⟩
  cases ha : t2.pmap (τ p) with
  | none =>
    cases hb : t.pmap p with
    | none => rfl
    | some x =>
      obtain ⟨a, b⟩ := x
      rw [(key a b).2 hb] at ha
      cases ha
  | some x =>
    obtain ⟨a, b⟩ := x
    exact ((key a b).1 ha).symm

theorem Iso.isEdge (i : Iso h t h2 t2 σ τ) (g : Good h t) (g2 : Good h2 t2) {p : ℕ} (hp : p < h.parts.length) : t2.isEdge (τ p) = t.isEdge p := by
  unfold Graph.isEdge
  rw [i.pmap g g2 hp]

theorem Iso.isProd (i : Iso h t h2 t2 σ τ) (g : Good h t) {v : ℕ} (hv : v ∈ t.nodes) : t2.isProd (σ v) = t.isProd v := by
  unfold Topo.isProd
  refine decide_eq_decide.2 ?_
  rw [i.hprod, i.hnodes]
  refine ⟨fun ⟨_, hc⟩ => ⟨hv, ?_⟩, fun ⟨_, hc⟩ => ⟨List.mem_map_of_mem hv, by rw [hc]; rfl⟩⟩
  cases hp : t.prod with
  | none => rw [hp] at hc; cases hc
  | some u =>
    rw [hp] at hc
    rw [i.hσ u (g.hprod u hp).1 v hv (Option.some.inj hc)]

theorem Iso.isFs (i : Iso h t h2 t2 σ τ) {v : ℕ} (hv : v ∈ t.nodes) : isFsVertex h2 t2.toGraph (σ v) = isFsVertex h t.toGraph v := by
  unfold isFsVertex
  refine decide_eq_decide.2 ?_
  rw [i.hvtx v hv, i.hnodes]
  exact ⟨fun ⟨a, _⟩ => ⟨a, hv⟩, fun ⟨a, _⟩ => ⟨a, List.mem_map_of_mem hv⟩⟩

/-- **the check gives the same result for both.** -/
theorem Iso.check (i : Iso h t h2 t2 σ τ) (g : Good h t) (g2 : Good h2 t2) : isobarCheck h2 t2 = isobarCheck h t := by
  have hd : danglingOk h2 t2 = danglingOk h t := by
    unfold danglingOk
    rw [i.hnodes, List.all_map]
    refine all_congr_mem fun v hv => ?_
    show (if t2.isProd (σ v) = true then _ else _) = _
    rw [i.isProd g hv, i.hvtx v hv]
    by_cases hp : t.isProd v = true
    · rw [if_pos hp, if_pos hp]
      unfold Topo.isProd at hp
      obtain ⟨_, _, hne⟩ := g.hprod v (of_decide_eq_true hp).2
      cases ho : (h.vtx v).outs with
      | nil => exact absurd ho hne
      | cons a l => exact i.isEdge g g2 (g.hplt v hv a (.inr (by rw [ho]; simp)))
    · rw [if_neg hp, if_neg hp]
      dsimp only
      rw [List.all_map, List.all_map]
      congr 1
      · exact all_congr_mem fun p hp => i.isEdge g g2 (g.hplt v hv p (.inl hp))
      · exact all_congr_mem fun p hp => i.isEdge g g2 (g.hplt v hv p (.inr hp))
  have hvx : ∀ n v, v ∈ t.nodes → t.node v = .ok n → n < t.nodes.length := by
    intro n v hv hn
    obtain ⟨m, hm, rfl⟩ := mem_vertex hv
    rw [node_ok g.hvinv hm] at hn
    cases hn
    exact hm
  have hdecv : ∀ n v, v ∈ t.nodes → n < t.nodes.length → (t2.vertex n = σ v ↔ t.vertex n = v) := by
    intro n v hv hn
    rw [i.vertex hn]
    exact ⟨fun hc => i.hσ _ (vertex_mem hn) _ hv hc, fun hc => by rw [hc]⟩
  have hp : prodOk t2 = prodOk t := by
    unfold prodOk
    rw [i.hprod]
    cases hpr : t.prod with
    | none => rfl
    | some v =>
      have hv := (g.hprod v hpr).1
      show (t2.node (σ v)).bind _ = (t.node v).bind _
      rw [i.node g g2 hv]
      cases hn : t.node v with
      | ok n =>
        show Outcome.ok _ = Outcome.ok _
        rw [i.outDeg, i.inDeg, decide_eq_decide.2 (hdecv n v hv (hvx n v hv hn))]
      | terminate => rfl
      | ub => rfl
  have htop : t2.topNode = t.topNode := by
    unfold Graph.topNode
    rw [i.len]
    simp only [i.inDeg, i.dfs]
  have hr : reachOk t2 = reachOk t := by
    unfold reachOk
    rw [i.hprod, i.hdecays, i.hfs, List.length_map, List.length_map]
    cases hpr : t.prod with
    | none =>
      show t2.topNode.bind _ = t.topNode.bind _
      rw [htop]
      simp only [i.dfs]
    | some v =>
      show (t2.node (σ v)).bind _ = (t.node v).bind _
      rw [i.node g g2 (g.hprod v hpr).1]
      simp only [i.dfs]
  have hdk : t2.decays.map (decayOk t2) = t.decays.map (decayOk t) := by
    rw [i.hdecays, List.map_map]
    refine List.map_congr_left fun v hvd => ?_
    have hv := (g.hdec v hvd).1
    show (t2.node (σ v)).bind _ = (t.node v).bind _
    rw [i.node g g2 hv]
    cases hn : t.node v with
    | ok n =>
      show Outcome.ok _ = Outcome.ok _
      rw [i.outDeg, i.inDeg, decide_eq_decide.2 (hdecv n v hv (hvx n v hv hn))]
    | terminate => rfl
    | ub => rfl
  have hik : t2.decays.map (isobarOk t2) = t.decays.map (isobarOk t) := by
    rw [i.hdecays, List.map_map]
    refine List.map_congr_left fun v hvd => ?_
    have hv := (g.hdec v hvd).1
    show (t2.node (σ v)).bind _ = (t.node v).bind _
    rw [i.node g g2 hv]
    simp only [i.outDeg, i.inDeg]
  have hfk : t2.fsParts.map (fsOk h2 t2) = t.fsParts.map (fsOk h t) := by
    rw [i.hfs, List.map_map]
    refine List.map_congr_left fun p hpf => ?_
    have hpl := (g.hfs p hpf).1
    show fsOk h2 t2 (τ p) = fsOk h t p
    unfold fsOk
    rw [i.isEdge g g2 hpl]
    have he : t2.edge (τ p) = t.edge p := by
      unfold Graph.edge
      rw [i.pmap g g2 hpl, i.hedges]
      simp only [List.findIdx?_map]
      rfl
    rw [he]
    by_cases hie : t.isEdge p = true
    · rw [if_pos hie, if_pos hie]
      cases hk : t.edge p with
      | ok k =>
        show (match t2.edges[k]? with | none => Outcome.ub | some e => Outcome.ok _) = (match t.edges[k]? with | none => Outcome.ub | some e => Outcome.ok _)
        rw [i.hedges, List.getElem?_map]
        cases hek : t.edges[k]? with
        | none => rfl
        | some e =>
          have hem := List.mem_of_getElem? hek
          have hd := ((g.hedges e).1 hem).2.1
          show Outcome.ok _ = Outcome.ok _
          rw [i.vertex hd, i.isFs (vertex_mem hd)]
          have : (τ e.part = τ p ↔ e.part = p) := ⟨i.hτ _ (edge_lt g hem) _ hpl, fun hc => by rw [hc]⟩
          rw [decide_eq_decide.2 this]
      | terminate => rfl
      | ub => rfl
    · rw [if_neg hie, if_neg hie]
  have hek : edgesOk h2 t2 = edgesOk h t := by
    unfold edgesOk
    rw [i.hedges, List.all_map]
    refine all_congr_mem fun e he => ?_
    have h5 := (g.hedges e).1 he
    show (decide (τ e.part ∈ (h2.vtx (t2.vertex e.src)).outs) && decide (τ e.part ∈ (h2.vtx (t2.vertex e.dst)).ins)) = _
    rw [i.vertex h5.1, i.vertex h5.2.1, i.hvtx _ (vertex_mem h5.1), i.hvtx _ (vertex_mem h5.2.1)]
    dsimp only
    rw [decide_eq_true (List.mem_map_of_mem h5.2.2.2.1), decide_eq_true (List.mem_map_of_mem h5.2.2.2.2), decide_eq_true h5.2.2.2.1, decide_eq_true h5.2.2.2.2]
  have hxk : indicesOk h2 t2 = indicesOk h t := by
    unfold indicesOk
    have hall : ∀ p ∈ t.fsParts, h2.part (τ p) = h.part p := fun p hp => (i.hpart p (g.hfs p hp).1).2
    rw [i.hfs, List.all_map, List.all_map]
    congr 1
    · refine all_congr_mem fun p hp => ?_
      show decide ((h2.part (τ p)).index < 0) = _
      rw [hall p hp]
    · refine all_congr_mem fun p hp => ?_
      have : ((t.fsParts.map τ).filter fun q => (h2.part q).name = (h2.part (τ p)).name).map (fun q => (h2.part q).index) =
          (t.fsParts.filter fun q => (h.part q).name = (h.part p).name).map (fun q => (h.part q).index) := by
        rw [List.filter_map, List.map_map, hall p hp]
        have e1 : t.fsParts.filter ((fun q => decide ((h2.part q).name = (h.part p).name)) ∘ τ) = t.fsParts.filter fun q => (h.part q).name = (h.part p).name := by
          refine List.filter_congr fun q hq => ?_
          show decide ((h2.part (τ q)).name = _) = _
          rw [hall q hq]
        rw [e1]
        refine List.map_congr_left fun q hq => ?_
        show (h2.part (τ q)).index = _
        rw [hall q (List.mem_filter.1 hq).1]
      show decide (List.mergeSort _ _ = _) = decide (List.mergeSort _ _ = _)
      rw [this]
  unfold isobarCheck checkTopology
  rw [hd, hp, hr, hdk, hfk, hek, hxk, hik]

end
end Rpwa.Dec
