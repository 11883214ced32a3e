import Verif.Props.DecayGraphTree
import Verif.Lemmas.Outcome
/-! # What the check of a topology decides (C70) -/
namespace Rpwa.Dec
variable {M : Type}

theorem withFs_old (h : Heap M) (fs : List ℕ) {v : ℕ} (hv : v < h.verts.length) : (withFs h fs).vtx v = h.vtx v := by
  unfold Heap.vtx withFs
  simp [List.getD, List.getElem?_append_left hv]

theorem withFs_new (h : Heap M) (fs : List ℕ) {k : ℕ} (hk : k < fs.length) : (withFs h fs).vtx (h.verts.length + k) = ⟨.fs, [fs[k]], []⟩ := by
  unfold Heap.vtx withFs
  simp [List.getD, List.getElem?_append_right, hk]

/-- the graph that `constructDecay` builds. -/
def built (h : Heap M) (prod : ℕ) (decays fs : List ℕ) : Graph :=
  (prod :: decays ++ List.range' h.verts.length fs.length).foldl (addVertex (withFs h fs)) Graph.empty

section
variable {h : Heap M} {prod : ℕ} {decays fs : List ℕ}

theorem built_nodes : (built h prod decays fs).nodes = prod :: decays ++ List.range' h.verts.length fs.length := (build_inv _ _).2

theorem built_inv : GInv (withFs h fs) (built h prod decays fs) := (build_inv _ _).1

theorem built_len : (built h prod decays fs).nodes.length = 1 + decays.length + fs.length := by
  rw [built_nodes]
  simp
  omega

theorem nodup_of_flatMap {α β : Type} {f : α → List β} {l : List α} (hn : (l.flatMap f).Nodup) (hf : ∀ a ∈ l, f a ≠ []) : l.Nodup := by
  rw [List.nodup_flatMap] at hn
  refine hn.2.imp_of_mem fun {a b} ha hb hd hab => ?_
  subst hab
  obtain ⟨x, hx⟩ := List.exists_mem_of_ne_nil _ (hf a ha)
  exact hd hx hx

theorem flatMap_unique {α β : Type} {f : α → List β} {l : List α} (hn : (l.flatMap f).Nodup) {a b : α} {x : β} (ha : a ∈ l) (hb : b ∈ l) (hx : x ∈ f a) (hy : x ∈ f b) :
    a = b := by
  induction l with
  | nil => cases ha
  | cons c l ih =>
    rw [List.flatMap_cons] at hn
    have h1 := List.nodup_append.1 hn
    rcases List.mem_cons.1 ha with ha' | ha' <;> rcases List.mem_cons.1 hb with hb' | hb'
    · rw [ha', hb']
    · exact absurd rfl (h1.2.2 x (ha' ▸ hx) x (List.mem_flatMap.2 ⟨b, hb', hy⟩))
    · exact absurd rfl (h1.2.2 x (hb' ▸ hy) x (List.mem_flatMap.2 ⟨a, ha', hx⟩))
    · exact ih h1.2.1 ha' hb'

theorem decays_nodup (hi : Input h prod decays) (hs : NoSharing h prod decays) : (prod :: decays).Nodup := by
  refine nodup_of_flatMap hs fun v hv => ?_
  rcases List.mem_cons.1 hv with rfl | hv
  · exact hi.hout
  · obtain ⟨p, a, b, h1⟩ := hi.hkind v hv
    rw [h1]
    simp

theorem nodes_nodup (hi : Input h prod decays) (hs : NoSharing h prod decays) : (built h prod decays fs).nodes.Nodup := by
  rw [built_nodes]
  refine List.nodup_append.2 ⟨decays_nodup hi hs, List.nodup_range', ?_⟩
  intro a ha b hb hab
  subst hab
  have h1 : a < h.verts.length := by
    rcases List.mem_cons.1 ha with rfl | ha
    · exact hi.hprod
    · exact hi.hdecays a ha
  have := (List.mem_range'_1.1 hb).1
  omega

theorem built_vinv (hi : Input h prod decays) (hs : NoSharing h prod decays) : VInv (built h prod decays fs) := by
  have := nodes_nodup (fs := fs) hi hs
  rw [built_nodes] at this
  exact build_vinv _ _ this

theorem node_ok {g : Graph} (hv : VInv g) {i : ℕ} (hi : i < g.nodes.length) : g.node (g.vertex i) = .ok i := by
  have := (hv (g.vertex i) i).2 (vertex_get hi)
  unfold Graph.node
  rw [this]

theorem vertex_inj {g : Graph} (hv : VInv g) {i j : ℕ} (hi : i < g.nodes.length) (hj : j < g.nodes.length) (hij : g.vertex i = g.vertex j) : i = j := by
  have h1 := node_ok hv hi
  rw [hij, node_ok hv hj] at h1
  cases h1
  rfl

theorem mem_vertex {g : Graph} {v : ℕ} (hv : v ∈ g.nodes) : ∃ i, i < g.nodes.length ∧ g.vertex i = v := by
  obtain ⟨i, hi, he⟩ := List.mem_iff_getElem.1 hv
  refine ⟨i, hi, ?_⟩
  unfold Graph.vertex
  rw [List.getD_eq_getElem _ _ hi, he]

/-- vertex object of a node. -/
def nodeVtx (h : Heap M) (g : Graph) (i : ℕ) : Vtx := h.vtx (g.vertex i)

theorem vertex_zero : (built h prod decays fs).vertex 0 = prod := by
  unfold Graph.vertex
  rw [built_nodes]
  rfl

theorem nodeVtx_zero (hi : Input h prod decays) : nodeVtx (withFs h fs) (built h prod decays fs) 0 = h.vtx prod := by
  unfold nodeVtx
  rw [vertex_zero, withFs_old h fs hi.hprod]

/-- the nodes after the first: a decay vertex or a final-state vertex. -/
theorem node_cases (hi : Input h prod decays) {i : ℕ} (h0 : i ≠ 0) (hn : i < (built h prod decays fs).nodes.length) :
    ((built h prod decays fs).vertex i ∈ decays ∧ (built h prod decays fs).vertex i < h.verts.length ∧
        nodeVtx (withFs h fs) (built h prod decays fs) i = h.vtx ((built h prod decays fs).vertex i) ∧
        ∃ p a b, nodeVtx (withFs h fs) (built h prod decays fs) i = ⟨.decay, [p], [a, b]⟩) ∨
      (∃ k, ∃ hk : k < fs.length, (built h prod decays fs).vertex i = h.verts.length + k ∧ i = 1 + decays.length + k ∧
        nodeVtx (withFs h fs) (built h prod decays fs) i = ⟨.fs, [fs[k]], []⟩) := by
  have hlen := built_len (h := h) (prod := prod) (decays := decays) (fs := fs)
  have hv := vertex_get hn
  rw [built_nodes] at hv
  by_cases hi' : i < (prod :: decays).length
  · left
    rw [List.getElem?_append_left hi'] at hv
    obtain ⟨j, rfl⟩ := Nat.exists_eq_succ_of_ne_zero h0
    have hm : (built h prod decays fs).vertex (j + 1) ∈ decays := List.mem_of_getElem? hv
    have hlt := hi.hdecays _ hm
    refine ⟨hm, hlt, withFs_old h fs hlt, ?_⟩
    unfold nodeVtx
    rw [withFs_old h fs hlt]
    exact hi.hkind _ hm
  · right
    rw [List.getElem?_append_right (by omega)] at hv
    simp only [List.length_cons] at hi' hv
    have hk : i - (decays.length + 1) < fs.length := by omega
    rw [List.getElem?_range' hk] at hv
    have hv' := (Option.some.inj hv).symm
    rw [Nat.one_mul] at hv'
    refine ⟨i - (decays.length + 1), hk, hv', by omega, ?_⟩
    unfold nodeVtx
    rw [hv', withFs_new h fs hk]

theorem fs_node (hi : Input h prod decays) {k : ℕ} (hk : k < fs.length) :
    nodeVtx (withFs h fs) (built h prod decays fs) (1 + decays.length + k) = ⟨.fs, [fs[k]], []⟩ := by
  have hlen := built_len (h := h) (prod := prod) (decays := decays) (fs := fs)
  rcases node_cases (fs := fs) hi (i := 1 + decays.length + k) (by omega) (by omega) with ⟨h1, h2, _⟩ | ⟨k', hk', _, h3, h4⟩
  · exfalso
    have hv := vertex_get (g := built h prod decays fs) (i := 1 + decays.length + k) (by omega)
    rw [built_nodes, List.getElem?_append_right (by simp; omega)] at hv
    have h3 := (List.mem_range'_1.1 (List.mem_of_getElem? hv)).1
    omega
  · have : k' = k := by omega
    subst this
    exact h4

theorem share_node (hi : Input h prod decays) (hs : NoSharing h prod decays) (i j p : ℕ) (hin : i < (built h prod decays fs).nodes.length)
    (hjn : j < (built h prod decays fs).nodes.length) (hp : p ∈ (nodeVtx (withFs h fs) (built h prod decays fs) i).outs)
    (hq : p ∈ (nodeVtx (withFs h fs) (built h prod decays fs) j).outs) : i = j := by
  have hv := built_vinv (fs := fs) hi hs
  have key : ∀ i, i < (built h prod decays fs).nodes.length → p ∈ (nodeVtx (withFs h fs) (built h prod decays fs) i).outs →
      (built h prod decays fs).vertex i ∈ prod :: decays ∧ p ∈ (h.vtx ((built h prod decays fs).vertex i)).outs := by
    intro i hin hp
    by_cases h0 : i = 0
    · subst h0
      rw [nodeVtx_zero hi] at hp
      rw [vertex_zero]
      exact ⟨List.mem_cons_self, hp⟩
    · rcases node_cases hi h0 hin with ⟨h1, _, h2, _⟩ | ⟨k, hk, _, _, h2⟩
      · rw [h2] at hp
        exact ⟨List.mem_cons_of_mem _ h1, hp⟩
      · rw [h2] at hp
        cases hp
  obtain ⟨m1, o1⟩ := key i hin hp
  obtain ⟨m2, o2⟩ := key j hjn hq
  refine vertex_inj hv hin hjn ?_
  exact flatMap_unique hs m1 m2 o1 o2

theorem built_nodup (hi : Input h prod decays) (hs : NoSharing h prod decays) : (built h prod decays fs).edges.Nodup := by
  refine build_nodup _ _ fun u hu => ?_
  have hu' : u ∈ (built h prod decays fs).nodes := by rw [built_nodes]; exact hu
  obtain ⟨i, hn, rfl⟩ := mem_vertex hu'
  show (nodeVtx (withFs h fs) (built h prod decays fs) i).ins.Nodup ∧ (nodeVtx (withFs h fs) (built h prod decays fs) i).outs.Nodup
  by_cases h0 : i = 0
  · subst h0
    rw [nodeVtx_zero hi]
    exact ⟨hi.hins, (List.nodup_flatMap.1 hs).1 prod List.mem_cons_self⟩
  · rcases node_cases hi h0 hn with ⟨h1, _, h2, p, a, b, h3⟩ | ⟨k, hk, _, _, h3⟩
    · refine ⟨by rw [h3]; simp, ?_⟩
      rw [h2]
      exact (List.nodup_flatMap.1 hs).1 _ (List.mem_cons_of_mem _ h1)
    · rw [h3]
      exact ⟨by simp, List.nodup_nil⟩

/-! ### from the graph to the tree -/

theorem IsDecay.congr {f g : ℕ → Vtx} {T : Tree} (hT : IsDecay f T) (hfg : ∀ v ∈ T.verts, f v = g v) : IsDecay g T := by
  induction hT with
  | leaf p => exact .leaf p
  | node v p l r outs hv ho _ _ ihl ihr =>
    refine .node v p l r outs (by rw [← hfg v (by simp [Tree.verts])]; exact hv) ho (ihl fun u hu => hfg u ?_) (ihr fun u hu => hfg u ?_)
    · simp [Tree.verts, hu]
    · simp [Tree.verts, hu]

theorem leaves_sub (T : Tree) : T.leaves.Sublist T.parts := by
  induction T with
  | leaf p => exact List.Sublist.refl _
  | node v p l r ihl ihr => exact (ihl.append ihr).cons _

/-- **the arguments of a graph with the right degrees describe a tree**, and the lists that are stored are in its depth-first order. -/
theorem tree_of_ctx_nt (hi : Input h prod decays) (hs : NoSharing h prod decays) {X : ℕ} (hX : (h.vtx prod).outs.head? = some X)
    (c : Ctx (built h prod decays fs) (nodeVtx (withFs h fs) (built h prod decays fs)) (built h prod decays fs).nodes.length X) :
    ∃ T, IsTree h prod decays fs T ∧ (sortDecay (withFs h fs) (built h prod decays fs) prod decays fs ((built h prod decays fs).dfs 0)).decays = T.verts ∧
      (sortDecay (withFs h fs) (built h prod decays fs) prod decays fs ((built h prod decays fs).dfs 0)).fsParts = T.leaves ∧
      NT (built h prod decays fs) (nodeVtx (withFs h fs) (built h prod decays fs)) ((built h prod decays fs).ends X) T ∧ (built h prod decays fs).ends X ≠ 0 ∧
      (built h prod decays fs).ends X < (built h prod decays fs).nodes.length := by
  have hv := built_vinv (fs := fs) hi hs
  obtain ⟨T, hT, htop, hnd, hdfs, hE0, hEn⟩ := c.tree
  have P := c.nt_parts hT hE0 hEn
  obtain ⟨L1, L2⟩ := c.nt_lists hT hE0 hEn
  -- the nodes of the tree
  have hnode : ∀ j ∈ T.parts.map (built h prod decays fs).ends, j ≠ 0 ∧ j < (built h prod decays fs).nodes.length := by
    intro j hj
    obtain ⟨q, hq, rfl⟩ := List.mem_map.1 hj
    exact ⟨(P q hq).1.1, (P q hq).1.2.1⟩
  have hprodnot : prod ∉ decays := (List.nodup_cons.1 (decays_nodup hi hs)).1
  have e1 : (sortDecay (withFs h fs) (built h prod decays fs) prod decays fs ((built h prod decays fs).dfs 0)).decays = T.verts := by
    show (((built h prod decays fs).dfs 0).map (built h prod decays fs).vertex).filter _ = _
    rw [hdfs, List.map_cons, vertex_zero, List.filter_cons_of_neg (by simp), ← L1, List.filter_map]
    congr 1
    refine List.filter_congr fun j hj => ?_
    obtain ⟨j0, jn⟩ := hnode j hj
    show decide ((nodeVtx (withFs h fs) (built h prod decays fs) j).kind ≠ Kind.fs ∧ (built h prod decays fs).vertex j ≠ prod ∧ (built h prod decays fs).vertex j ∈ decays) = _
    rcases node_cases hi j0 jn with ⟨h1, _, h2, _, _, _, h3⟩ | ⟨k, hk, _, _, h2⟩
    · have : (built h prod decays fs).vertex j ≠ prod := fun hc => hprodnot (hc ▸ h1)
      rw [h3]
      simp [h1, this]
    · rw [h2]
      simp
  have e2 : (sortDecay (withFs h fs) (built h prod decays fs) prod decays fs ((built h prod decays fs).dfs 0)).fsParts = T.leaves := by
    show ((((((built h prod decays fs).dfs 0).map (built h prod decays fs).vertex).filter _).map _).filter _) = _
    have hk : ¬ ((withFs h fs).vtx prod).kind = Kind.fs := by rw [withFs_old h fs hi.hprod, hi.hkprod]; decide
    rw [hdfs, List.map_cons, vertex_zero, List.filter_cons_of_neg (by simp [hk])]
    have e3 : (((T.parts.map (built h prod decays fs).ends).map (built h prod decays fs).vertex).filter fun v => decide (((withFs h fs).vtx v).kind = Kind.fs)).map
        (fun v => ((withFs h fs).vtx v).ins.headD 0) = T.leaves := by
      rw [List.filter_map, List.map_map]
      exact L2
    rw [e3, List.filter_eq_self]
    intro p hp
    rw [← L2] at hp
    obtain ⟨j, hj, rfl⟩ := List.mem_map.1 hp
    obtain ⟨hj, hkj⟩ := List.mem_filter.1 hj
    obtain ⟨j0, jn⟩ := hnode j hj
    rcases node_cases hi j0 jn with ⟨h1, _, h2, _, _, _, h3⟩ | ⟨k, hk, _, _, h2⟩
    · rw [h3] at hkj
      simp at hkj
    · rw [h2]
      simp
  refine ⟨T, ?_, e1, e2, hT, hE0, hEn⟩
  -- all nodes are in the tree
  have hall : ∀ j, j ≠ 0 → j < (built h prod decays fs).nodes.length → j ∈ T.parts.map (built h prod decays fs).ends := by
    intro j j0 jn
    have := c.hreach j jn
    rw [hdfs] at this
    exact (List.mem_cons.1 this).resolve_left j0
  have hfsnd : fs.Nodup := by
    rw [List.nodup_iff_getElem?_ne_getElem?]
    intro a b hab hb
    have ha : a < fs.length := by omega
    rw [List.getElem?_eq_getElem hb, List.getElem?_eq_getElem ha]
    intro hc
    have hlen := built_len (h := h) (prod := prod) (decays := decays) (fs := fs)
    have f1 := c.ends_node (i := 1 + decays.length + a) (by omega) (by omega) (by rw [fs_node hi ha])
    have f2 := c.ends_node (i := 1 + decays.length + b) (by omega) (by omega) (by rw [fs_node hi hb])
    rw [Option.some.inj hc, f2] at f1
    omega
  have hnd1 : T.leaves.Nodup := hnd.sublist (leaves_sub T)
  have hends_nd : (T.parts.map (built h prod decays fs).ends).Nodup := by
    have := (dfs_spec (built h prod decays fs) 0).1
    rw [hdfs] at this
    exact (List.nodup_cons.1 this).2
  have hvperm : T.verts.Perm decays := by
    rw [List.perm_ext_iff_of_nodup ?_ (List.nodup_cons.1 (decays_nodup hi hs)).2]
    · intro v
      rw [← L1]
      constructor
      · intro hm
        obtain ⟨j, hj, rfl⟩ := List.mem_map.1 hm
        obtain ⟨hj, hkj⟩ := List.mem_filter.1 hj
        obtain ⟨j0, jn⟩ := hnode j hj
        rcases node_cases hi j0 jn with ⟨h1, _, h2, _, _, _, h3⟩ | ⟨k, hk, _, _, h2⟩
        · exact h1
        · rw [h2] at hkj
          simp at hkj
      · intro hm
        obtain ⟨j, jn, rfl⟩ := mem_vertex (g := built h prod decays fs) (v := v) (by rw [built_nodes]; simp [hm])
        have j0 : j ≠ 0 := by
          rintro rfl
          rw [vertex_zero] at hm
          exact hprodnot hm
        refine List.mem_map.2 ⟨j, List.mem_filter.2 ⟨hall j j0 jn, ?_⟩, rfl⟩
        rcases node_cases hi j0 jn with ⟨h1, _, h2, _, _, _, h3⟩ | ⟨k, hk, h4, _, h2⟩
        · rw [h3]; simp
        · have := hi.hdecays _ hm
          omega
    · rw [← L1]
      refine List.Nodup.map_on ?_ (hends_nd.filter _)
      intro x hx y hy hxy
      exact vertex_inj hv (hnode x (List.mem_filter.1 hx).1).2 (hnode y (List.mem_filter.1 hy).1).2 hxy
  have hlperm : T.leaves.Perm fs := by
    rw [List.perm_ext_iff_of_nodup hnd1 hfsnd]
    intro p
    constructor
    · intro hp
      rw [← e2] at hp
      exact of_decide_eq_true (List.mem_filter.1 hp).2
    · intro hp
      obtain ⟨k, hk, rfl⟩ := List.mem_iff_getElem.1 hp
      have hlen := built_len (h := h) (prod := prod) (decays := decays) (fs := fs)
      have f := fs_node (fs := fs) hi hk
      rw [← L2]
      refine List.mem_map.2 ⟨1 + decays.length + k, List.mem_filter.2 ⟨hall _ (by omega) (by omega), ?_⟩, ?_⟩
      · rw [f]; simp
      · rw [f]; rfl
  have hXe := c.hX
  refine ⟨?_, ?_, ?_, hnd, hvperm, hlperm⟩
  · refine (c.nt_decay (vtx := (withFs h fs).vtx) (fun i _ => rfl) hT hEn).congr fun v hv' => ?_
    exact withFs_old h fs (hi.hdecays v (hvperm.subset hv'))
  · rw [hX, htop]
  · -- what else is at the production vertex
    have hpos : 0 < (built h prod decays fs).nodes.length := c.hpos
    obtain ⟨rest, hrest⟩ : ∃ rest, (h.vtx prod).outs = X :: rest := by
      cases ho : (h.vtx prod).outs with
      | nil => exact absurd ho hi.hout
      | cons a l => rw [ho] at hX; cases hX; exact ⟨l, rfl⟩
    have houts : (h.vtx prod).outs.Nodup := (List.nodup_flatMap.1 hs).1 prod List.mem_cons_self
    obtain ⟨b, hb⟩ := c.out_edge hpos hXe.1 hXe.2
    have hone := one_list c.hroot (List.mem_filter.2 ⟨hb, by simp⟩ : (⟨0, b, X⟩ : Edge) ∈ (built h prod decays fs).edges.filter fun e => e.src = 0)
    intro p hp hpT
    obtain ⟨⟨p0, pn, pins⟩, _, _⟩ := P p hpT
    obtain ⟨s, hse⟩ := c.in_edge p0 pn pins
    have hsm := (c.hmem _).1 hse
    dsimp only at hsm
    by_cases hs0 : s = 0
    · subst hs0
      have hm : (⟨0, (built h prod decays fs).ends p, p⟩ : Edge) ∈ (built h prod decays fs).edges.filter fun e => e.src = 0 := List.mem_filter.2 ⟨hse, by simp⟩
      rw [hone, List.mem_singleton] at hm
      have hpX : p = X := (Edge.mk.inj hm).2.2
      subst hpX
      rcases List.mem_append.1 hp with hp | hp
      · exact hi.hbeam p hp (by rw [hrest]; simp)
      · rw [hrest] at houts hp
        exact (List.nodup_cons.1 houts).1 hp
    · rcases List.mem_append.1 hp with hp | hp
      · have h0 : (⟨s, 0, p⟩ : Edge) ∈ (built h prod decays fs).edges := (c.hmem _).2 ⟨hsm.1, hpos, hs0, hsm.2.2.2.1, by
          show p ∈ (nodeVtx (withFs h fs) (built h prod decays fs) 0).ins
          rw [nodeVtx_zero hi]
          exact hp⟩
        exact c.dst_ne h0 rfl
      · refine hs0 (c.hshare s 0 p hsm.1 hpos hsm.2.2.2.1 ?_)
        rw [nodeVtx_zero hi]
        exact List.mem_of_mem_tail hp

/-- **the arguments of a graph with the right degrees describe a tree**, and the lists that are stored are in its depth-first order. -/
theorem tree_of_ctx (hi : Input h prod decays) (hs : NoSharing h prod decays) {X : ℕ} (hX : (h.vtx prod).outs.head? = some X)
    (c : Ctx (built h prod decays fs) (nodeVtx (withFs h fs) (built h prod decays fs)) (built h prod decays fs).nodes.length X) :
    ∃ T, IsTree h prod decays fs T ∧ (sortDecay (withFs h fs) (built h prod decays fs) prod decays fs ((built h prod decays fs).dfs 0)).decays = T.verts ∧
      (sortDecay (withFs h fs) (built h prod decays fs) prod decays fs ((built h prod decays fs).dfs 0)).fsParts = T.leaves :=
  let ⟨T, a, b, d, _⟩ := tree_of_ctx_nt hi hs hX c
  ⟨T, a, b, d⟩

end
end Rpwa.Dec
