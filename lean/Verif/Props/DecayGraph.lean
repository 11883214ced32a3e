import Verif.Props.DecayGraphBack
/-! # C70: the topologies that are accepted are exactly the decay trees -/
namespace Rpwa.Dec
variable {M : Type} [Inhabited M]

section
variable {h : Heap M} {prod : ℕ} {decays fs : List ℕ} {T : Tree}

theorem sorted_indices (l : List ℤ) (hp : l.Perm ((List.range l.length).map fun j : ℕ => (j : ℤ))) :
    l.mergeSort (fun a b => decide (a ≤ b)) = (List.range l.length).map fun j : ℕ => (j : ℤ) := by
  have h1 : (l.mergeSort (fun a b => decide (a ≤ b))).Pairwise (· ≤ ·) := by
    have := List.pairwise_mergeSort (le := fun a b : ℤ => decide (a ≤ b)) (by intro a b c; simp; omega) (by intro a b; simp; omega) l
    exact this.imp (fun h => of_decide_eq_true h)
  have h2 : List.Pairwise (fun a b : ℤ => a ≤ b) ((List.range l.length).map fun j : ℕ => (j : ℤ)) := by
    rw [List.pairwise_map]
    exact (List.pairwise_le_range (n := l.length)).imp (fun {a b} h => by simpa using h)
  exact List.Perm.eq_of_pairwise' h1 h2 ((List.mergeSort_perm _ _).trans hp)

/-- the indices that are accepted are those of the specification. -/
theorem indices_iff {h' : Heap M} {t : Topo} (hparts : h'.parts = h.parts) (hp : t.fsParts.Perm fs) : indicesOk h' t = true ↔ GoodIndices h fs := by
  have hpart : ∀ p, h'.part p = h.part p := by intro p; unfold Heap.part; rw [hparts]
  unfold indicesOk GoodIndices
  rw [Bool.or_eq_true, List.all_eq_true, List.all_eq_true]
  have key : ∀ p, ((t.fsParts.filter fun q => (h'.part q).name = (h'.part p).name).map fun q => (h'.part q).index).Perm
      ((fs.filter fun q => (h.part q).name = (h.part p).name).map fun q => (h.part q).index) := by
    intro p
    simp only [hpart]
    exact (hp.filter _).map _
  refine or_congr ⟨fun H p hp' => ?_, fun H p hp' => ?_⟩ ⟨fun H p hp' => ?_, fun H p hp' => ?_⟩
  · have := of_decide_eq_true (H p (hp.symm.subset hp'))
    rwa [hpart] at this
  · rw [hpart]
    exact decide_eq_true (H p (hp.subset hp'))
  · have h1 := of_decide_eq_true (H p (hp.symm.subset hp'))
    refine (key p).symm.trans ((List.mergeSort_perm _ (fun a b => decide (a ≤ b))).symm.trans ?_)
    rw [h1, List.length_mergeSort, (key p).length_eq, List.length_map]
  · refine decide_eq_true ?_
    have h1 := (key p).trans (H p (hp.subset hp'))
    rw [show (fs.filter fun q => (h.part q).name = (h.part p).name).length = _ from by rw [← List.length_map (f := fun q => (h.part q).index), ← (key p).length_eq]] at h1
    rw [List.length_mergeSort]
    exact sorted_indices _ h1

theorem isobar_of_ctx (hi : Input h prod decays) (hs : NoSharing h prod decays) {X : ℕ} (hX : (h.vtx prod).outs.head? = some X)
    (c : Ctx (built h prod decays fs) (nodeVtx (withFs h fs) (built h prod decays fs)) (built h prod decays fs).nodes.length X) (hg : GoodIndices h fs) :
    isobarCheck (withFs h fs) (made h prod decays fs) = .ok true ∧ (made h prod decays fs).decays.length = decays.length := by
  have hv := built_vinv (fs := fs) hi hs
  have hlen := built_len (h := h) (prod := prod) (decays := decays) (fs := fs)
  obtain ⟨T, hT, hd, hf⟩ := tree_of_ctx hi hs hX c
  have hd : (made h prod decays fs).decays = T.verts := hd
  have hf : (made h prod decays fs).fsParts = T.leaves := hf
  have hdl : (made h prod decays fs).decays.length = decays.length := by rw [hd, hT.hverts.length_eq]
  have hfl : (made h prod decays fs).fsParts.length = fs.length := by rw [hf, hT.hleaves.length_eq]
  refine ⟨?_, hdl⟩
  have hprod : (made h prod decays fs).prod = some prod := rfl
  have hnp : (made h prod decays fs).node prod = .ok 0 := node_prod hi hs
  have isE : ∀ p, (∃ e ∈ (built h prod decays fs).edges, e.part = p) → (made h prod decays fs).isEdge p = true := by
    rintro p ⟨e, he, rfl⟩
    exact built_inv.hpart e he
  have hnode : ∀ v ∈ decays, ∃ i, i ≠ 0 ∧ i < (built h prod decays fs).nodes.length ∧ (built h prod decays fs).vertex i = v ∧ (made h prod decays fs).node v = .ok i := by
    intro v hm
    obtain ⟨i, hn, rfl⟩ := mem_vertex (g := built h prod decays fs) (v := v) (by rw [built_nodes]; simp [hm])
    refine ⟨i, ?_, hn, rfl, node_ok hv hn⟩
    rintro rfl
    rw [vertex_zero] at hm
    exact (List.nodup_cons.1 (decays_nodup hi hs)).1 hm
  have hdeg : ∀ i, i ≠ 0 → i < (built h prod decays fs).nodes.length → (built h prod decays fs).vertex i ∈ decays →
      (built h prod decays fs).outDeg i = 2 ∧ (built h prod decays fs).inDeg i = 1 := by
    intro i h0 hn hm
    have h1 : (built h prod decays fs).outDeg i = 2 := by
      obtain ⟨p, hV | ⟨a, b, _, _, h2⟩⟩ := c.hnode i h0 hn
      · rcases node_cases hi h0 hn with ⟨_, _, _, _, _, _, h3⟩ | ⟨k, hk, h4, _⟩
        · rw [hV] at h3; cases h3
        · have := hi.hdecays _ hm
          omega
      · exact h2
    refine ⟨h1, ?_⟩
    obtain ⟨e, he, hed⟩ := c.hin i h0 hn
    unfold Graph.inDeg
    have hall : ∀ x ∈ (built h prod decays fs).edges.filter (fun e => e.dst = i), x = e := by
      intro x hx
      obtain ⟨hx, hxd⟩ := List.mem_filter.1 hx
      have hxd := of_decide_eq_true hxd
      refine c.part_unique hx he ?_
      have h2 := c.dst_ins hx
      rw [hxd, ← hed, c.dst_ins he] at h2
      exact (List.head_eq_of_cons_eq h2).symm
    have hnd := (built_nodup (fs := fs) hi hs).filter (fun e => decide (e.dst = i))
    have hme : e ∈ (built h prod decays fs).edges.filter (fun e => e.dst = i) := List.mem_filter.2 ⟨he, by simp [hed]⟩
    have : ((built h prod decays fs).edges.filter (fun e => e.dst = i)).Perm [e] := by
      rw [List.perm_ext_iff_of_nodup hnd (by simp)]
      intro x
      rw [List.mem_singleton]
      exact ⟨hall x, fun hx => hx ▸ hme⟩
    rw [this.length_eq]
    rfl
  unfold isobarCheck
  rw [allO_true, List.forall_mem_cons]
  constructor
  · unfold checkTopology
    rw [allO_true]
    intro x hx
    simp only [List.mem_append, List.mem_cons, List.mem_map, List.not_mem_nil, or_false] at hx
    rcases hx with (((rfl | rfl | rfl) | ⟨v, hvm, rfl⟩) | ⟨p, hpm, rfl⟩) | rfl | rfl
    · -- no dangling particles
      congr 1
      unfold danglingOk
      rw [List.all_eq_true]
      intro v hvm
      have hvm : v ∈ (built h prod decays fs).nodes := hvm
      obtain ⟨i, hn, rfl⟩ := mem_vertex hvm
      by_cases h0 : i = 0
      · subst h0
        have h2 : (made h prod decays fs).isProd ((built h prod decays fs).vertex 0) = true := by
          unfold Topo.isProd
          rw [hprod]
          have h3 : (built h prod decays fs).vertex 0 ∈ (made h prod decays fs).nodes := hvm
          rw [vertex_zero] at h3 ⊢
          simp [h3]
        rw [if_pos h2, vertex_zero, withFs_old h fs hi.hprod]
        refine isE _ ?_
        have h4 : (h.vtx prod).outs.headD 0 = X := by
          cases ho : (h.vtx prod).outs with
          | nil => rw [ho] at hX; cases hX
          | cons a l => rw [ho] at hX; cases hX; rfl
        rw [h4]
        exact c.hX.2
      · have h2 : (made h prod decays fs).isProd ((built h prod decays fs).vertex i) = false := by
          unfold Topo.isProd
          rw [hprod]
          have : ¬ prod = (built h prod decays fs).vertex i := by
            intro hc
            refine h0 (vertex_inj hv hn c.hpos ?_)
            rw [← hc, vertex_zero]
          simp [this]
        rw [h2, if_neg (by simp), Bool.and_eq_true, List.all_eq_true, List.all_eq_true]
        refine ⟨fun p hp => isE p ?_, fun p hp => isE p (c.hout i h0 hn p hp)⟩
        obtain ⟨e, he, hed⟩ := c.hin i h0 hn
        refine ⟨e, he, ?_⟩
        have h5 := c.dst_ins he
        have hp' : p ∈ (nodeVtx (withFs h fs) (built h prod decays fs) i).ins := hp
        rw [← hed, h5, List.mem_singleton] at hp'
        exact hp'.symm
    · -- the production vertex
      unfold prodOk
      rw [hprod]
      dsimp only
      rw [hnp]
      have h1 : (made h prod decays fs).vertex 0 = prod := vertex_zero
      have h2 : (made h prod decays fs).outDeg 0 = 1 := c.hroot
      have h3 : (made h prod decays fs).inDeg 0 = 0 := c.hrootIn
      show Outcome.ok _ = _
      rw [h1, h2, h3]
      simp
    · -- all nodes are reached
      unfold reachOk
      rw [hprod]
      dsimp only
      rw [hnp]
      show Outcome.ok (decide (((built h prod decays fs).dfs 0).length = _)) = _
      have hperm : ((built h prod decays fs).dfs 0).Perm (List.range (built h prod decays fs).nodes.length) := by
        rw [List.perm_ext_iff_of_nodup (dfs_spec _ _).1 List.nodup_range]
        intro j
        rw [List.mem_range]
        exact ⟨dfs_lt 0 j c.hpos, c.hreach j⟩
      rw [hperm.length_eq, List.length_range, hdl, hfl, hlen]
      congr 1
      exact decide_eq_true (by omega)
    · -- decay vertices
      rw [hd] at hvm
      have hm := hT.hverts.subset hvm
      obtain ⟨i, h0, hn, hiv, hok⟩ := hnode v hm
      unfold decayOk
      rw [hok]
      obtain ⟨d1, d2⟩ := hdeg i h0 hn (hiv.symm ▸ hm)
      have e1 : (made h prod decays fs).vertex i = v := hiv
      have e2 : (made h prod decays fs).outDeg i = 2 := d1
      have e3 : (made h prod decays fs).inDeg i = 1 := d2
      show Outcome.ok _ = _
      rw [e1, e2, e3]
      simp
    · -- final-state particles
      rw [hf] at hpm
      obtain ⟨k, hk, rfl⟩ := List.mem_iff_getElem.1 (hT.hleaves.subset hpm)
      have hkn : 1 + decays.length + k < (built h prod decays fs).nodes.length := by omega
      have hfk := fs_node (fs := fs) hi hk
      obtain ⟨s, hse⟩ := c.in_edge (i := 1 + decays.length + k) (p := fs[k]) (by omega) hkn (by rw [hfk])
      unfold fsOk
      rw [if_pos (isE _ ⟨_, hse, rfl⟩)]
      have hps : ((made h prod decays fs).pmap fs[k]).isSome := isE fs[k] ⟨_, hse, rfl⟩
      obtain ⟨⟨a, b⟩, hab⟩ := Option.isSome_iff_exists.1 hps
      have hme : (⟨a, b, fs[k]⟩ : Edge) ∈ (built h prod decays fs).edges := built_inv.hpmap _ _ _ hab
      have heq := c.part_unique hme hse rfl
      have hb : b = 1 + decays.length + k := (Edge.mk.inj heq).2.1
      unfold Graph.edge
      rw [hab]
      dsimp only
      cases hfi : (made h prod decays fs).edges.findIdx? (fun e => e.src = a ∧ e.dst = b) with
      | none =>
        rw [List.findIdx?_eq_none_iff] at hfi
        have := hfi _ hme
        simp at this
      | some x =>
        obtain ⟨hxl, hx, _⟩ := List.findIdx?_eq_some_iff_getElem.1 hfi
        have hx := of_decide_eq_true hx
        have hxm : (made h prod decays fs).edges[x] ∈ (built h prod decays fs).edges := List.getElem_mem hxl
        show (match (made h prod decays fs).edges[x]? with | none => Outcome.ub | some e => Outcome.ok _) = _
        rw [List.getElem?_eq_getElem hxl]
        dsimp only
        have h5 := c.dst_ins hxm
        rw [hx.2, hb, hfk] at h5
        have h6 : (made h prod decays fs).edges[x].part = fs[k] := (List.head_eq_of_cons_eq h5).symm
        rw [h6, hx.2, hb]
        have h7 : isFsVertex (withFs h fs) (made h prod decays fs).toGraph ((made h prod decays fs).vertex (1 + decays.length + k)) = true := by
          unfold isFsVertex
          have h8 : ((withFs h fs).vtx ((made h prod decays fs).vertex (1 + decays.length + k))).kind = .fs := by
            have : (nodeVtx (withFs h fs) (built h prod decays fs) (1 + decays.length + k)).kind = .fs := by rw [hfk]
            exact this
          exact decide_eq_true ⟨h8, vertex_mem hkn⟩
        rw [h7]
        simp
    · -- edges
      congr 1
      unfold edgesOk
      rw [List.all_eq_true]
      intro e he
      have he : e ∈ (built h prod decays fs).edges := he
      have h5 := (built_inv.hedges e).1 he
      rw [Bool.and_eq_true]
      exact ⟨decide_eq_true h5.2.2.2.1, decide_eq_true h5.2.2.2.2⟩
    · -- indices
      congr 1
      exact (indices_iff (h := h) (fs := fs) rfl (by rw [hf]; exact hT.hleaves)).2 hg
  · intro x hx
    obtain ⟨v, hvm, rfl⟩ := List.mem_map.1 hx
    rw [hd] at hvm
    have hm := hT.hverts.subset hvm
    obtain ⟨i, h0, hn, hiv, hok⟩ := hnode v hm
    unfold isobarOk
    rw [hok]
    obtain ⟨d1, d2⟩ := hdeg i h0 hn (hiv.symm ▸ hm)
    have e2 : (made h prod decays fs).outDeg i = 2 := d1
    have e3 : (made h prod decays fs).inDeg i = 1 := d2
    show Outcome.ok _ = _
    rw [e2, e3]
    simp

/-- **what is accepted is a decay tree** with the vertices and final-state particles in its depth-first order. -/
theorem accepted_is_tree (hi : Input h prod decays) (hs : NoSharing h prod decays) {h' : Heap M} {t : Topo}
    (hc : constructIsobarDecay h prod decays fs true = .ok (h', t)) (hk : isobarCheck h' t = .ok true) :
    ∃ T, IsTree h prod decays fs T ∧ t.decays = T.verts ∧ t.fsParts = T.leaves ∧ t.prod = some prod ∧ GoodIndices h fs := by
  obtain ⟨_, _, hr, _, hl⟩ := (construct_iff hi hs _).1 hc
  cases hr
  have hX : (h.vtx prod).outs.head? = some ((h.vtx prod).outs.headD 0) := by
    cases ho : (h.vtx prod).outs with
    | nil => exact absurd ho hi.hout
    | cons a l => rfl
  obtain ⟨T, hT, hd, hf⟩ := tree_of_ctx hi hs hX (ctx_of_check hi hs hk hl)
  refine ⟨T, hT, hd, hf, rfl, ?_⟩
  obtain ⟨_, _, _, _, _, _, hidx, _⟩ := check_parts hk
  refine (indices_iff (h := h) (fs := fs) (h' := withFs h fs) rfl ?_).1 hidx
  show (made h prod decays fs).fsParts.Perm fs
  rw [show (made h prod decays fs).fsParts = T.leaves from hf]
  exact hT.hleaves

/-- **every decay tree is accepted**, in whatever order the vertices and the final-state particles are given. -/
theorem tree_is_accepted (hi : Input h prod decays) (hs : NoSharing h prod decays) (hne : decays ≠ []) (hT : IsTree h prod decays fs T) (hg : GoodIndices h fs) :
    ∃ h' t, constructIsobarDecay h prod decays fs true = .ok (h', t) ∧ isobarCheck h' t = .ok true := by
  obtain ⟨h1, h2⟩ := isobar_of_ctx hi hs hT.hX (ctx_of_tree hi hs hT) hg
  refine ⟨_, _, (construct_iff hi hs _).2 ⟨?_, hne, rfl, ?_, h2⟩, h1⟩
  · intro hc
    have := hT.hleaves
    rw [hc] at this
    have h3 := this.eq_nil
    have : ∀ T : Tree, T.leaves ≠ [] := by
      intro T
      induction T with
      | leaf p => simp [Tree.leaves]
      | node v p l r ihl _ => simp [Tree.leaves, ihl]
    exact this T h3
  · unfold isobarCheck at h1
    rw [allO_true] at h1
    exact h1 _ List.mem_cons_self

/-- **a set of vertices makes a valid topology iff it is a decay tree** (and the indices of the final-state particles are in order). -/
theorem accepted_iff (hi : Input h prod decays) (hs : NoSharing h prod decays) (hne : decays ≠ []) :
    (∃ h' t, constructIsobarDecay h prod decays fs true = .ok (h', t) ∧ isobarCheck h' t = .ok true) ↔ (∃ T, IsTree h prod decays fs T) ∧ GoodIndices h fs := by
  constructor
  · rintro ⟨h', t, hc, hk⟩
    obtain ⟨T, hT, _, _, _, hg⟩ := accepted_is_tree hi hs hc hk
    exact ⟨⟨T, hT⟩, hg⟩
  · rintro ⟨⟨T, hT⟩, hg⟩
    exact tree_is_accepted hi hs hne hT hg

end
end Rpwa.Dec
