import Verif.Props.DecayGraphRooted
/-! # Sub-decays (C73) -/
namespace Rpwa.Dec
variable {M : Type}

/-- if all edges lead from earlier to later nodes, the edges are in the order of the nodes in which they end. -/
theorem build_sorted (h : Heap M) (vs : List ℕ) (hlt : ∀ e ∈ (vs.foldl (addVertex h) Graph.empty).edges, e.src < e.dst) :
    (vs.foldl (addVertex h) Graph.empty).edges.Pairwise fun a b => a.dst ≤ b.dst := by
  induction vs using List.reverseRecOn with
  | nil => exact List.Pairwise.nil
  | append_singleton vs v ih =>
    rw [List.foldl_append] at hlt ⊢
    have hb := build_inv h vs
    change ∀ e ∈ (addVertex h _ v).edges, _ at hlt
    show (addVertex h _ v).edges.Pairwise _
    rw [addVertex_edges] at hlt ⊢
    have ho : outEdges h (vs.foldl (addVertex h) Graph.empty) v (vs.foldl (addVertex h) Graph.empty).nodes.length = [] := by
      rw [List.eq_nil_iff_forall_not_mem]
      intro e he
      have h1 := hlt e (List.mem_append_right _ he)
      obtain ⟨h2, h3, _⟩ := (mem_outEdges _ _ _ _ _).1 he
      omega
    rw [ho, List.append_nil, List.pairwise_append]
    refine ⟨ih fun e he => hlt e (by simp [he]), ?_, ?_⟩
    · rw [List.pairwise_iff_forall_sublist]
      intro a b hab
      have ha := ((mem_inEdges _ _ _ _ _).1 (hab.subset (by simp : a ∈ [a, b]))).1
      have hb := ((mem_inEdges _ _ _ _ _).1 (hab.subset (by simp : b ∈ [a, b]))).1
      omega
    · intro a ha b hb'
      have h1 := ((hb.1.hedges a).1 ha).2.1
      have h2 := ((mem_inEdges _ _ _ _ _).1 hb').1
      omega

theorem idx_lt {l : List ℕ} (hn : l.Nodup) {a b : ℕ} (hs : [a, b].Sublist l) : l.idxOf a < l.idxOf b := by
  have hp : l.Pairwise fun x y => l.idxOf x < l.idxOf y := by
    rw [List.pairwise_iff_getElem]
    intro i j hi hj hij
    rw [hn.idxOf_getElem i hi, hn.idxOf_getElem j hj]
    exact hij
  have := hp.sublist hs
  simpa using this

/-- the graph that is built of the vertices at which the particles of a tree end, in depth-first order. -/
def grown (h : Heap M) (u : ℕ → ℕ) (S : Tree) : Graph := (S.parts.map u).foldl (addVertex h) Graph.empty

section
variable {h : Heap M} {u : ℕ → ℕ} {S : Tree}

theorem grown_nodes : (grown h u S).nodes = S.parts.map u := (build_inv _ _).2

theorem grown_inv : GInv h (grown h u S) := (build_inv _ _).1

theorem grown_len : (grown h u S).nodes.length = S.parts.length := by rw [grown_nodes, List.length_map]

theorem grown_vertex (q : ℕ) (hq : q ∈ S.parts) : (grown h u S).vertex (S.parts.idxOf q) = u q := by
  have hlt := List.idxOf_lt_length_iff.2 hq
  unfold Graph.vertex
  rw [grown_nodes, List.getD_eq_getElem _ _ (by rw [List.length_map]; exact hlt), List.getElem_map, List.getElem_idxOf hlt]

theorem node_idx (hn : S.parts.Nodup) {i : ℕ} (hi : i < (grown h u S).nodes.length) : ∃ q ∈ S.parts, i = S.parts.idxOf q := by
  rw [grown_len] at hi
  exact ⟨S.parts[i], List.getElem_mem hi, (hn.idxOf_getElem i hi).symm⟩

theorem grown_nodup (e : Ends h.vtx u S) (hn : S.parts.Nodup) : (S.parts.map u).Nodup :=
  List.Nodup.map_on (fun _ hx _ hy hxy => e.inj hx hy hxy) hn

theorem grown_vinv (e : Ends h.vtx u S) (hn : S.parts.Nodup) : VInv (grown h u S) := build_vinv _ _ (grown_nodup e hn)

theorem grown_edge (e : Ends h.vtx u S) (hn : S.parts.Nodup) (x : Edge) : x ∈ (grown h u S).edges ↔
    ∃ v p l r, Tree.node v p l r ∈ S.subs ∧ (x.part = l.top ∨ x.part = r.top) ∧ x.src = S.parts.idxOf p ∧ x.dst = S.parts.idxOf x.part := by
  rw [grown_inv.hedges]
  constructor
  · rintro ⟨h1, h2, h3, h4, h5⟩
    obtain ⟨p, hp, hps⟩ := node_idx hn h1
    obtain ⟨q, hq, hqs⟩ := node_idx hn h2
    rw [hps, grown_vertex p hp] at h4
    rw [hqs, grown_vertex q hq, e.ins hq, List.mem_singleton] at h5
    obtain ⟨v, l, r, hN, b⟩ := (e.outs hp).1 h4
    exact ⟨v, p, l, r, hN, b, hps, by rw [h5]; exact hqs⟩
  · rintro ⟨v, p, l, r, hN, b, h1, h2⟩
    have hp : p ∈ S.parts := sub_top_mem S _ hN
    have hq : x.part ∈ S.parts := by
      rcases b with b | b <;> rw [b]
      · exact sub_top_mem S _ (node_subs hN).1
      · exact sub_top_mem S _ (node_subs hN).2
    have hne : p ≠ x.part := by
      have ht := (triple_sub hN).nodup hn
      simp only [List.nodup_cons, List.mem_cons, List.not_mem_nil, or_false, not_or] at ht
      rcases b with b | b <;> rw [b]
      · exact ht.1.1
      · exact ht.1.2
    rw [h1, h2, grown_vertex p hp, grown_vertex _ hq, e.ins hq, grown_len]
    refine ⟨List.idxOf_lt_length_iff.2 hp, List.idxOf_lt_length_iff.2 hq, ?_, (e.outs hp).2 ⟨v, l, r, hN, b⟩, by simp⟩
    intro hc
    exact hne ((List.idxOf_inj hp).1 hc)

theorem grown_lt (e : Ends h.vtx u S) (hn : S.parts.Nodup) : ∀ x ∈ (grown h u S).edges, x.src < x.dst := by
  intro x hx
  obtain ⟨v, p, l, r, hN, b, h1, h2⟩ := (grown_edge e hn x).1 hx
  rw [h1, h2]
  refine idx_lt hn (List.Sublist.trans ?_ (triple_sub hN))
  rcases b with b | b <;> rw [b]
  · simp
  · exact List.Sublist.cons_cons _ (by simp)

theorem grown_nodupE (e : Ends h.vtx u S) (hn : S.parts.Nodup) : (grown h u S).edges.Nodup := by
  refine build_nodup _ _ fun w hw => ?_
  obtain ⟨q, hq, rfl⟩ := List.mem_map.1 hw
  refine ⟨by rw [e.ins hq]; simp, ?_⟩
  obtain ⟨R, hR, rfl⟩ := top_of S q hq
  cases R with
  | leaf p => show (h.vtx (u p)).outs.Nodup; rw [e.hleaf p hR]; simp
  | node v p l r =>
    obtain ⟨h1, outs, h2, h3⟩ := e.hnode v p l r hR
    show (h.vtx (u p)).outs.Nodup
    rw [h1, h2]
    have ht := (triple_sub hR).nodup hn
    simp only [List.nodup_cons, List.mem_cons, List.not_mem_nil, or_false, not_or] at ht
    rcases h3 with rfl | rfl
    · simp [ht.2.1]
    · simp [Ne.symm ht.2.1]

theorem grown_succ_leaf (e : Ends h.vtx u S) (hn : S.parts.Nodup) {p : ℕ} (hp : Tree.leaf p ∈ S.subs) : (grown h u S).succ (S.parts.idxOf p) = [] := by
  unfold Graph.succ
  rw [List.map_eq_nil_iff, List.filter_eq_nil_iff]
  intro x hx hc
  obtain ⟨v, p', l, r, hN, b, h1, h2⟩ := (grown_edge e hn x).1 hx
  rw [of_decide_eq_true hc] at h1
  have hpp : p = p' := (List.idxOf_inj (sub_top_mem S _ hp)).1 h1
  have h3 := e.hleaf p hp
  obtain ⟨h4, outs, h5, _⟩ := e.hnode v p' l r hN
  rw [hpp, h4, h5] at h3
  cases h3

theorem grown_succ_node (e : Ends h.vtx u S) (hn : S.parts.Nodup) {v p : ℕ} {l r : Tree} (hN : Tree.node v p l r ∈ S.subs) :
    (grown h u S).succ (S.parts.idxOf p) = [S.parts.idxOf l.top, S.parts.idxOf r.top] := by
  have hp : p ∈ S.parts := sub_top_mem S _ hN
  have hl := sub_top_mem S _ (node_subs hN).1
  have hr := sub_top_mem S _ (node_subs hN).2
  have hlr : S.parts.idxOf l.top < S.parts.idxOf r.top := idx_lt hn (List.Sublist.trans (by simp) (triple_sub hN))
  have hs : ((grown h u S).edges.filter fun x => x.src = S.parts.idxOf p) = [⟨S.parts.idxOf p, S.parts.idxOf l.top, l.top⟩, ⟨S.parts.idxOf p, S.parts.idxOf r.top, r.top⟩] := by
    have hperm : ((grown h u S).edges.filter fun x => x.src = S.parts.idxOf p).Perm [⟨S.parts.idxOf p, S.parts.idxOf l.top, l.top⟩, ⟨S.parts.idxOf p, S.parts.idxOf r.top, r.top⟩] := by
      rw [List.perm_ext_iff_of_nodup ((grown_nodupE e hn).filter _) (by simp; omega)]
      intro x
      rw [List.mem_filter, List.mem_cons, List.mem_singleton]
      constructor
      · rintro ⟨hx, hxd⟩
        obtain ⟨v', p', l', r', hN', b, h1, h2⟩ := (grown_edge e hn x).1 hx
        have hxs := of_decide_eq_true hxd
        clear hxd
        rw [hxs] at h1
        have hpp : p = p' := (List.idxOf_inj hp).1 h1
        have h3 : x.part ∈ (h.vtx (u p)).outs := by rw [hpp]; exact (e.outs (hpp ▸ hp)).2 ⟨v', l', r', hN', b⟩
        obtain ⟨h4, outs, h5, h6⟩ := e.hnode v p l r hN
        rw [h4, h5] at h3
        have h7 : x.part = l.top ∨ x.part = r.top := by
          rcases h6 with rfl | rfl
          · simpa using h3
          · have : x.part = r.top ∨ x.part = l.top := by simpa using h3
            exact this.symm
        cases x with
        | mk a b q =>
          dsimp only at *
          rcases h7 with rfl | rfl
          · left; rw [hxs, h2]
          · right; rw [hxs, h2]
      · rintro (rfl | rfl)
        · exact ⟨(grown_edge e hn _).2 ⟨v, p, l, r, hN, .inl rfl, rfl, rfl⟩, by simp⟩
        · exact ⟨(grown_edge e hn _).2 ⟨v, p, l, r, hN, .inr rfl, rfl, rfl⟩, by simp⟩
    have hso : ((grown h u S).edges.filter fun x => x.src = S.parts.idxOf p).Pairwise fun a b => a.dst ≤ b.dst :=
      (build_sorted h _ (grown_lt e hn)).sublist List.filter_sublist
    rcases two_list hperm.length_eq (hperm.symm.subset (by simp)) (hperm.symm.subset (by simp)) (a := ⟨S.parts.idxOf p, S.parts.idxOf l.top, l.top⟩)
        (b := ⟨S.parts.idxOf p, S.parts.idxOf r.top, r.top⟩) (by intro hc; have := (Edge.mk.inj hc).2.1; omega) with hc | hc
    · exact hc
    · exfalso
      rw [hc] at hso
      simp at hso
      omega
  unfold Graph.succ
  rw [hs]
  rfl

theorem grown_succ (e : Ends h.vtx u S) (hn : S.parts.Nodup) : ∀ R ∈ S.subs,
    (grown h u S).succ (S.parts.idxOf R.top) = match R with | .leaf _ => [] | .node _ _ l r => [S.parts.idxOf l.top, S.parts.idxOf r.top] := by
  intro R hR
  cases R with
  | leaf p => exact grown_succ_leaf e hn hR
  | node v p l r => exact grown_succ_node e hn hR

theorem map_idxOf (l : List ℕ) (hn : l.Nodup) : l.map (fun q => l.idxOf q) = List.range l.length := by
  refine List.ext_getElem (by simp) ?_
  intro i h1 h2
  rw [List.getElem_map, List.getElem_range]
  exact hn.idxOf_getElem i _

theorem top_idx (S : Tree) : S.parts.idxOf S.top = 0 := by
  obtain ⟨l, hl⟩ := parts_top S
  rw [hl]
  simp

/-- the depth-first search goes through the nodes as they are. -/
theorem grown_dfs (e : Ends h.vtx u S) (hn : S.parts.Nodup) : (grown h u S).dfs 0 = List.range S.parts.length := by
  refine (dfs_runs _ 0).det ?_
  have := runs_tree (succ := (grown h u S).succ) (f := fun q => S.parts.idxOf q) S [] [] (List.range S.parts.length) (grown_succ e hn)
    (by rw [List.nil_append, map_idxOf _ hn]; exact List.nodup_range) (by rw [List.nil_append, map_idxOf _ hn]; exact .done _)
  rwa [top_idx] at this

theorem grown_map (S : Tree) : (List.range S.parts.length).map (grown h u S).vertex = S.parts.map u := by
  refine List.ext_getElem (by simp) ?_
  intro i h1 h2
  rw [List.getElem_map, List.getElem_range, List.getElem_map]
  unfold Graph.vertex
  rw [grown_nodes, List.getD_eq_getElem _ _ (by simpa using h2), List.getElem_map]

/-- **the internal data** of the graph of a tree: no production vertex, the vertices and final-state particles in depth-first order. -/
theorem grown_data (e : Ends h.vtx u S) (hn : S.parts.Nodup) {v p : ℕ} {l r : Tree} (hS : S = .node v p l r) :
    buildInternalData h (grown h u S) = .ok { grown h u S with prod := none, decays := S.verts, fsParts := S.leaves } := by
  have hlen := grown_len (h := h) (u := u) (S := S)
  have hpos : 0 < S.parts.length := by obtain ⟨l, hl⟩ := parts_top S; rw [hl]; simp
  have hin : ∀ i, i < (grown h u S).nodes.length → ((grown h u S).inDeg i = 0 ↔ i = 0) := by
    intro i hi
    obtain ⟨q, hq, rfl⟩ := node_idx hn hi
    unfold Graph.inDeg
    rw [List.length_eq_zero_iff, List.filter_eq_nil_iff]
    constructor
    · intro hall
      rcases has_mother S q hq with rfl | ⟨v', p', l', r', hN, b⟩
      · exact top_idx S
      · exact absurd (by simp) (hall _ ((grown_edge e hn ⟨S.parts.idxOf p', S.parts.idxOf q, q⟩).2 ⟨v', p', l', r', hN, b, rfl, rfl⟩))
    · intro h0 x hx hc
      have := grown_lt e hn x hx
      have hc := of_decide_eq_true hc
      omega
  have hout0 : (grown h u S).outDeg 0 = 2 := by
    have := grown_succ_node e hn (hS ▸ self_sub S : Tree.node v p l r ∈ S.subs)
    have ht : S.parts.idxOf p = 0 := by
      have := top_idx S
      rwa [hS] at this ⊢
    rw [ht] at this
    have h2 := congrArg List.length this
    unfold Graph.succ at h2
    rw [List.length_map] at h2
    exact h2
  have hprod : findProd h (grown h u S) = (none, 0) := by
    unfold findProd
    have key : ∀ (xs : List (ℕ × ℕ)) (r : Option ℕ × ℕ), (∀ x ∈ xs, x.2 < (grown h u S).nodes.length) → xs.foldl (fun r x =>
        if (grown h u S).inDeg x.2 = 0 ∧ (grown h u S).outDeg x.2 = 1 then (if (h.vtx x.1).kind = .prod then (some x.1, r.2 + 1) else (none, r.2)) else r) r = r := by
      intro xs
      induction xs with
      | nil => intro r _; rfl
      | cons x xs ih =>
        intro r hx
        rw [List.forall_mem_cons] at hx
        rw [List.foldl_cons, if_neg]
        · exact ih r hx.2
        · rintro ⟨h1, h2⟩
          rw [(hin _ hx.1).1 h1, hout0] at h2
          cases h2
    refine key _ _ ?_
    intro x hx
    have := List.mem_zipIdx hx
    omega
  have hk0 : (h.vtx ((grown h u S).vertex 0)).kind = .decay := by
    have h1 := grown_vertex (h := h) (u := u) S.top (top_mem S)
    rw [top_idx] at h1
    rw [h1]
    obtain ⟨h2, outs, h3, _⟩ := e.hnode v p l r (hS ▸ self_sub S)
    have : S.top = p := by rw [hS]; rfl
    rw [this, h2, h3]
  have hsort : sortedNodes h (grown h u S) none = .ok (List.range S.parts.length) := by
    unfold sortedNodes
    have hf : ((List.range (grown h u S).nodes.length).filter fun i => decide ((grown h u S).inDeg i = 0 ∧ isFsVertex h (grown h u S) ((grown h u S).vertex i) = false)) = [0] := by
      have hr : List.range (grown h u S).nodes.length = 0 :: (List.range' 1 ((grown h u S).nodes.length - 1)) := by
        rw [List.range_eq_range']
        obtain ⟨k, hk⟩ : ∃ k, (grown h u S).nodes.length = k + 1 := ⟨(grown h u S).nodes.length - 1, by omega⟩
        rw [hk]
        rfl
      rw [hr, List.filter_cons_of_pos, List.filter_eq_nil_iff.2]
      · intro i hi
        rw [List.mem_range'_1] at hi
        rw [decide_eq_true_iff]
        rintro ⟨h1, _⟩
        have := (hin i (by omega)).1 h1
        omega
      · refine decide_eq_true ⟨(hin 0 (by omega)).2 rfl, ?_⟩
        unfold isFsVertex
        rw [hk0]
        simp
    dsimp only
    rw [hf]
    dsimp only
    rw [grown_dfs e hn]
  have hmem : ∀ w ∈ S.parts.map u, w ∈ (grown h u S).nodes := fun w hw => by rw [grown_nodes]; exact hw
  have hkind : ∀ w ∈ S.parts.map u, (h.vtx w).kind = .decay ∨ (h.vtx w).kind = .fs := by
    intro w hw
    obtain ⟨q, hq, rfl⟩ := List.mem_map.1 hw
    obtain ⟨R, hR, rfl⟩ := top_of S q hq
    cases R with
    | leaf p => right; show (h.vtx (u p)).kind = _; rw [e.hleaf p hR]
    | node v p l r =>
      obtain ⟨h1, outs, h2, h3⟩ := e.hnode v p l r hR
      left
      show (h.vtx (u p)).kind = _
      rw [h1, h2]
  obtain ⟨L1, L2⟩ := e.lists
  have hfs : ((((List.range S.parts.length).map (grown h u S).vertex).filter fun v => isFsVertex h (grown h u S) v).map fun v => (h.vtx v).ins.headD 0) = S.leaves := by
    rw [grown_map, ← L2]
    congr 1
    refine List.filter_congr fun w hw => ?_
    unfold isFsVertex
    refine decide_eq_decide.2 ⟨fun a => a.1, fun a => ⟨a, hmem w hw⟩⟩
  unfold buildInternalData
  dsimp only
  rw [hprod]
  dsimp only
  rw [hsort]
  show (if 1 < 0 ∨ _ then _ else _) = _
  rw [hfs, if_neg]
  · have hdec : (((List.range S.parts.length).map (grown h u S).vertex).filter fun v => isDecayVertex h { grown h u S with prod := none, decays := [], fsParts := S.leaves } v) = S.verts := by
      rw [grown_map, ← L1]
      refine List.filter_congr fun w hw => ?_
      unfold isDecayVertex Topo.isProd isFsVertex
      have := hmem w hw
      rcases hkind w hw with hk | hk <;> simp [this, hk]
    exact congrArg Outcome.ok (by rw [hdec])
  · rw [leaves_length]
    omega

end
end Rpwa.Dec
