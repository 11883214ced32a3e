import Verif.Props.DecayGraphSub
import Verif.Props.DecayGraphCloneTree
/-! # The sub-decay of a decay tree is the sub-tree (C73) -/
namespace Rpwa.Dec
variable {M : Type}

theorem addVertex_congr {h k : Heap M} {g : Graph} {v : ℕ} (hv : h.vtx v = k.vtx v) (hg : ∀ i, i < g.nodes.length → h.vtx (g.vertex i) = k.vtx (g.vertex i)) :
    addVertex h g v = addVertex k g v := by
  have hi : inEdges h g v g.nodes.length = inEdges k g v g.nodes.length := by
    unfold inEdges
    rw [hv]
    refine List.flatMap_congr fun p _ => List.flatMap_congr fun i hi => ?_
    rw [hg i (List.mem_range.1 hi)]
  have ho : outEdges h g v g.nodes.length = outEdges k g v g.nodes.length := by
    unfold outEdges
    rw [hv]
    refine List.flatMap_congr fun p _ => List.flatMap_congr fun i hi => ?_
    rw [hg i (List.mem_range.1 hi)]
  unfold addVertex
  dsimp only
  rw [hi, ho]

theorem build_congr {h k : Heap M} (vs : List ℕ) (hv : ∀ v ∈ vs, h.vtx v = k.vtx v) :
    vs.foldl (addVertex h) Graph.empty = vs.foldl (addVertex k) Graph.empty := by
  induction vs using List.reverseRecOn with
  | nil => rfl
  | append_singleton vs v ih =>
    have ih := ih fun x hx => hv x (List.mem_append_left _ hx)
    rw [List.foldl_append, List.foldl_append, ih]
    refine addVertex_congr (hv v (by simp)) fun i hi => ?_
    refine hv _ (List.mem_append_left _ ?_)
    have := vertex_mem hi
    rwa [(build_inv k vs).2] at this

theorem nt_ends {g : Graph} {V : ℕ → Vtx} {n X : ℕ} (c : Ctx g V n X) {vtx : ℕ → Vtx} (hvtx : ∀ i, i < n → vtx (g.vertex i) = V i) {i : ℕ} {T : Tree} (hT : NT g V i T) :
    i ≠ 0 → i < n → Ends vtx (fun q => g.vertex (g.ends q)) T := by
  induction hT with
  | leaf i p hV =>
    intro h0 hi
    have hip := c.ends_node h0 hi (p := p) (by rw [hV])
    refine ⟨fun q hq => ?_, fun v p l r hc => ?_⟩
    · cases (List.mem_singleton.1 hq)
      rw [hip, hvtx i hi, hV]
    · cases (List.mem_singleton.1 hc)
  | node i p j k l r outs hV ho hne hs hj hk hl hr ihl ihr =>
    intro h0 hi
    have hip := c.ends_node h0 hi (p := p) (by rw [hV])
    have il := ihl (c.dst_ne hj) ((c.hmem _).1 hj).2.1
    have ir := ihr (c.dst_ne hk) ((c.hmem _).1 hk).2.1
    refine ⟨fun q hq => ?_, fun v' p' l' r' hc => ?_⟩
    · rcases List.mem_cons.1 hq with hq | hq
      · cases hq
      · rcases List.mem_append.1 hq with hq | hq
        · exact il.hleaf q hq
        · exact ir.hleaf q hq
    · rcases List.mem_cons.1 hc with hc | hc
      · cases hc
        rw [hip]
        exact ⟨rfl, outs, by rw [hvtx i hi, hV], ho⟩
      · rcases List.mem_append.1 hc with hc | hc
        · exact il.hnode v' p' l' r' hc
        · exact ir.hnode v' p' l' r' hc

theorem parts_leaf_or_node (S : Tree) : ∀ v ∈ S.verts, ∃ p l r, Tree.node v p l r ∈ S.subs := by
  intro v hv
  induction S with
  | leaf p => cases hv
  | node w p l r ihl ihr =>
    rcases List.mem_cons.1 hv with rfl | hv
    · exact ⟨p, l, r, self_sub _⟩
    · rcases List.mem_append.1 hv with hv | hv
      · obtain ⟨a, b, c, h⟩ := ihl hv
        exact ⟨a, b, c, List.mem_cons_of_mem _ (List.mem_append_left _ h)⟩
      · obtain ⟨a, b, c, h⟩ := ihr hv
        exact ⟨a, b, c, List.mem_cons_of_mem _ (List.mem_append_right _ h)⟩

/-- what a consistent sub-decay of the tree `S` is: production vertex, decay vertices and final-state particles. The old vertex objects and all particle objects are as before. -/
structure IsSub (h' h2 : Heap M) (t2 : Topo) (S : Tree) : Prop where
  hprod : t2.prod = some h'.verts.length ∧ h2.vtx h'.verts.length = ⟨.prod, [], [S.top]⟩
  hdecays : t2.decays = S.verts
  hfs : t2.fsParts = S.leaves
  hdecay : IsDecay h2.vtx S
  hverts : ∀ v, v < h'.verts.length → h2.vtx v = h'.vtx v
  hparts : h2.parts = h'.parts

section
variable [Inhabited M] {h : Heap M} {prod : ℕ} {decays fs : List ℕ}

/-- **the sub-decay of every vertex of an accepted topology is the sub-tree below it**, with a new production vertex that only emits the particle that decays in the vertex.
The check of its topology accepts it if and only if the final-state particles *of the sub-decay* are numbered correctly. -/
theorem sub_decay (hi : Input h prod decays) (hs : NoSharing h prod decays) {h' : Heap M} {t : Topo}
    (hc : constructIsobarDecay h prod decays fs true = .ok (h', t)) (hk : isobarCheck h' t = .ok true) :
    ∃ T, IsTree h prod decays fs T ∧ t.decays = T.verts ∧ t.fsParts = T.leaves ∧ ∀ v p l r, Tree.node v p l r ∈ T.subs →
      ∃ h2 t2, subDecayConsistent h' t v = .ok (h2, t2) ∧ IsSub h' h2 t2 (.node v p l r) ∧
        ∃ b, isobarCheck h2 t2 = .ok b ∧ (b = true ↔ GoodIndices h (Tree.node v p l r).leaves) := by
  obtain ⟨_, _, hr, _, hl⟩ := (construct_iff hi hs _).1 hc
  cases hr
  have hX : (h.vtx prod).outs.head? = some ((h.vtx prod).outs.headD 0) := by
    cases ho : (h.vtx prod).outs with
    | nil => exact absurd ho hi.hout
    | cons a l => rfl
  have c := ctx_of_check hi hs hk hl
  have hV := built_vinv (fs := fs) hi hs
  obtain ⟨T, hT, hd, hf, hnt, hE0, hEn⟩ := tree_of_ctx_nt hi hs hX c
  refine ⟨T, hT, hd, hf, ?_⟩
  intro v p l r hN
  obtain ⟨g, hg⟩ : ∃ g, g = built h prod decays fs := ⟨_, rfl⟩
  obtain ⟨k, hkk⟩ : ∃ k, k = withFs h fs := ⟨_, rfl⟩
  obtain ⟨S, hS⟩ : ∃ S, S = Tree.node v p l r := ⟨_, rfl⟩
  rw [← hg, ← hkk] at c hnt
  rw [← hg] at hE0 hEn hV
  have hgt : (made h prod decays fs).toGraph = g := hg.symm
  have eT : Ends k.vtx (fun q => g.vertex (g.ends q)) T := nt_ends c (fun i _ => rfl) hnt hE0 hEn
  have hST : S ∈ T.subs := hS ▸ hN
  have eS := eT.sub hST
  have hnS : S.parts.Nodup := (sub_sublist T S hST).nodup hT.hparts
  have P := c.nt_parts hnt hE0 hEn
  have hpT : ∀ q ∈ S.parts, q ∈ T.parts := fun q hq => (sub_sublist T S hST).subset hq
  have hpS : S.top = p := by rw [hS]; rfl
  -- the start node
  have hpm : p ∈ S.parts := hpS ▸ top_mem S
  have huv : g.vertex (g.ends p) = v := (eT.hnode v p l r hN).1
  have hstart : g.node v = .ok (g.ends p) := by
    have := node_ok hV (P p (hpT p hpm)).1.2.1
    rwa [huv] at this
  have hdfs : g.dfs (g.ends p) = S.parts.map g.ends := by
    refine (dfs_runs g _).det ?_
    have h1 := runs_tree (succ := g.succ) (f := g.ends) S [] [] (S.parts.map g.ends) (fun R hR => c.nt_subs hnt hE0 hEn R (sub_trans T S hST R hR))
      (by
        rw [List.nil_append]
        refine List.Nodup.map_on ?_ hnS
        intro x hx y hy hxy
        have h1 := (P x (hpT x hx)).1.2.2
        rw [hxy, (P y (hpT y hy)).1.2.2] at h1
        exact (List.head_eq_of_cons_eq h1).symm) (by rw [List.nil_append]; exact .done _)
    rwa [hpS] at h1
  have hsub : subDecay k g (g.ends p) = .ok { grown k (fun q => g.vertex (g.ends q)) S with prod := none, decays := S.verts, fsParts := S.leaves } := by
    unfold subDecay
    rw [hdfs, List.map_map]
    exact grown_data eS hnS hS
  -- the new production vertex
  obtain ⟨w, hw⟩ : ∃ w, w = k.verts.length := ⟨_, rfl⟩
  have hins : (k.vtx v).ins.headD 0 = p := by
    obtain ⟨_, outs, h2, _⟩ := eT.hnode v p l r hN
    rw [h2]; rfl
  obtain ⟨k2, hk2⟩ : ∃ k2 : Heap M, k2 = { k with verts := k.verts ++ [⟨.prod, [], [p]⟩] } := ⟨_, rfl⟩
  have hold : ∀ x, x < w → k2.vtx x = k.vtx x := by
    intro x hx
    rw [hw] at hx
    rw [hk2]
    unfold Heap.vtx
    simp [List.getD, List.getElem?_append_left hx]
  have hnew : k2.vtx w = ⟨.prod, [], [p]⟩ := by
    rw [hk2, hw]
    unfold Heap.vtx
    simp [List.getD]
  have hnlt : ∀ x ∈ S.parts.map (fun q => g.vertex (g.ends q)), x < w := by
    intro x hx
    obtain ⟨q, hq, rfl⟩ := List.mem_map.1 hx
    have hlt := (P q (hpT q hq)).1.2.1
    have hm : g.vertex (g.ends q) ∈ (built h prod decays fs).nodes := hg ▸ vertex_mem (hg ▸ hlt)
    rw [built_nodes] at hm
    have hkl : w = h.verts.length + fs.length := by rw [hw, hkk]; unfold withFs; simp
    rcases List.mem_append.1 hm with hm | hm
    · rcases List.mem_cons.1 hm with hm | hm
      · rw [hm]; have := hi.hprod; omega
      · have := hi.hdecays _ hm; omega
    · rw [List.mem_range'_1] at hm
      omega
  have hgrow : grown k (fun q => g.vertex (g.ends q)) S = grown k2 (fun q => g.vertex (g.ends q)) S :=
    build_congr _ fun x hx => (hold x (hnlt x hx)).symm
  have eS2 : Ends k2.vtx (fun q => g.vertex (g.ends q)) S := by
    refine ⟨fun q hq => ?_, fun v' p' l' r' hN' => ?_⟩
    · have hm : q ∈ S.parts := sub_top_mem S _ hq
      rw [hold _ (hnlt _ (List.mem_map_of_mem (f := fun q => g.vertex (g.ends q)) hm))]
      exact eS.hleaf q hq
    · obtain ⟨h1, outs, h2, h3⟩ := eS.hnode v' p' l' r' hN'
      have := hnlt _ (List.mem_map_of_mem (f := fun q => g.vertex (g.ends q)) (sub_top_mem S _ hN'))
      have h1' : g.vertex (g.ends (Tree.node v' p' l' r').top) = v' := h1
      rw [h1'] at this
      exact ⟨h1, outs, by rw [hold _ this]; exact h2, h3⟩
  obtain ⟨t2, ht2⟩ : ∃ t2 : Topo, t2 = { addVertex k2 (grown k2 (fun q => g.vertex (g.ends q)) S) w with prod := some w, decays := S.verts, fsParts := S.leaves } := ⟨_, rfl⟩
  have hres : subDecayConsistent k (made h prod decays fs) v = .ok (k2, t2) := by
    unfold subDecayConsistent
    rw [show (made h prod decays fs).node v = .ok (g.ends p) by rw [hgt]; exact hstart]
    show (subDecay k (made h prod decays fs).toGraph (g.ends p)).bind _ = _
    rw [hgt, hsub]
    unfold Outcome.bind
    dsimp only
    rw [hins, ← hk2, ← hw]
    unfold setProductionVertex
    dsimp only
    show Outcome.ok _ = _
    rw [ht2, hgrow]
  have hfold : addVertex k2 (grown k2 (fun q => g.vertex (g.ends q)) S) w = (S.parts.map (fun q => g.vertex (g.ends q)) ++ [w]).foldl (addVertex k2) Graph.empty := by
    rw [List.foldl_append]
    rfl
  have hwn : w ∉ S.parts.map (fun q => g.vertex (g.ends q)) := fun hm => absurd (hnlt w hm) (Nat.lt_irrefl _)
  have hrt : Rooted k2 t2 w (fun q => g.vertex (g.ends q)) S := by
    have htg : t2.toGraph = (S.parts.map (fun q => g.vertex (g.ends q)) ++ [w]).foldl (addVertex k2) Graph.empty := by rw [ht2, ← hfold]
    refine ⟨?_, ?_, ?_, hnS, eS2, by rw [ht2], ?_, hwn, by rw [hnew, hpS]; rfl, by rw [hnew]; simp, by rw [hnew]; simp, by rw [ht2], by rw [ht2]⟩
    · rw [htg]
      refine build_vinv _ _ (List.nodup_append.2 ⟨grown_nodup eS2 hnS, by simp, ?_⟩)
      intro a ha b hb hab
      rw [List.mem_singleton.1 hb] at hab
      exact hwn (hab ▸ ha)
    · rw [htg]
      exact (build_inv _ _).1
    · rw [htg]
      refine build_nodup _ _ fun x hx => ?_
      rcases List.mem_append.1 hx with hx | hx
      · obtain ⟨q, hq, rfl⟩ := List.mem_map.1 hx
        refine ⟨by rw [eS2.ins hq]; simp, ?_⟩
        obtain ⟨R, hR, rfl⟩ := top_of S q hq
        cases R with
        | leaf q =>
          have := eS2.hleaf q hR
          show (k2.vtx (g.vertex (g.ends q))).outs.Nodup
          rw [this]; simp
        | node v' p' l' r' =>
          obtain ⟨h1, outs, h2, h3⟩ := eS2.hnode v' p' l' r' hR
          show (k2.vtx (g.vertex (g.ends p'))).outs.Nodup
          rw [h1, h2]
          have ht := (triple_sub hR).nodup hnS
          simp only [List.nodup_cons, List.mem_cons, List.not_mem_nil, or_false, not_or] at ht
          rcases h3 with rfl | rfl
          · simp [ht.2.1]
          · simp [Ne.symm ht.2.1]
      · rw [List.mem_singleton.1 hx, hnew]
        simp
    · have : t2.nodes = S.parts.map (fun q => g.vertex (g.ends q)) ++ [w] := by
        rw [htg]
        exact (build_inv _ _).2
      rw [this]
      exact List.perm_append_comm
  have hdecS : IsDecay k2.vtx S := by
    have : ∀ R ∈ S.subs, IsDecay k2.vtx R := by
      intro R
      induction R with
      | leaf q => intro _; exact .leaf q
      | node v' p' l' r' ihl ihr =>
        intro hR
        obtain ⟨_, outs, h2, h3⟩ := eS2.hnode v' p' l' r' hR
        exact .node _ _ _ _ outs h2 h3 (ihl (node_subs hR).1) (ihr (node_subs hR).2)
    exact this S (self_sub S)
  rw [← hkk, ← hS]
  refine ⟨k2, t2, hres, ⟨⟨by rw [ht2, hw], by rw [← hw, hnew, hpS]⟩, by rw [ht2], by rw [ht2], hdecS, fun x hx => hold x (hw ▸ hx), by rw [hk2]⟩, _, hrt.check, ?_⟩
  refine indices_iff (h := h) (fs := S.leaves) ?_ (by rw [ht2])
  rw [hk2, hkk]
  rfl

/-- **the momenta of the sub-decay add up**: after the momenta of the isobars are calculated every particle in it has the sum of the momenta of its final-state particles. -/
theorem sub_momenta [AddCommMagma M] {h' h2 : Heap M} {t2 : Topo} {S : Tree} (hsub : IsSub h' h2 t2 S) (hn : S.parts.Nodup)
    (hp : ∀ v ∈ S.verts, ∀ p ∈ (h2.vtx v).ins, p < h'.parts.length) :
    (∀ R ∈ S.subs, ((calcIsobarLzVec h2 t2).part R.top).mom = R.sum fun p => (h'.part p).mom) ∧
      ∀ q, q ∉ S.parts → (calcIsobarLzVec h2 t2).part q = h'.part q := by
  have hpe : ∀ q, h2.part q = h'.part q := by intro q; unfold Heap.part; rw [hsub.hparts]
  obtain ⟨_, h1, h3⟩ := calc_tree hsub.hdecay h2 rfl hn (by rw [hsub.hparts]; exact hp)
  unfold calcIsobarLzVec
  rw [hsub.hdecays]
  refine ⟨fun R hR => ?_, fun q hq => ?_⟩
  · rw [h3 R hR]
    refine sum_congr R fun q _ => ?_
    rw [hpe]
  · rw [h1 q hq, hpe]

end

/-- the sub-decay from the X decay vertex is the whole decay. -/
theorem sub_of_X [Inhabited M] {h : Heap M} {prod : ℕ} {decays fs : List ℕ} (hi : Input h prod decays) (hs : NoSharing h prod decays) {h' : Heap M} {t : Topo}
    (hc : constructIsobarDecay h prod decays fs true = .ok (h', t)) (hk : isobarCheck h' t = .ok true) :
    ∃ v h2 t2, t.decays.head? = some v ∧ subDecayConsistent h' t v = .ok (h2, t2) ∧ t2.decays = t.decays ∧ t2.fsParts = t.fsParts ∧ isobarCheck h2 t2 = .ok true := by
  obtain ⟨T, hT, hd, hf, hsub⟩ := sub_decay hi hs hc hk
  obtain ⟨_, _, _, _, _, hg⟩ := accepted_is_tree hi hs hc hk
  obtain ⟨_, hne, _⟩ := (construct_iff hi hs _).1 hc
  cases hTT : T with
  | leaf p =>
    exfalso
    have := hT.hverts
    rw [hTT] at this
    exact hne (List.nil_perm.1 this)
  | node v p l r =>
    obtain ⟨h2, t2, h1, h3, b, h4, h5⟩ := hsub v p l r (hTT ▸ self_sub _)
    refine ⟨v, h2, t2, by rw [hd, hTT]; rfl, h1, by rw [h3.hdecays, hd, hTT], by rw [h3.hfs, hf, hTT], ?_⟩
    rw [h4]
    congr 1
    rw [h5, ← hTT]
    have hp := hT.hleaves
    rcases hg with hg | hg
    · exact .inl fun q hq => hg q (hp.subset hq)
    · right
      intro q hq
      have := hg q (hp.subset hq)
      have hpp := hp.filter fun x => decide ((h.part x).name = (h.part q).name)
      rw [hpp.length_eq]
      exact (hpp.map _).trans this

/-- π⁻ (0) π⁺ π⁻ (1) with the isobar made of π⁺ and the π⁻ with index 1. -/
def subHeap : Heap ℤ :=
  { verts := [⟨.prod, [], [0]⟩, ⟨.decay, [0], [1, 2]⟩, ⟨.decay, [1], [3, 4]⟩]
    parts := [⟨"X-", -1, 0⟩, ⟨"rho(770)0", -1, 0⟩, ⟨"pi-", 0, 5⟩, ⟨"pi+", 0, 3⟩, ⟨"pi-", 1, 2⟩] }

theorem sub_input : Input subHeap 0 [1, 2] ∧ NoSharing subHeap 0 [1, 2] := by
  refine ⟨⟨by decide, by decide, rfl, ?_, by decide, by decide, by decide⟩, by unfold NoSharing; decide⟩
  intro v hv
  simp at hv
  rcases hv with rfl | rfl
  · exact ⟨0, 1, 2, rfl⟩
  · exact ⟨1, 3, 4, rfl⟩

theorem sub_tree : IsTree subHeap 0 [1, 2] [2, 3, 4] (.node 1 0 (.node 2 1 (.leaf 3) (.leaf 4)) (.leaf 2)) :=
  ⟨.node _ _ _ _ _ rfl (.inl rfl) (.node _ _ _ _ _ rfl (.inl rfl) (.leaf _) (.leaf _)) (.leaf _), rfl, by decide, by decide, by decide, by decide⟩

theorem sub_good : GoodIndices subHeap [2, 3, 4] := by
  right
  intro p hp
  simp at hp
  rcases hp with rfl | rfl | rfl <;> decide

theorem sub_bad : ¬ GoodIndices subHeap [3, 4] := by
  rintro (hc | hc)
  · exact absurd (hc 3 (by simp)) (by decide)
  · exact absurd (hc 4 (by simp)) (by decide)

/-- **a sub-decay of a valid topology need not be valid**: the π⁻ in the ρ decay has index 1, which is not allowed as there is only one π⁻ in the sub-decay. -/
theorem sub_rejected : ∃ h' t h2 t2, constructIsobarDecay subHeap 0 [1, 2] [2, 3, 4] true = .ok (h', t) ∧ isobarCheck h' t = .ok true ∧
    subDecayConsistent h' t 2 = .ok (h2, t2) ∧ t2.decays = [2] ∧ t2.fsParts = [3, 4] ∧ isobarCheck h2 t2 = .ok false := by
  obtain ⟨h', t, hc, hk⟩ := tree_is_accepted sub_input.1 sub_input.2 (by decide) sub_tree sub_good
  obtain ⟨T, _, hd, _, hsub⟩ := sub_decay sub_input.1 sub_input.2 hc hk
  obtain ⟨_, _, hr, _⟩ := (construct_iff sub_input.1 sub_input.2 _).1 hc
  cases hr
  have hv : 2 ∈ T.verts := by rw [← hd]; decide
  obtain ⟨p, l, r, hN⟩ := parts_leaf_or_node T 2 hv
  obtain ⟨h2, t2, h1, h3, b, h4, h5⟩ := hsub 2 p l r hN
  have e : ∃ k s, subDecayConsistent (withFs subHeap [2, 3, 4]) (made subHeap 0 [1, 2] [2, 3, 4]) 2 = .ok (k, s) ∧ s.decays = [2] ∧ s.fsParts = [3, 4] := ⟨_, _, rfl, rfl, rfl⟩
  obtain ⟨k, s, e1, e2, e3⟩ := e
  rw [e1] at h1
  cases h1
  refine ⟨_, _, _, _, hc, hk, e1, e2, e3, ?_⟩
  rw [h4]
  congr 1
  rw [← h3.hfs, e3] at h5
  cases b with
  | false => rfl
  | true => exact absurd (h5.1 rfl) sub_bad

/-- the production vertex of a topology that has one is replaced, but the map from vertices to nodes is not updated: the check ends the program. -/
theorem replaced_production : ∃ h' t t2, constructIsobarDecay exHeap2 0 [1] [1, 2] true = .ok (h', t) ∧ isobarCheck h' t = .ok true ∧
    setProductionVertex { h' with verts := h'.verts ++ [⟨.prod, [], [0]⟩] } t h'.verts.length = .ok t2 ∧
    isobarCheck { h' with verts := h'.verts ++ [⟨.prod, [], [0]⟩] } t2 = .terminate :=
  ⟨_, _, _, rfl, rfl, rfl, rfl⟩

/-- a case: the sub-decay of the ρ in `exHeap` is valid, and the ρ gets the momentum of its pions. -/
theorem ex_sub : ∃ h' t h2 t2, constructIsobarDecay exHeap 0 [1, 2] [2, 3, 4] true = .ok (h', t) ∧ subDecayConsistent h' t 1 = .ok (h2, t2) ∧
    isobarCheck h2 t2 = .ok true ∧ t2.fsParts = [3, 4] ∧ ((calcIsobarLzVec h2 t2).part 1).mom = 5 := by
  obtain ⟨h', t, hc, hk⟩ := ex_accepted
  obtain ⟨T, _, hd, _, hsub⟩ := sub_decay ex_input.1 ex_input.2 hc hk
  obtain ⟨_, _, hr, _⟩ := (construct_iff ex_input.1 ex_input.2 _).1 hc
  cases hr
  have hv : 1 ∈ T.verts := by rw [← hd]; decide
  obtain ⟨p, l, r, hN⟩ := parts_leaf_or_node T 1 hv
  obtain ⟨h2, t2, h1, h3, b, h4, h5⟩ := hsub 1 p l r hN
  have e : ∃ k s, subDecayConsistent (withFs exHeap [2, 3, 4]) (made exHeap 0 [1, 2] [2, 3, 4]) 1 = .ok (k, s) ∧ s.fsParts = [3, 4] ∧
    ((calcIsobarLzVec k s).part 1).mom = 5 := ⟨_, _, rfl, rfl, rfl⟩
  obtain ⟨k, s, e1, e2, e3⟩ := e
  rw [e1] at h1
  cases h1
  refine ⟨_, _, _, _, hc, e1, ?_, e2, e3⟩
  rw [h4]
  congr 1
  rw [← h3.hfs, e2] at h5
  refine h5.2 (.inr ?_)
  intro q hq
  simp at hq
  rcases hq with rfl | rfl <;> decide

end Rpwa.Dec
