import Verif.Props.DecayGraphJoin
/-! # Decay graphs whose nodes are in the order of a tree (C74) -/
namespace Rpwa.Dec
variable {M : Type}

/-- the vertex object at which a particle of the tree `S` ends, in a graph with nodes in the order of the particles of `S`. -/
def endOf (g : Graph) (S : Tree) (q : ℕ) : ℕ := g.vertex (S.parts.idxOf q)

/-- the graph holds the tree `S` and nothing else: nodes in the order of the particles of `S`, edges at a node in the order of the daughters. -/
structure InOrder (h : Heap M) (g : Graph) (S : Tree) : Prop where
  hv : VInv g
  hg : GInv h g
  hend : g.edges.Nodup
  hnd : S.parts.Nodup
  hlen : g.nodes.length = S.parts.length
  hends : Ends h.vtx (endOf g S) S
  hsucc : ∀ R ∈ S.subs, g.succ (S.parts.idxOf R.top) = match R with | .leaf _ => [] | .node _ _ l r => [S.parts.idxOf l.top, S.parts.idxOf r.top]

namespace InOrder
variable {h : Heap M} {g : Graph} {S : Tree}

theorem idx (c : InOrder h g S) {i : ℕ} (hi : i < g.nodes.length) : ∃ q ∈ S.parts, i = S.parts.idxOf q := by
  rw [c.hlen] at hi
  exact ⟨S.parts[i], List.getElem_mem hi, (c.hnd.idxOf_getElem i hi).symm⟩

theorem nodes (c : InOrder h g S) : g.nodes = S.parts.map (endOf g S) := by
  refine List.ext_getElem (by rw [c.hlen, List.length_map]) ?_
  intro i h1 h2
  rw [List.getElem_map]
  unfold endOf Graph.vertex
  rw [c.hnd.idxOf_getElem i, List.getD_eq_getElem _ _ h1]

theorem mem (c : InOrder h g S) {q : ℕ} (hq : q ∈ S.parts) : endOf g S q ∈ g.nodes := by
  rw [c.nodes]
  exact List.mem_map_of_mem hq

theorem ins_mem (c : InOrder h g S) {i : ℕ} (hi : i < g.nodes.length) : ∃ q ∈ S.parts, i = S.parts.idxOf q ∧ (h.vtx (g.vertex i)).ins = [q] := by
  obtain ⟨q, hq, rfl⟩ := c.idx hi
  exact ⟨q, hq, rfl, c.hends.ins hq⟩

theorem outs_mem (c : InOrder h g S) {i p : ℕ} (hi : i < g.nodes.length) (hp : p ∈ (h.vtx (g.vertex i)).outs) : p ∈ S.parts ∧ p ≠ S.top := by
  obtain ⟨q, hq, rfl⟩ := c.idx hi
  obtain ⟨v, l, r, hN, b⟩ := (c.hends.outs hq).1 hp
  refine ⟨?_, daughter_ne c.hnd hN b⟩
  rcases b with rfl | rfl
  · exact sub_top_mem S _ (node_subs hN).1
  · exact sub_top_mem S _ (node_subs hN).2

theorem kind (c : InOrder h g S) : ∀ w ∈ g.nodes, (h.vtx w).kind = .decay ∨ (h.vtx w).kind = .fs := by
  intro w hw
  rw [c.nodes] at hw
  obtain ⟨q, hq, rfl⟩ := List.mem_map.1 hw
  obtain ⟨R, hR, rfl⟩ := top_of S q hq
  cases R with
  | leaf p => right; show (h.vtx (endOf g S p)).kind = _; rw [c.hends.hleaf p hR]
  | node v p l r =>
    obtain ⟨h1, outs, h2, h3⟩ := c.hends.hnode v p l r hR
    left
    show (h.vtx (endOf g S p)).kind = _
    rw [h1, h2]

theorem edge (c : InOrder h g S) (x : Edge) : x ∈ g.edges ↔
    ∃ v p l r, Tree.node v p l r ∈ S.subs ∧ (x.part = l.top ∨ x.part = r.top) ∧ x.src = S.parts.idxOf p ∧ x.dst = S.parts.idxOf x.part := by
  rw [c.hg.hedges]
  constructor
  · rintro ⟨h1, h2, h3, h4, h5⟩
    obtain ⟨p, hp, hps⟩ := c.idx h1
    obtain ⟨q, hq, hqs, hqi⟩ := c.ins_mem h2
    rw [hqi, List.mem_singleton] at h5
    have h4 : x.part ∈ (h.vtx (endOf g S p)).outs := by rw [hps] at h4; exact h4
    obtain ⟨v, l, r, hN, b⟩ := (c.hends.outs hp).1 h4
    exact ⟨v, p, l, r, hN, b, hps, by rw [h5]; exact hqs⟩
  · rintro ⟨v, p, l, r, hN, b, h1, h2⟩
    have hp : p ∈ S.parts := sub_top_mem S _ hN
    have hq : x.part ∈ S.parts := by
      rcases b with b | b <;> rw [b]
      · exact sub_top_mem S _ (node_subs hN).1
      · exact sub_top_mem S _ (node_subs hN).2
    have hne : p ≠ x.part := by
      have ht := (triple_sub hN).nodup c.hnd
      simp only [List.nodup_cons, List.mem_cons, List.not_mem_nil, or_false, not_or] at ht
      rcases b with b | b <;> rw [b]
      · exact ht.1.1
      · exact ht.1.2
    rw [h1, h2, c.hlen]
    refine ⟨List.idxOf_lt_length_iff.2 hp, List.idxOf_lt_length_iff.2 hq, fun hc => hne ((List.idxOf_inj hp).1 hc), (c.hends.outs hp).2 ⟨v, l, r, hN, b⟩, ?_⟩
    show _ ∈ (h.vtx (endOf g S x.part)).ins
    rw [c.hends.ins hq]
    simp

theorem edge_lt (c : InOrder h g S) {x : Edge} (hx : x ∈ g.edges) : x.src < x.dst := by
  obtain ⟨v, p, l, r, hN, b, h1, h2⟩ := (c.edge x).1 hx
  rw [h1, h2]
  refine idx_lt c.hnd (List.Sublist.trans ?_ (triple_sub hN))
  rcases b with b | b <;> rw [b]
  · simp
  · exact List.Sublist.cons_cons _ (by simp)

theorem edge_part (c : InOrder h g S) {x : Edge} (hx : x ∈ g.edges) : x.part ∈ S.parts ∧ x.part ≠ S.top := by
  obtain ⟨v, p, l, r, hN, b, _⟩ := (c.edge x).1 hx
  refine ⟨?_, daughter_ne c.hnd hN b⟩
  rcases b with b | b <;> rw [b]
  · exact sub_top_mem S _ (node_subs hN).1
  · exact sub_top_mem S _ (node_subs hN).2

theorem part_unique (c : InOrder h g S) {x y : Edge} (hx : x ∈ g.edges) (hy : y ∈ g.edges) (hp : x.part = y.part) : x = y := by
  obtain ⟨v, p, l, r, hN, b, h1, h2⟩ := (c.edge x).1 hx
  obtain ⟨v', p', l', r', hN', b', h1', h2'⟩ := (c.edge y).1 hy
  rw [hp] at b h2
  have := mother_unique S c.hnd hN hN' b b'
  cases x; cases y
  simp_all

theorem inDeg (c : InOrder h g S) {i : ℕ} (hi : i < g.nodes.length) : g.inDeg i = 0 ↔ i = 0 := by
  obtain ⟨q, hq, rfl⟩ := c.idx hi
  unfold Graph.inDeg
  rw [List.length_eq_zero_iff, List.filter_eq_nil_iff]
  constructor
  · intro hall
    rcases has_mother S q hq with rfl | ⟨v', p', l', r', hN, b⟩
    · exact top_idx S
    · exact absurd (by simp) (hall _ ((c.edge ⟨S.parts.idxOf p', S.parts.idxOf q, q⟩).2 ⟨v', p', l', r', hN, b, rfl, rfl⟩))
  · intro h0 x hx hc
    have := c.edge_lt hx
    have hc := of_decide_eq_true hc
    omega

theorem pos (c : InOrder h g S) : 0 < g.nodes.length := by
  rw [c.hlen]
  obtain ⟨l, hl⟩ := parts_top S
  rw [hl]
  simp

theorem outDeg (_ : InOrder h g S) (i : ℕ) : g.outDeg i = (g.succ i).length := by
  unfold Graph.outDeg Graph.succ
  rw [List.length_map]

theorem out0 (c : InOrder h g S) : g.outDeg 0 ≠ 1 := by
  have := c.hsucc S (self_sub S)
  rw [top_idx] at this
  rw [c.outDeg, this]
  cases S <;> simp

theorem dfs (c : InOrder h g S) : g.dfs 0 = List.range S.parts.length := by
  refine (dfs_runs _ 0).det ?_
  have := runs_tree (succ := g.succ) (f := fun q => S.parts.idxOf q) S [] [] (List.range S.parts.length) c.hsucc
    (by rw [List.nil_append, map_idxOf _ c.hnd]; exact List.nodup_range) (by rw [List.nil_append, map_idxOf _ c.hnd]; exact .done _)
  rwa [top_idx] at this

theorem topNode (c : InOrder h g S) : g.topNode = .ok 0 := by
  unfold Graph.topNode
  have hr : List.range g.nodes.length = 0 :: (List.range' 1 (g.nodes.length - 1)) := by
    have := c.pos
    rw [List.range_eq_range']
    obtain ⟨k, hk⟩ : ∃ k, g.nodes.length = k + 1 := ⟨g.nodes.length - 1, by omega⟩
    rw [hk]
    rfl
  have h0 : g.inDeg 0 = 0 ∧ (g.dfs 0).length = g.nodes.length := ⟨(c.inDeg c.pos).2 rfl, by rw [c.dfs, List.length_range, c.hlen]⟩
  rw [hr, List.find?_cons_of_pos (p := fun i => decide (g.inDeg i = 0 ∧ (g.dfs i).length = g.nodes.length)) (decide_eq_true h0)]

theorem map_vertex (c : InOrder h g S) : (List.range S.parts.length).map g.vertex = S.parts.map (endOf g S) := by
  refine List.ext_getElem (by simp) ?_
  intro i h1 h2
  rw [List.getElem_map, List.getElem_range, List.getElem_map]
  unfold endOf
  rw [c.hnd.idxOf_getElem i]

theorem noProd (c : InOrder h g S) : findProd h g = (none, 0) := by
  unfold findProd
  have key : ∀ (xs : List (ℕ × ℕ)) (r : Option ℕ × ℕ), (∀ x ∈ xs, x.2 < g.nodes.length) → xs.foldl (fun r x =>
      if g.inDeg x.2 = 0 ∧ g.outDeg x.2 = 1 then (if (h.vtx x.1).kind = .prod then (some x.1, r.2 + 1) else (none, r.2)) else r) r = r := by
    intro xs
    induction xs with
    | nil => intro r _; rfl
    | cons x xs ih =>
      intro r hx
      rw [List.forall_mem_cons] at hx
      rw [List.foldl_cons, if_neg]
      · exact ih r hx.2
      · rintro ⟨h1, h2⟩
        rw [(c.inDeg hx.1).1 h1] at h2
        exact c.out0 h2
  refine key _ _ ?_
  intro x hx
  have := List.mem_zipIdx hx
  omega

theorem sorted (c : InOrder h g S) : sortedNodes h g none = .ok (List.range S.parts.length) := by
  unfold sortedNodes
  dsimp only
  have hmem : ∀ i, i ∈ ((List.range g.nodes.length).filter fun i => decide (g.inDeg i = 0 ∧ isFsVertex h g (g.vertex i) = false)) → i = 0 := by
    intro i hi
    obtain ⟨h1, h2⟩ := List.mem_filter.1 hi
    exact (c.inDeg (List.mem_range.1 h1)).1 (of_decide_eq_true h2).1
  split
  · next i hi =>
    have := hmem i (by rw [hi]; exact List.mem_singleton_self _)
    rw [this, c.dfs]
  · rw [c.hlen]

/-- the internal data: no production vertex, the vertices and final-state particles of the tree in its order. -/
theorem data (c : InOrder h g S) : buildInternalData h g = .ok { g with prod := none, decays := S.verts, fsParts := S.leaves } := by
  have hmem : ∀ w ∈ S.parts.map (endOf g S), w ∈ g.nodes := fun w hw => by rw [c.nodes]; exact hw
  obtain ⟨L1, L2⟩ := c.hends.lists
  have hfs : ((((List.range S.parts.length).map g.vertex).filter fun v => isFsVertex h g v).map fun v => (h.vtx v).ins.headD 0) = S.leaves := by
    rw [c.map_vertex, ← L2]
    congr 1
    refine List.filter_congr fun w hw => ?_
    unfold isFsVertex
    refine decide_eq_decide.2 ⟨fun a => a.1, fun a => ⟨a, hmem w hw⟩⟩
  unfold buildInternalData
  dsimp only
  rw [c.noProd]
  dsimp only
  rw [c.sorted]
  show (if 1 < 0 ∨ _ then _ else _) = _
  rw [hfs, if_neg]
  · have hdec : (((List.range S.parts.length).map g.vertex).filter fun v => isDecayVertex h { g with prod := none, decays := [], fsParts := S.leaves } v) = S.verts := by
      rw [c.map_vertex, ← L1]
      refine List.filter_congr fun w hw => ?_
      unfold isDecayVertex Topo.isProd isFsVertex
      have h1 := hmem w hw
      rcases c.kind w h1 with hk | hk <;> simp [h1, hk]
    exact congrArg Outcome.ok (by rw [hdec])
  · rw [leaves_length]
    omega

end InOrder

/-! ### one vertex -/

theorem one_leaf {h : Heap M} {w p : ℕ} (hw : h.vtx w = ⟨.fs, [p], []⟩) : InOrder h (addVertex h Graph.empty w) (.leaf p) := by
  have hvx : (addVertex h Graph.empty w).vertex 0 = w := rfl
  refine ⟨?_, ?_, ?_, by simp [Tree.parts], rfl, ⟨?_, ?_⟩, ?_⟩
  · exact build_vinv h [w] (by simp)
  · exact (build_inv h [w]).1
  · refine build_nodup h [w] fun x hx => ?_
    rw [List.mem_singleton.1 hx, hw]
    simp
  · intro q hq
    cases List.mem_singleton.1 hq
    show h.vtx ((addVertex h Graph.empty w).vertex ([p].idxOf p)) = _
    rw [List.idxOf_cons_self, hvx, hw]
  · intro v q l r hN
    cases List.mem_singleton.1 hN
  · intro R hR
    rw [List.mem_singleton.1 hR]
    show ((addVertex h Graph.empty w).edges.filter _).map _ = []
    have : (addVertex h Graph.empty w).edges = [] := by
      unfold addVertex inEdges outEdges Graph.addEdges Graph.empty
      simp [hw]
    rw [this]
    rfl

/-- `subDecay` from a final-state node: the graph with the final-state vertex alone. -/
theorem sub_leaf {h : Heap M} {g : Graph} {n p : ℕ} (hs : g.succ n = []) (hw : h.vtx (g.vertex n) = ⟨.fs, [p], []⟩) :
    ∃ t, subDecay h g n = .ok t ∧ InOrder h t.toGraph (.leaf p) ∧ t.prod = none ∧ t.decays = [] ∧ t.fsParts = [p] ∧ t.nodes = [g.vertex n] := by
  have hd : g.dfs n = [n] := by
    refine (dfs_runs g n).det (.visit _ _ _ _ (by simp) ?_)
    rw [hs]
    exact .done _
  have c := one_leaf hw
  refine ⟨{ addVertex h Graph.empty (g.vertex n) with prod := none, decays := [], fsParts := [p] }, ?_, c, rfl, rfl, rfl, rfl⟩
  unfold subDecay
  rw [hd]
  exact c.data

/-! ### joining -/

section
variable {h : Heap M} {d1 d2 : Graph} {L R : Tree} {v P : ℕ}

theorem idx_left {L R : Tree} {v P q : ℕ} (hn : (Tree.node v P L R).parts.Nodup) (hq : q ∈ L.parts) : (Tree.node v P L R).parts.idxOf q = L.parts.idxOf q + 1 := by
  have hne : P ≠ q := by
    rintro rfl
    exact (List.nodup_cons.1 hn).1 (List.mem_append_left _ hq)
  show (P :: (L.parts ++ R.parts)).idxOf q = _
  rw [List.idxOf_cons_ne _ hne, List.idxOf_append_of_mem hq]

theorem idx_right {L R : Tree} {v P q : ℕ} (hn : (Tree.node v P L R).parts.Nodup) (hq : q ∈ R.parts) :
    (Tree.node v P L R).parts.idxOf q = R.parts.idxOf q + (1 + L.parts.length) := by
  have hne : P ≠ q := by
    rintro rfl
    exact (List.nodup_cons.1 hn).1 (List.mem_append_right _ hq)
  have hnl : q ∉ L.parts := fun hc => (List.nodup_append.1 (List.nodup_cons.1 hn).2).2.2 q hc q hq rfl
  show (P :: (L.parts ++ R.parts)).idxOf q = _
  rw [List.idxOf_cons_ne _ hne, List.idxOf_append_of_notMem hnl]
  omega

/-- what is needed to join. -/
structure Joinable (h : Heap M) (v P : ℕ) (d1 d2 : Graph) (L R : Tree) : Prop where
  h1 : InOrder h d1 L
  h2 : InOrder h d2 R
  hv : ∃ outs, h.vtx v = ⟨.decay, [P], outs⟩ ∧ (outs = [L.top, R.top] ∨ outs = [R.top, L.top])
  hn : (Tree.node v P L R).parts.Nodup

namespace Joinable

theorem outs (j : Joinable h v P d1 d2 L R) (q : ℕ) : q ∈ (h.vtx v).outs ↔ q = L.top ∨ q = R.top := by
  obtain ⟨outs, hv, ho⟩ := j.hv
  rw [hv]
  rcases ho with rfl | rfl
  · simp
  · rw [or_comm]; simp

theorem ins (j : Joinable h v P d1 d2 L R) : (h.vtx v).ins = [P] := by
  obtain ⟨outs, hv, ho⟩ := j.hv
  rw [hv]

theorem disj (j : Joinable h v P d1 d2 L R) : P ∉ L.parts ∧ P ∉ R.parts ∧ ∀ q ∈ L.parts, q ∉ R.parts := by
  obtain ⟨a, b⟩ := List.nodup_cons.1 j.hn
  exact ⟨fun hc => a (List.mem_append_left _ hc), fun hc => a (List.mem_append_right _ hc), fun q hq hr => (List.nodup_append.1 b).2.2 q hq q hr rfl⟩

/-- the graph of the parent vertex alone. -/
def g0 (h : Heap M) (v : ℕ) : Graph := addVertex h Graph.empty v

theorem g0_nodes : (g0 h v).nodes = [v] := rfl

theorem g0_len : (g0 h v).nodes.length = 1 := rfl

theorem g0_edges : (g0 h v).edges = [] := by
  unfold g0 addVertex inEdges outEdges Graph.addEdges Graph.empty
  simp

theorem top_lt (c : InOrder h d1 L) : 0 < d1.nodes.length := c.pos

theorem fits1 (j : Joinable h v P d1 d2 L R) : Fits h (g0 h v) d1 0 0 L.top := by
  have h0 : ∀ i, i < (g0 h v).nodes.length → (g0 h v).vertex i = v := by
    intro i hi
    rw [g0_len] at hi
    rw [show i = 0 by omega]
    rfl
  obtain ⟨dP, _, dLR⟩ := j.disj
  have htop : d1.vertex 0 = endOf d1 L L.top := by unfold endOf; rw [top_idx]
  refine ⟨(build_inv h [v]).1, j.h1.hg, by rw [g0_edges]; simp, j.h1.hend, ?_, by rw [g0_len]; omega, j.h1.pos, ?_, ?_, ?_, ?_, by rw [g0_edges]; simp, ?_, ?_, ?_⟩
  · rw [g0_nodes, j.h1.nodes, List.singleton_append, List.nodup_cons]
    refine ⟨fun hc => ?_, List.Nodup.map_on (fun _ hx _ hy hxy => j.h1.hends.inj hx hy hxy) j.h1.hnd⟩
    obtain ⟨q, hq, hqv⟩ := List.mem_map.1 hc
    have := j.h1.hends.ins hq
    rw [hqv, j.ins] at this
    cases this
    exact dP hq
  · rw [h0 0 (by rw [g0_len]; omega)]
    exact (j.outs _).2 (.inl rfl)
  · rw [htop, j.h1.hends.ins (top_mem L)]
    simp
  · intro i k p hi hk hp hp'
    obtain ⟨q, hq, hqi, hqn⟩ := j.h1.ins_mem hk
    rw [hqn, List.mem_singleton] at hp'
    subst hp'
    rw [h0 i hi] at hp
    rcases (j.outs p).1 hp with rfl | rfl
    · rw [g0_len] at hi
      exact ⟨by omega, by rw [hqi, top_idx], rfl⟩
    · exact absurd (top_mem R) (dLR _ hq)
  · intro i k p hi hk hp
    rw [h0 i hi, j.ins, List.mem_singleton]
    rintro rfl
    exact dP (j.h1.outs_mem hk hp).1
  · intro e he
    exact (j.h1.edge_part he).2
  · intro i hi p hp
    rw [h0 i hi] at hp ⊢
    rw [j.ins, List.mem_singleton]
    rintro rfl
    rcases (j.outs p).1 hp with h' | h'
    · exact dP (h' ▸ top_mem L)
    · exact j.disj.2.1 (h' ▸ top_mem R)
  · intro i hi p hp hc
    obtain ⟨q, hq, hqi, hqn⟩ := j.h1.ins_mem hi
    rw [hqn, List.mem_singleton] at hc
    subst hc
    have hp : p ∈ (h.vtx (endOf d1 L p)).outs := by rw [hqi] at hp; exact hp
    obtain ⟨v', l, r, hN, b⟩ := (j.h1.hends.outs hq).1 hp
    have ht := (triple_sub hN).nodup j.h1.hnd
    simp only [List.nodup_cons, List.mem_cons, List.not_mem_nil, or_false, not_or] at ht
    rcases b with b | b
    · exact ht.1.1 b
    · exact ht.1.2 b

def g1 (h : Heap M) (v : ℕ) (d1 : Graph) : Graph := addGraph h (g0 h v) d1

theorem g1_nodes (j : Joinable h v P d1 d2 L R) : (g1 h v d1).nodes = v :: d1.nodes := j.fits1.nodes

theorem g1_len (j : Joinable h v P d1 d2 L R) : (g1 h v d1).nodes.length = L.parts.length + 1 := by rw [j.g1_nodes, List.length_cons, j.h1.hlen]

theorem g1_zero (j : Joinable h v P d1 d2 L R) : (g1 h v d1).vertex 0 = v := by
  unfold Graph.vertex
  rw [j.g1_nodes]
  rfl

theorem g1_succ (j : Joinable h v P d1 d2 L R) (i : ℕ) : (g1 h v d1).vertex (i + 1) = d1.vertex i := j.fits1.right i

theorem self1 (c : InOrder h d1 L) {i p : ℕ} (hi : i < d1.nodes.length) (hp : p ∈ (h.vtx (d1.vertex i)).outs) : p ∉ (h.vtx (d1.vertex i)).ins := by
  intro hc
  obtain ⟨q, hq, hqi, hqn⟩ := c.ins_mem hi
  rw [hqn, List.mem_singleton] at hc
  subst hc
  have hp : p ∈ (h.vtx (endOf d1 L p)).outs := by rw [hqi] at hp; exact hp
  obtain ⟨v', l, r, hN, b⟩ := (c.hends.outs hq).1 hp
  have ht := (triple_sub hN).nodup c.hnd
  simp only [List.nodup_cons, List.mem_cons, List.not_mem_nil, or_false, not_or] at ht
  rcases b with b | b
  · exact ht.1.1 b
  · exact ht.1.2 b

theorem g1_edges (j : Joinable h v P d1 d2 L R) : ∀ e ∈ (g1 h v d1).edges, e.part ∈ L.parts := by
  intro e he
  have : (g1 h v d1).edges = _ := j.fits1.edges
  rw [this, g0_edges, List.nil_append, List.mem_append, List.mem_map, List.mem_singleton] at he
  rcases he with ⟨x, hx, rfl⟩ | rfl
  · exact (j.h1.edge_part hx).1
  · exact top_mem L

theorem fits2 (j : Joinable h v P d1 d2 L R) : Fits h (g1 h v d1) d2 0 0 R.top := by
  obtain ⟨dL, dP, dLR⟩ := j.disj
  have htop : d2.vertex 0 = endOf d2 R R.top := by unfold endOf; rw [top_idx]
  have hlen := j.g1_len
  have h1l := j.h1.hlen
  refine ⟨j.fits1.ginv, j.h2.hg, j.fits1.nodup, j.h2.hend, ?_, by omega, j.h2.pos, ?_, ?_, ?_, ?_, ?_, ?_, ?_, ?_⟩
  · rw [j.g1_nodes, List.nodup_append]
    refine ⟨by have := j.fits1.hnd; rwa [g0_nodes] at this, ?_, ?_⟩
    · rw [j.h2.nodes]
      exact List.Nodup.map_on (fun _ hx _ hy hxy => j.h2.hends.inj hx hy hxy) j.h2.hnd
    · intro a ha b hb hab
      rw [j.h2.nodes] at hb
      obtain ⟨q, hq, hqv⟩ := List.mem_map.1 hb
      have h4 := j.h2.hends.ins hq
      rw [hqv, ← hab] at h4
      rcases List.mem_cons.1 ha with rfl | ha
      · rw [j.ins] at h4
        cases h4
        exact dP hq
      · rw [j.h1.nodes] at ha
        obtain ⟨q', hq', hqv'⟩ := List.mem_map.1 ha
        have h5 := j.h1.hends.ins hq'
        rw [hqv', h4] at h5
        cases h5
        exact dLR _ hq' hq
  · rw [j.g1_zero]
    exact (j.outs _).2 (.inr rfl)
  · rw [htop, j.h2.hends.ins (top_mem R)]
    simp
  · intro i k p hi hk hp hp'
    obtain ⟨q, hq, hqi, hqn⟩ := j.h2.ins_mem hk
    rw [hqn, List.mem_singleton] at hp'
    subst hp'
    cases i with
    | zero =>
      rw [j.g1_zero] at hp
      rcases (j.outs p).1 hp with rfl | rfl
      · exact absurd hq (dLR _ (top_mem L))
      · exact ⟨rfl, by rw [hqi, top_idx], rfl⟩
    | succ i =>
      rw [j.g1_succ] at hp
      exact absurd hq (dLR _ (j.h1.outs_mem (by omega) hp).1)
  · intro i k p hi hk hp hc
    have hpR := (j.h2.outs_mem hk hp).1
    cases i with
    | zero =>
      rw [j.g1_zero, j.ins, List.mem_singleton] at hc
      exact dP (hc ▸ hpR)
    | succ i =>
      rw [j.g1_succ] at hc
      obtain ⟨q, hq, _, hqn⟩ := j.h1.ins_mem (i := i) (by omega)
      rw [hqn, List.mem_singleton] at hc
      exact dLR q hq (hc ▸ hpR)
  · intro e he hc
    exact dLR _ (j.g1_edges e he) (hc ▸ top_mem R)
  · intro e he
    exact (j.h2.edge_part he).2
  · intro i hi p hp
    cases i with
    | zero =>
      rw [j.g1_zero] at hp ⊢
      rw [j.ins, List.mem_singleton]
      rintro rfl
      rcases (j.outs p).1 hp with h' | h'
      · exact dL (h' ▸ top_mem L)
      · exact dP (h' ▸ top_mem R)
    | succ i =>
      rw [j.g1_succ] at hp ⊢
      exact self1 j.h1 (by omega) hp
  · intro i hi p hp
    exact self1 j.h2 hi hp

def g2 (h : Heap M) (v : ℕ) (d1 d2 : Graph) : Graph := addGraph h (g1 h v d1) d2

theorem g1_succs (j : Joinable h v P d1 d2 L R) : (g1 h v d1).succ 0 = [1] ∧ ∀ i, (g1 h v d1).succ (i + 1) = (d1.succ i).map (· + 1) := by
  constructor
  · have := j.fits1.succ_left (i := 0) (by rw [g0_len]; omega)
    rw [if_pos rfl] at this
    refine this.trans ?_
    unfold Graph.succ
    rw [g0_edges]
    rfl
  · exact j.fits1.succ_right

/-- **the joined graph holds the joined tree.** -/
theorem inOrder (j : Joinable h v P d1 d2 L R) : InOrder h (g2 h v d1 d2) (.node v P L R) := by
  have hlen := j.g1_len
  have h1l := j.h1.hlen
  have h2l := j.h2.hlen
  have hnodes : (g2 h v d1 d2).nodes = v :: d1.nodes ++ d2.nodes := by
    have : (g2 h v d1 d2).nodes = _ := j.fits2.nodes
    rw [this, j.g1_nodes]
  have vz : (g2 h v d1 d2).vertex 0 = v := by
    have : (g2 h v d1 d2).vertex 0 = _ := j.fits2.left (i := 0) (by omega)
    rw [this, j.g1_zero]
  have vl : ∀ i, i < d1.nodes.length → (g2 h v d1 d2).vertex (i + 1) = d1.vertex i := by
    intro i hi
    have : (g2 h v d1 d2).vertex (i + 1) = _ := j.fits2.left (i := i + 1) (by omega)
    rw [this, j.g1_succ]
  have vr : ∀ i, (g2 h v d1 d2).vertex (i + (1 + L.parts.length)) = d2.vertex i := by
    intro i
    have : (g2 h v d1 d2).vertex (i + (g1 h v d1).nodes.length) = _ := j.fits2.right i
    rw [hlen, Nat.add_comm L.parts.length] at this
    exact this
  have el : ∀ q ∈ L.parts, endOf (g2 h v d1 d2) (.node v P L R) q = endOf d1 L q := by
    intro q hq
    unfold endOf
    rw [idx_left j.hn hq, vl _ (by rw [h1l]; exact List.idxOf_lt_length_iff.2 hq)]
  have er : ∀ q ∈ R.parts, endOf (g2 h v d1 d2) (.node v P L R) q = endOf d2 R q := by
    intro q hq
    unfold endOf
    rw [idx_right j.hn hq, vr]
  have ip : (Tree.node v P L R).parts.idxOf P = 0 := by show (P :: _).idxOf P = 0; simp
  refine ⟨j.fits2.vinv, j.fits2.ginv, j.fits2.nodup, j.hn, ?_, ⟨?_, ?_⟩, ?_⟩
  · rw [hnodes]
    simp [Tree.parts, h1l, h2l]
  · intro p hp
    rcases List.mem_cons.1 hp with hc | hp
    · cases hc
    · rcases List.mem_append.1 hp with hp | hp
      · rw [el p (sub_top_mem L _ hp)]
        exact j.h1.hends.hleaf p hp
      · rw [er p (sub_top_mem R _ hp)]
        exact j.h2.hends.hleaf p hp
  · intro v' p' l' r' hN
    rcases List.mem_cons.1 hN with hc | hN
    · cases hc
      refine ⟨?_, j.hv⟩
      unfold endOf
      rw [ip, vz]
    · rcases List.mem_append.1 hN with hN | hN
      · rw [el p' (sub_top_mem L _ hN)]
        exact j.h1.hends.hnode v' p' l' r' hN
      · rw [er p' (sub_top_mem R _ hN)]
        exact j.h2.hends.hnode v' p' l' r' hN
  · intro Q hQ
    rcases List.mem_cons.1 hQ with rfl | hQ
    · show (g2 h v d1 d2).succ ((Tree.node v P L R).parts.idxOf P) = [_, _]
      rw [ip, idx_left j.hn (top_mem L), idx_right j.hn (top_mem R), top_idx, top_idx]
      have : (g2 h v d1 d2).succ 0 = _ := j.fits2.succ_left (i := 0) (by omega)
      rw [this, j.g1_succs.1, if_pos rfl, hlen, Nat.add_comm L.parts.length]
      rfl
    · rcases List.mem_append.1 hQ with hQ | hQ
      · rw [idx_left j.hn (sub_top_mem L _ hQ)]
        have hlt : L.parts.idxOf Q.top < L.parts.length := List.idxOf_lt_length_iff.2 (sub_top_mem L _ hQ)
        have : (g2 h v d1 d2).succ (L.parts.idxOf Q.top + 1) = _ := j.fits2.succ_left (i := L.parts.idxOf Q.top + 1) (by omega)
        rw [this, if_neg (by omega), List.append_nil, j.g1_succs.2, j.h1.hsucc Q hQ]
        cases Q with
        | leaf p => rfl
        | node w p l r =>
          dsimp only
          rw [idx_left j.hn (sub_top_mem L _ (node_subs hQ).1), idx_left j.hn (sub_top_mem L _ (node_subs hQ).2)]
          rfl
      · rw [idx_right j.hn (sub_top_mem R _ hQ)]
        have : (g2 h v d1 d2).succ (R.parts.idxOf Q.top + (g1 h v d1).nodes.length) = _ := j.fits2.succ_right (R.parts.idxOf Q.top)
        rw [hlen, Nat.add_comm L.parts.length] at this
        rw [this, j.h2.hsucc Q hQ]
        cases Q with
        | leaf p => rfl
        | node w p l r =>
          dsimp only
          rw [idx_right j.hn (sub_top_mem R _ (node_subs hQ).1), idx_right j.hn (sub_top_mem R _ (node_subs hQ).2)]
          rfl

/-- after the first daughter decay was added the internal data can be built. -/
theorem data1 (j : Joinable h v P d1 d2 L R) : ∃ t, buildInternalData h (g1 h v d1) = .ok t ∧ t.toGraph = g1 h v d1 := by
  have hlen := j.g1_len
  have h1l := j.h1.hlen
  have hk : ∀ w ∈ (g1 h v d1).nodes, (h.vtx w).kind = .decay ∨ (h.vtx w).kind = .fs := by
    intro w hw
    rw [j.g1_nodes] at hw
    rcases List.mem_cons.1 hw with rfl | hw
    · left
      obtain ⟨o, ho, _⟩ := j.hv
      rw [ho]
    · exact j.h1.kind w hw
  have hprod : findProd h (g1 h v d1) = (none, 0) := by
    unfold findProd
    have key : ∀ (xs : List (ℕ × ℕ)), (∀ x ∈ xs, x.1 ∈ (g1 h v d1).nodes) → xs.foldl (fun r x =>
        if (g1 h v d1).inDeg x.2 = 0 ∧ (g1 h v d1).outDeg x.2 = 1 then (if (h.vtx x.1).kind = .prod then (some x.1, r.2 + 1) else (none, r.2)) else r) (none, 0) = ((none, 0) : Option ℕ × ℕ) := by
      intro xs
      induction xs with
      | nil => intro _; rfl
      | cons x xs ih =>
        intro hx
        rw [List.forall_mem_cons] at hx
        rw [List.foldl_cons]
        have hnp : ¬ (h.vtx x.1).kind = .prod := by
          rcases hk _ hx.1 with h' | h' <;> rw [h'] <;> decide
        have : (if (g1 h v d1).inDeg x.2 = 0 ∧ (g1 h v d1).outDeg x.2 = 1 then (if (h.vtx x.1).kind = .prod then (some x.1, ((none, 0) : Option ℕ × ℕ).2 + 1) else (none, ((none, 0) : Option ℕ × ℕ).2)) else (none, 0)) = (none, 0) := by
          rw [if_neg hnp]
          split_ifs <;> rfl
        rw [this]
        exact ih hx.2
    refine key _ ?_
    intro x hx
    rw [List.mem_zipIdx_iff_getElem?] at hx
    exact List.mem_of_getElem? hx
  obtain ⟨q, hq⟩ : ∃ q, q ∈ L.leaves := by
    have := leaves_length L
    cases hl : L.leaves with
    | nil => rw [hl] at this; simp at this
    | cons a l => exact ⟨a, List.mem_cons_self⟩
  have hqp : q ∈ L.parts := (leaves_sub L).subset hq
  have hql : L.parts.idxOf q < L.parts.length := List.idxOf_lt_length_iff.2 hqp
  have hqv : h.vtx ((g1 h v d1).vertex (L.parts.idxOf q + 1)) = ⟨.fs, [q], []⟩ := by
    rw [j.g1_succ]
    exact j.h1.hends.hleaf q (leaf_sub L q hq)
  have hin0 : (g1 h v d1).inDeg 0 = 0 := by
    unfold Graph.inDeg
    rw [List.length_eq_zero_iff, List.filter_eq_nil_iff]
    intro e he hc
    have hc := of_decide_eq_true hc
    have h5 := ((j.fits1.ginv.hedges e).1 he).2.2.2.2
    have h5 : e.part ∈ (h.vtx ((g1 h v d1).vertex e.dst)).ins := h5
    rw [hc, j.g1_zero, j.ins, List.mem_singleton] at h5
    exact j.disj.1 (h5 ▸ j.g1_edges e he)
  have hdfs : (g1 h v d1).dfs 0 = 0 :: L.parts.map (fun q => L.parts.idxOf q + 1) := by
    refine (dfs_runs _ 0).det (.visit _ _ _ _ (by simp) ?_)
    rw [j.g1_succs.1, List.nil_append]
    have := runs_tree (succ := (g1 h v d1).succ) (f := fun q => L.parts.idxOf q + 1) L [] [0] ([0] ++ L.parts.map (fun q => L.parts.idxOf q + 1)) ?_ ?_ (.done _)
    · simp only [top_idx] at this
      exact this
    · intro Q hQ
      rw [j.g1_succs.2, j.h1.hsucc Q hQ]
      cases Q <;> rfl
    · rw [List.singleton_append, List.nodup_cons]
      refine ⟨by simp, List.Nodup.map_on ?_ j.h1.hnd⟩
      intro x hx y hy hxy
      exact (List.idxOf_inj hx).1 (by omega)
  have hsort : ∃ s, sortedNodes h (g1 h v d1) none = .ok s ∧ L.parts.idxOf q + 1 ∈ s := by
    unfold sortedNodes
    dsimp only
    split
    · next i hi =>
      have h0 : 0 ∈ ((List.range (g1 h v d1).nodes.length).filter fun i => decide ((g1 h v d1).inDeg i = 0 ∧ isFsVertex h (g1 h v d1) ((g1 h v d1).vertex i) = false)) := by
        refine List.mem_filter.2 ⟨List.mem_range.2 (by omega), decide_eq_true ⟨hin0, ?_⟩⟩
        rw [j.g1_zero]
        unfold isFsVertex
        obtain ⟨o, ho, _⟩ := j.hv
        rw [ho]
        simp
      rw [hi, List.mem_singleton] at h0
      rw [← h0, hdfs]
      exact ⟨_, rfl, List.mem_cons_of_mem _ (List.mem_map_of_mem (f := fun q => L.parts.idxOf q + 1) hqp)⟩
    · exact ⟨_, rfl, List.mem_range.2 (by omega)⟩
  obtain ⟨s, hs, hsm⟩ := hsort
  unfold buildInternalData
  dsimp only
  rw [hprod]
  dsimp only
  rw [hs]
  show ∃ t, (if 1 < 0 ∨ _ then _ else _) = _ ∧ _
  rw [if_neg]
  · exact ⟨_, rfl, rfl⟩
  · rintro (hc | hc)
    · omega
    · rw [List.length_map] at hc
      have hm : (g1 h v d1).vertex (L.parts.idxOf q + 1) ∈ ((s.map (g1 h v d1).vertex).filter fun w => isFsVertex h (g1 h v d1) w) := by
        refine List.mem_filter.2 ⟨List.mem_map_of_mem hsm, ?_⟩
        unfold isFsVertex
        rw [hqv]
        exact decide_eq_true ⟨rfl, vertex_mem (by omega)⟩
      have := List.length_pos_of_mem hm
      omega

/-- **joining two daughter decays**: the new topology holds the tree with the parent vertex at the top. -/
theorem joined (j : Joinable h v P d1 d2 L R) : joinDaughters h v [d1, d2] =
    .ok { g2 h v d1 d2 with prod := none, decays := (Tree.node v P L R).verts, fsParts := (Tree.node v P L R).leaves } := by
  obtain ⟨t, h1, h2⟩ := j.data1
  have h3 : buildInternalData h (addGraph h t.toGraph d2) =
    .ok { g2 h v d1 d2 with prod := none, decays := (Tree.node v P L R).verts, fsParts := (Tree.node v P L R).leaves } := by rw [h2]; exact j.inOrder.data
  unfold joinDaughters
  rw [List.foldlM_cons]
  show (buildInternalData h (g1 h v d1)).bind _ = _
  rw [h1]
  show List.foldlM (fun (t : Topo) d => addDecay h t.toGraph d) t [d2] = _
  rw [List.foldlM_cons]
  show (buildInternalData h (addGraph h t.toGraph d2)).bind _ = _
  rw [h3]
  rfl

end Joinable
end
end Rpwa.Dec
