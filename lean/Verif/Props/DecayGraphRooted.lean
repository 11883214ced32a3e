import Verif.Props.DecayGraphSum
import Mathlib.Data.List.Pairwise
/-! # Topologies that hold a decay tree pass the check (C73)

Whatever the order in which nodes were added. -/
namespace Rpwa.Dec
variable {M : Type}

theorem sub_sublist (T : Tree) : ∀ R ∈ T.subs, R.parts.Sublist T.parts := by
  induction T with
  | leaf p => intro R hR; rw [List.mem_singleton.1 hR]
  | node v p l r ihl ihr =>
    intro R hR
    rcases List.mem_cons.1 hR with rfl | hR
    · exact List.Sublist.refl _
    · rcases List.mem_append.1 hR with hR | hR
      · exact ((ihl R hR).trans (List.sublist_append_left _ _)).cons _
      · exact ((ihr R hR).trans (List.sublist_append_right _ _)).cons _

theorem parts_top (T : Tree) : ∃ l, T.parts = T.top :: l := by cases T <;> exact ⟨_, rfl⟩

theorem self_sub (T : Tree) : T ∈ T.subs := by cases T <;> simp [Tree.subs]

theorem sub_trans (T : Tree) : ∀ R ∈ T.subs, ∀ Q ∈ R.subs, Q ∈ T.subs := by
  induction T with
  | leaf p => intro R hR; rw [List.mem_singleton.1 hR]; exact fun _ h => h
  | node v p l r ihl ihr =>
    intro R hR Q hQ
    rcases List.mem_cons.1 hR with rfl | hR
    · exact hQ
    · rcases List.mem_append.1 hR with hR | hR
      · exact List.mem_cons_of_mem _ (List.mem_append_left _ (ihl R hR Q hQ))
      · exact List.mem_cons_of_mem _ (List.mem_append_right _ (ihr R hR Q hQ))

theorem node_subs {T l r : Tree} {v p : ℕ} (hN : Tree.node v p l r ∈ T.subs) : l ∈ T.subs ∧ r ∈ T.subs := by
  constructor
  · exact sub_trans T _ hN _ (List.mem_cons_of_mem _ (List.mem_append_left _ (self_sub l)))
  · exact sub_trans T _ hN _ (List.mem_cons_of_mem _ (List.mem_append_right _ (self_sub r)))

/-- every particle is the top of a sub-decay. -/
theorem top_of (T : Tree) : ∀ q ∈ T.parts, ∃ R ∈ T.subs, R.top = q := by
  induction T with
  | leaf p => intro q hq; exact ⟨_, List.mem_singleton_self _, (List.mem_singleton.1 hq).symm⟩
  | node v p l r ihl ihr =>
    intro q hq
    rcases List.mem_cons.1 hq with rfl | hq
    · exact ⟨_, self_sub _, rfl⟩
    · rcases List.mem_append.1 hq with hq | hq
      · obtain ⟨R, hR, h⟩ := ihl q hq
        exact ⟨R, List.mem_cons_of_mem _ (List.mem_append_left _ hR), h⟩
      · obtain ⟨R, hR, h⟩ := ihr q hq
        exact ⟨R, List.mem_cons_of_mem _ (List.mem_append_right _ hR), h⟩

theorem sub_top_mem (T : Tree) : ∀ R ∈ T.subs, R.top ∈ T.parts := fun R hR => sub_top T R hR _ (top_mem R)

/-- every particle but the first is a daughter. -/
theorem has_mother (T : Tree) : ∀ q ∈ T.parts, q = T.top ∨ ∃ v p l r, Tree.node v p l r ∈ T.subs ∧ (q = l.top ∨ q = r.top) := by
  induction T with
  | leaf p => intro q hq; exact .inl (List.mem_singleton.1 hq)
  | node v p l r ihl ihr =>
    intro q hq
    rcases List.mem_cons.1 hq with rfl | hq
    · exact .inl rfl
    · right
      rcases List.mem_append.1 hq with hq | hq
      · rcases ihl q hq with h | ⟨v', p', l', r', h, h'⟩
        · exact ⟨v, p, l, r, self_sub _, .inl h⟩
        · exact ⟨v', p', l', r', List.mem_cons_of_mem _ (List.mem_append_left _ h), h'⟩
      · rcases ihr q hq with h | ⟨v', p', l', r', h, h'⟩
        · exact ⟨v, p, l, r, self_sub _, .inr h⟩
        · exact ⟨v', p', l', r', List.mem_cons_of_mem _ (List.mem_append_right _ h), h'⟩

theorem ne_of_pair {l : List ℕ} (hn : l.Nodup) {a b : ℕ} (hs : [a, b].Sublist l) : a ≠ b := by
  have := hs.nodup hn
  simp at this
  exact this

theorem triple_sub {T l r : Tree} {v p : ℕ} (hN : Tree.node v p l r ∈ T.subs) : [p, l.top, r.top].Sublist T.parts := by
  refine List.Sublist.trans ?_ (sub_sublist T _ hN)
  obtain ⟨a, ha⟩ := parts_top l
  obtain ⟨b, hb⟩ := parts_top r
  show [p, l.top, r.top].Sublist (p :: (l.parts ++ r.parts))
  rw [ha, hb]
  refine List.Sublist.cons_cons _ ?_
  rw [List.cons_append]
  refine List.Sublist.cons_cons _ ?_
  refine List.Sublist.trans ?_ (List.sublist_append_right _ _)
  exact List.Sublist.cons_cons _ (List.nil_sublist _)

theorem daughter_ne {T l r : Tree} {v p q : ℕ} (hn : T.parts.Nodup) (hN : Tree.node v p l r ∈ T.subs) (hq : q = l.top ∨ q = r.top) : q ≠ T.top := by
  have ht := triple_sub hN
  obtain ⟨a, ha⟩ := parts_top T
  have hpq : [p, q].Sublist T.parts := by
    rcases hq with rfl | rfl
    · refine List.Sublist.trans ?_ ht
      simp
    · refine List.Sublist.trans ?_ ht
      exact List.Sublist.cons_cons _ (by simp)
  rintro rfl
  rw [ha] at hpq hn
  rw [List.nodup_cons] at hn
  cases hpq with
  | cons _ h => exact hn.1 (h.subset (by simp))
  | cons_cons _ h => exact hn.1 (h.subset (by simp))

/-- a particle is a daughter in one decay only. -/
theorem mother_unique (T : Tree) (hn : T.parts.Nodup) {v p v' p' q : ℕ} {l r l' r' : Tree} (hN : Tree.node v p l r ∈ T.subs) (hN' : Tree.node v' p' l' r' ∈ T.subs)
    (hq : q = l.top ∨ q = r.top) (hq' : q = l'.top ∨ q = r'.top) : p = p' := by
  induction T with
  | leaf _ => cases (List.mem_singleton.1 hN)
  | node w s a b iha ihb =>
    have hn0 := hn
    rw [Tree.parts, List.nodup_cons, List.nodup_append] at hn
    obtain ⟨_, ha, hb, hd⟩ := hn
    have key : ∀ {v p v' p' q : ℕ} {l r l' r' : Tree}, Tree.node v p l r ∈ a.subs → Tree.node v' p' l' r' ∈ b.subs → q = l.top ∨ q = r.top → q = l'.top ∨ q = r'.top → False := by
      intro v p v' p' q l r l' r' h1 h2 h3 h4
      have m1 : q ∈ a.parts := by
        rcases h3 with rfl | rfl
        · exact sub_top_mem a _ (node_subs h1).1
        · exact sub_top_mem a _ (node_subs h1).2
      have m2 : q ∈ b.parts := by
        rcases h4 with rfl | rfl
        · exact sub_top_mem b _ (node_subs h2).1
        · exact sub_top_mem b _ (node_subs h2).2
      exact hd q m1 q m2 rfl
    have key1 : ∀ {v p q : ℕ} {l r : Tree}, Tree.node v p l r ∈ a.subs → q = l.top ∨ q = r.top → q = a.top ∨ q = b.top → False := by
      intro v p q l r h1 h3 h4
      have m1 : q ∈ a.parts := by
        rcases h3 with rfl | rfl
        · exact sub_top_mem a _ (node_subs h1).1
        · exact sub_top_mem a _ (node_subs h1).2
      rcases h4 with rfl | rfl
      · exact daughter_ne ha h1 h3 rfl
      · exact hd _ m1 _ (top_mem b) rfl
    have key2 : ∀ {v p q : ℕ} {l r : Tree}, Tree.node v p l r ∈ b.subs → q = l.top ∨ q = r.top → q = a.top ∨ q = b.top → False := by
      intro v p q l r h1 h3 h4
      have m1 : q ∈ b.parts := by
        rcases h3 with rfl | rfl
        · exact sub_top_mem b _ (node_subs h1).1
        · exact sub_top_mem b _ (node_subs h1).2
      rcases h4 with rfl | rfl
      · exact hd _ (top_mem a) _ m1 rfl
      · exact daughter_ne hb h1 h3 rfl
    rcases List.mem_cons.1 hN with h | h <;> rcases List.mem_cons.1 hN' with h' | h'
    · cases h; cases h'; rfl
    · cases h
      rcases List.mem_append.1 h' with h' | h'
      · exact (key1 h' hq' hq).elim
      · exact (key2 h' hq' hq).elim
    · cases h'
      rcases List.mem_append.1 h with h | h
      · exact (key1 h hq hq').elim
      · exact (key2 h hq hq').elim
    · rcases List.mem_append.1 h with h | h <;> rcases List.mem_append.1 h' with h' | h'
      · exact iha ha h h'
      · exact (key h h' hq hq').elim
      · exact (key h' h hq' hq).elim
      · exact ihb hb h h'

/-- `u` says at which vertex object a particle of the tree ends: a decay vertex or a final-state vertex. -/
structure Ends (vtx : ℕ → Vtx) (u : ℕ → ℕ) (S : Tree) : Prop where
  hleaf : ∀ p, Tree.leaf p ∈ S.subs → vtx (u p) = ⟨.fs, [p], []⟩
  hnode : ∀ v p l r, Tree.node v p l r ∈ S.subs → u p = v ∧ ∃ outs, vtx v = ⟨.decay, [p], outs⟩ ∧ (outs = [l.top, r.top] ∨ outs = [r.top, l.top])

theorem Ends.sub {vtx : ℕ → Vtx} {u : ℕ → ℕ} {T S : Tree} (e : Ends vtx u T) (hS : S ∈ T.subs) : Ends vtx u S :=
  ⟨fun p hp => e.hleaf p (sub_trans T S hS _ hp), fun v p l r hp => e.hnode v p l r (sub_trans T S hS _ hp)⟩

theorem Ends.ins {vtx : ℕ → Vtx} {u : ℕ → ℕ} {S : Tree} (e : Ends vtx u S) {q : ℕ} (hq : q ∈ S.parts) : (vtx (u q)).ins = [q] := by
  obtain ⟨R, hR, rfl⟩ := top_of S q hq
  cases R with
  | leaf p => show (vtx (u p)).ins = [p]; rw [e.hleaf p hR]
  | node v p l r =>
    obtain ⟨h1, outs, h2, _⟩ := e.hnode v p l r hR
    show (vtx (u p)).ins = [p]
    rw [h1, h2]

theorem Ends.inj {vtx : ℕ → Vtx} {u : ℕ → ℕ} {S : Tree} (e : Ends vtx u S) {q q' : ℕ} (hq : q ∈ S.parts) (hq' : q' ∈ S.parts) (hu : u q = u q') : q = q' := by
  have h1 := e.ins hq
  rw [hu, e.ins hq'] at h1
  exact (List.head_eq_of_cons_eq h1).symm

/-- what comes out of the vertex of a particle are its daughters. -/
theorem Ends.outs {vtx : ℕ → Vtx} {u : ℕ → ℕ} {S : Tree} (e : Ends vtx u S) {p q : ℕ} (hp : p ∈ S.parts) :
    q ∈ (vtx (u p)).outs ↔ ∃ v l r, Tree.node v p l r ∈ S.subs ∧ (q = l.top ∨ q = r.top) := by
  constructor
  · intro hq
    obtain ⟨R, hR, rfl⟩ := top_of S p hp
    cases R with
    | leaf p =>
      have hq : q ∈ (vtx (u p)).outs := hq
      rw [e.hleaf p hR] at hq
      cases hq
    | node v p l r =>
      have hq : q ∈ (vtx (u p)).outs := hq
      obtain ⟨h1, outs, h2, h3⟩ := e.hnode v p l r hR
      rw [h1, h2] at hq
      refine ⟨v, l, r, hR, ?_⟩
      rcases h3 with rfl | rfl
      · simpa using hq
      · have : q = r.top ∨ q = l.top := by simpa using hq
        exact this.symm
  · rintro ⟨v, l, r, hR, hq⟩
    obtain ⟨h1, outs, h2, h3⟩ := e.hnode v p l r hR
    rw [h1, h2]
    rcases h3 with rfl | rfl <;> rcases hq with rfl | rfl <;> simp

theorem Ends.verts {vtx : ℕ → Vtx} {u : ℕ → ℕ} {S : Tree} (e : Ends vtx u S) {v : ℕ} (hv : v ∈ S.verts) : ∃ p l r, Tree.node v p l r ∈ S.subs ∧ u p = v := by
  have : ∃ p l r, Tree.node v p l r ∈ S.subs := by
    clear e
    induction S with
    | leaf p => cases hv
    | node w p l r ihl ihr =>
      rcases List.mem_cons.1 hv with rfl | hv
      · exact ⟨p, l, r, self_sub _⟩
      · rcases List.mem_append.1 hv with hv | hv
        · obtain ⟨a, b, c, h⟩ := ihl hv
          exact ⟨a, b, c, List.mem_cons_of_mem _ (List.mem_append_left _ h)⟩
        · obtain ⟨a, b, c, h⟩ := ihr hv
          exact ⟨a, b, c, List.mem_cons_of_mem _ (List.mem_append_right _ h)⟩
  obtain ⟨p, l, r, h⟩ := this
  exact ⟨p, l, r, h, (e.hnode v p l r h).1⟩

theorem leaf_sub (S : Tree) : ∀ p ∈ S.leaves, Tree.leaf p ∈ S.subs := by
  induction S with
  | leaf p => intro q hq; rw [List.mem_singleton.1 hq]; exact self_sub _
  | node w p l r ihl ihr =>
    intro q hq
    rcases List.mem_append.1 hq with hq | hq
    · exact List.mem_cons_of_mem _ (List.mem_append_left _ (ihl q hq))
    · exact List.mem_cons_of_mem _ (List.mem_append_right _ (ihr q hq))

/-- the lists of vertices and of final-state particles, from the list of the vertices at which the particles end. -/
theorem Ends.lists {vtx : ℕ → Vtx} {u : ℕ → ℕ} {S : Tree} (e : Ends vtx u S) :
    (S.parts.map u).filter (fun v => decide ((vtx v).kind = .decay)) = S.verts ∧
    ((S.parts.map u).filter (fun v => decide ((vtx v).kind = .fs))).map (fun v => (vtx v).ins.headD 0) = S.leaves := by
  induction S with
  | leaf p =>
    have := e.hleaf p (self_sub _)
    simp [Tree.parts, Tree.verts, Tree.leaves, this]
  | node v p l r ihl ihr =>
    obtain ⟨h1, outs, h2, _⟩ := e.hnode v p l r (self_sub _)
    obtain ⟨a1, a2⟩ := ihl (e.sub (List.mem_cons_of_mem _ (List.mem_append_left _ (self_sub l))))
    obtain ⟨b1, b2⟩ := ihr (e.sub (List.mem_cons_of_mem _ (List.mem_append_right _ (self_sub r))))
    have k1 : (vtx v).kind = .decay := by rw [h2]
    constructor
    · rw [Tree.parts, List.map_cons, h1, List.filter_cons_of_pos (by rw [k1]; decide), List.map_append, List.filter_append, a1, b1]
      rfl
    · rw [Tree.parts, List.map_cons, h1, List.filter_cons_of_neg (by rw [k1]; decide), List.map_append, List.filter_append, List.map_append, a2, b2]
      rfl

theorem parts_length (S : Tree) : S.parts.length = S.verts.length + S.leaves.length := by
  induction S with
  | leaf p => rfl
  | node v p l r ihl ihr =>
    simp only [Tree.parts, Tree.verts, Tree.leaves, List.length_append, List.length_cons, ihl, ihr]
    omega

/-- a topology that holds the tree `S`, with production vertex `w`, nodes in any order. -/
structure Rooted (h : Heap M) (t : Topo) (w : ℕ) (u : ℕ → ℕ) (S : Tree) : Prop where
  hv : VInv t.toGraph
  hg : GInv h t.toGraph
  hend : t.edges.Nodup
  hnd : S.parts.Nodup
  hends : Ends h.vtx u S
  hprod : t.prod = some w
  hnodes : t.nodes.Perm (w :: S.parts.map u)
  hw : w ∉ S.parts.map u
  hX : (h.vtx w).outs.head? = some S.top
  hrest : ∀ p ∈ (h.vtx w).ins ++ (h.vtx w).outs.tail, p ∉ S.parts
  hself : ∀ p ∈ (h.vtx w).ins, p ∉ (h.vtx w).outs
  hdecays : t.decays.Perm S.verts
  hfs : t.fsParts.Perm S.leaves

namespace Rooted
variable {h : Heap M} {t : Topo} {w : ℕ} {u : ℕ → ℕ} {S : Tree}

theorem wouts (c : Rooted h t w u S) {q : ℕ} (hq : q ∈ S.parts) : q ∈ (h.vtx w).outs ↔ q = S.top := by
  have hX := c.hX
  have hr := c.hrest
  cases ho : (h.vtx w).outs with
  | nil => rw [ho] at hX; cases hX
  | cons a l =>
    rw [ho] at hX hr
    cases hX
    constructor
    · intro hm
      rcases List.mem_cons.1 hm with rfl | hm
      · rfl
      · exact absurd hq (hr q (List.mem_append_right _ hm))
    · rintro rfl
      exact List.mem_cons_self

theorem node_cases (c : Rooted h t w u S) {i : ℕ} (hi : i < t.nodes.length) : t.vertex i = w ∨ ∃ q ∈ S.parts, t.vertex i = u q := by
  have := c.hnodes.subset (vertex_mem hi)
  rcases List.mem_cons.1 this with h | h
  · exact .inl h
  · obtain ⟨q, hq, h⟩ := List.mem_map.1 h
    exact .inr ⟨q, hq, h.symm⟩

theorem at_part (c : Rooted h t w u S) {q : ℕ} (hq : q ∈ S.parts) : ∃ i, i < t.nodes.length ∧ t.vertex i = u q :=
  mem_vertex (c.hnodes.symm.subset (List.mem_cons_of_mem _ (List.mem_map_of_mem hq)))

theorem at_w (c : Rooted h t w u S) : ∃ i, i < t.nodes.length ∧ t.vertex i = w := mem_vertex (c.hnodes.symm.subset List.mem_cons_self)

/-- an edge has a particle of the tree and ends where the particle ends. -/
theorem edge_part (c : Rooted h t w u S) {e : Edge} (he : e ∈ t.edges) : e.part ∈ S.parts ∧ t.vertex e.dst = u e.part := by
  obtain ⟨h1, h2, h3, h4, h5⟩ := (c.hg.hedges e).1 he
  rcases c.node_cases h2 with hc | ⟨q, hq, hc⟩
  · exfalso
    rw [hc] at h5
    rcases c.node_cases h1 with hs | ⟨q, hq, hs⟩
    · rw [hs] at h4
      exact c.hself _ h5 h4
    · rw [hs] at h4
      obtain ⟨v, l, r, hN, hq'⟩ := (c.hends.outs hq).1 h4
      refine c.hrest e.part (List.mem_append_left _ h5) ?_
      rcases hq' with h | h <;> rw [h]
      · exact sub_top_mem S _ (node_subs hN).1
      · exact sub_top_mem S _ (node_subs hN).2
  · rw [hc, c.hends.ins hq, List.mem_singleton] at h5
    rw [h5]
    exact ⟨hq, hc⟩

/-- every particle of the tree has an edge. -/
theorem part_edge (c : Rooted h t w u S) {q : ℕ} (hq : q ∈ S.parts) : ∃ e ∈ t.edges, e.part = q := by
  obtain ⟨j, hj, hjv⟩ := c.at_part hq
  have key : ∃ i, i < t.nodes.length ∧ q ∈ (h.vtx (t.vertex i)).outs ∧ i ≠ j := by
    rcases has_mother S q hq with rfl | ⟨v, p, l, r, hN, hq'⟩
    · obtain ⟨i, hi, hiv⟩ := c.at_w
      refine ⟨i, hi, by rw [hiv]; exact (c.wouts hq).2 rfl, ?_⟩
      rintro rfl
      exact c.hw (List.mem_map.2 ⟨_, hq, by rw [← hjv, hiv]⟩)
    · have hp := sub_top_mem S _ hN
      obtain ⟨i, hi, hiv⟩ := c.at_part hp
      refine ⟨i, hi, by rw [hiv]; exact (c.hends.outs hp).2 ⟨v, l, r, hN, hq'⟩, ?_⟩
      rintro rfl
      have hpq : p = q := c.hends.inj hp hq (by rw [← hjv, hiv]; rfl)
      have ht := (triple_sub hN).nodup c.hnd
      simp only [List.nodup_cons, List.mem_cons, List.not_mem_nil, or_false, not_or] at ht
      rcases hq' with h | h
      · exact ht.1.1 (hpq.trans h)
      · exact ht.1.2 (hpq.trans h)
  obtain ⟨i, hi, ho, hne⟩ := key
  refine ⟨⟨i, j, q⟩, (c.hg.hedges _).2 ⟨hi, hj, hne, ho, ?_⟩, rfl⟩
  show q ∈ (h.vtx (t.vertex j)).ins
  rw [hjv, c.hends.ins hq]
  simp

/-- where an edge comes from. -/
theorem edge_src (c : Rooted h t w u S) {e : Edge} (he : e ∈ t.edges) :
    (t.vertex e.src = w ∧ e.part = S.top) ∨ ∃ v p l r, Tree.node v p l r ∈ S.subs ∧ t.vertex e.src = u p ∧ (e.part = l.top ∨ e.part = r.top) := by
  obtain ⟨h1, h2, h3, h4, h5⟩ := (c.hg.hedges e).1 he
  rcases c.node_cases h1 with hs | ⟨q, hq, hs⟩
  · rw [hs] at h4
    exact .inl ⟨hs, (c.wouts (c.edge_part he).1).1 h4⟩
  · rw [hs] at h4
    obtain ⟨v, l, r, hN, hq'⟩ := (c.hends.outs hq).1 h4
    exact .inr ⟨v, q, l, r, hN, hs, hq'⟩

theorem part_unique (c : Rooted h t w u S) {e e' : Edge} (he : e ∈ t.edges) (he' : e' ∈ t.edges) (hp : e.part = e'.part) : e = e' := by
  obtain ⟨h1, h2, _⟩ := (c.hg.hedges e).1 he
  obtain ⟨h1', h2', _⟩ := (c.hg.hedges e').1 he'
  have hd : e.dst = e'.dst := vertex_inj c.hv h2 h2' (by rw [(c.edge_part he).2, (c.edge_part he').2, hp])
  have hs : e.src = e'.src := by
    refine vertex_inj c.hv h1 h1' ?_
    rcases c.edge_src he with ⟨a, b⟩ | ⟨v, p, l, r, hN, a, b⟩ <;> rcases c.edge_src he' with ⟨a', b'⟩ | ⟨v', p', l', r', hN', a', b'⟩
    · rw [a, a']
    · rw [hp] at b
      exact absurd b (daughter_ne c.hnd hN' b')
    · rw [← hp] at b'
      exact absurd b' (daughter_ne c.hnd hN b)
    · rw [hp] at b
      rw [a, a', mother_unique S c.hnd hN hN' b b']
  cases e; cases e'
  simp_all

theorem inDeg (c : Rooted h t w u S) {q i : ℕ} (hq : q ∈ S.parts) (hi : i < t.nodes.length) (hiv : t.vertex i = u q) : t.inDeg i = 1 := by
  obtain ⟨e, he, rfl⟩ := c.part_edge hq
  have hd : e.dst = i := vertex_inj c.hv ((c.hg.hedges e).1 he).2.1 hi (by rw [(c.edge_part he).2, hiv])
  have : (t.edges.filter (fun e => e.dst = i)).Perm [e] := by
    rw [List.perm_ext_iff_of_nodup (c.hend.filter _) (by simp)]
    intro x
    rw [List.mem_singleton, List.mem_filter]
    constructor
    · rintro ⟨hx, hxd⟩
      refine c.part_unique hx he (c.hends.inj (c.edge_part hx).1 hq ?_)
      rw [← (c.edge_part hx).2, of_decide_eq_true hxd, hiv]
    · rintro rfl
      exact ⟨he, by simp [hd]⟩
  unfold Graph.inDeg
  rw [this.length_eq]
  rfl

theorem out_edge (c : Rooted h t w u S) {q i : ℕ} (hq : q ∈ S.parts) (hi : i < t.nodes.length) (ho : q ∈ (h.vtx (t.vertex i)).outs) :
    ∃ j, (⟨i, j, q⟩ : Edge) ∈ t.edges := by
  obtain ⟨e, he, rfl⟩ := c.part_edge hq
  have hs : e.src = i := by
    refine vertex_inj c.hv ((c.hg.hedges e).1 he).1 hi ?_
    rcases c.node_cases hi with hw | ⟨p, hp, hw⟩
    · rw [hw] at ho
      have ht := (c.wouts hq).1 ho
      rcases c.edge_src he with ⟨a, _⟩ | ⟨v, p, l, r, hN, a, b⟩
      · rw [a, hw]
      · exact absurd ht (daughter_ne c.hnd hN b)
    · rw [hw] at ho
      obtain ⟨v, l, r, hN, b⟩ := (c.hends.outs hp).1 ho
      rcases c.edge_src he with ⟨_, a⟩ | ⟨v', p', l', r', hN', a, b'⟩
      · exact absurd a (daughter_ne c.hnd hN b)
      · rw [a, hw, mother_unique S c.hnd hN hN' b b']
  exact ⟨e.dst, hs ▸ he⟩

theorem outDeg (c : Rooted h t w u S) {v p i : ℕ} {l r : Tree} (hN : Tree.node v p l r ∈ S.subs) (hi : i < t.nodes.length) (hiv : t.vertex i = u p) : t.outDeg i = 2 := by
  have hp := sub_top_mem S _ hN
  have hp : p ∈ S.parts := hp
  have hl := sub_top_mem S _ (node_subs hN).1
  have hr := sub_top_mem S _ (node_subs hN).2
  obtain ⟨j, hj⟩ := c.out_edge hl hi (by rw [hiv]; exact (c.hends.outs hp).2 ⟨v, l, r, hN, .inl rfl⟩)
  obtain ⟨k, hk⟩ := c.out_edge hr hi (by rw [hiv]; exact (c.hends.outs hp).2 ⟨v, l, r, hN, .inr rfl⟩)
  have hne : l.top ≠ r.top := by
    have ht := (triple_sub hN).nodup c.hnd
    simp only [List.nodup_cons, List.mem_cons, List.not_mem_nil, or_false, not_or] at ht
    exact ht.2.1
  have : (t.edges.filter (fun e => e.src = i)).Perm [⟨i, j, l.top⟩, ⟨i, k, r.top⟩] := by
    rw [List.perm_ext_iff_of_nodup (c.hend.filter _) (by simp [hne])]
    intro x
    rw [List.mem_filter, List.mem_cons, List.mem_singleton]
    constructor
    · rintro ⟨hx, hxs⟩
      have h4 := ((c.hg.hedges x).1 hx).2.2.2.1
      rw [of_decide_eq_true hxs, hiv] at h4
      obtain ⟨v', l', r', hN', b⟩ := (c.hends.outs hp).1 h4
      obtain ⟨h1, outs, h2, h3⟩ := c.hends.hnode v p l r hN
      rw [h1, h2] at h4
      have h5 : x.part = l.top ∨ x.part = r.top := by
        rcases h3 with rfl | rfl
        · simpa using h4
        · have : x.part = r.top ∨ x.part = l.top := by simpa using h4
          exact this.symm
      rcases h5 with h5 | h5
      · exact .inl (c.part_unique hx hj h5)
      · exact .inr (c.part_unique hx hk h5)
    · rintro (rfl | rfl)
      · exact ⟨hj, by simp⟩
      · exact ⟨hk, by simp⟩
  unfold Graph.outDeg
  rw [this.length_eq]
  rfl

theorem root_out (c : Rooted h t w u S) {i : ℕ} (hi : i < t.nodes.length) (hiv : t.vertex i = w) : t.outDeg i = 1 ∧ t.inDeg i = 0 := by
  obtain ⟨j, hj⟩ := c.out_edge (top_mem S) hi (by rw [hiv]; exact (c.wouts (top_mem S)).2 rfl)
  constructor
  · have : (t.edges.filter (fun e => e.src = i)).Perm [⟨i, j, S.top⟩] := by
      rw [List.perm_ext_iff_of_nodup (c.hend.filter _) (by simp)]
      intro x
      rw [List.mem_filter, List.mem_singleton]
      constructor
      · rintro ⟨hx, hxs⟩
        have h4 := ((c.hg.hedges x).1 hx).2.2.2.1
        rw [of_decide_eq_true hxs, hiv] at h4
        exact c.part_unique hx hj ((c.wouts (c.edge_part hx).1).1 h4)
      · rintro rfl
        exact ⟨hj, by simp⟩
    unfold Graph.outDeg
    rw [this.length_eq]
    rfl
  · unfold Graph.inDeg
    rw [List.length_eq_zero_iff, List.filter_eq_nil_iff]
    intro x hx hxd
    have := (c.edge_part hx).2
    rw [of_decide_eq_true hxd, hiv] at this
    exact c.hw (List.mem_map.2 ⟨_, (c.edge_part hx).1, this.symm⟩)

/-- everything is reached from the production vertex. -/
theorem reach (c : Rooted h t w u S) {i0 : ℕ} (h0 : i0 < t.nodes.length) (h0v : t.vertex i0 = w) :
    ∀ j, j < t.nodes.length → j ∈ t.dfs i0 := by
  have key : ∀ R ∈ S.subs, (∀ j, j < t.nodes.length → t.vertex j = u R.top → j ∈ t.dfs i0) → ∀ q ∈ R.parts, ∀ j, j < t.nodes.length → t.vertex j = u q → j ∈ t.dfs i0 := by
    intro R
    induction R with
    | leaf p =>
      intro _ ht q hq
      rw [List.mem_singleton.1 hq]
      exact ht
    | node v p l r ihl ihr =>
      intro hR ht q hq
      have hp := sub_top_mem S _ hR
      have hp : p ∈ S.parts := hp
      obtain ⟨i, hi, hiv⟩ := c.at_part hp
      have him := ht i hi hiv
      have step : ∀ s, s ∈ S.parts → (s = l.top ∨ s = r.top) → ∀ j, j < t.nodes.length → t.vertex j = u s → j ∈ t.dfs i0 := by
        intro s hs hlr j hj hjv
        obtain ⟨k, hk⟩ := c.out_edge hs hi (by rw [hiv]; exact (c.hends.outs hp).2 ⟨v, l, r, hR, hlr⟩)
        have hkj : k = j := vertex_inj c.hv ((c.hg.hedges _).1 hk).2.1 hj (by rw [(c.edge_part hk).2, hjv])
        have := dfs_closed t.toGraph hk (s := i0) him
        rw [← hkj]
        exact this
      rcases List.mem_cons.1 hq with rfl | hq
      · exact ht
      · rcases List.mem_append.1 hq with hq | hq
        · exact ihl (node_subs hR).1 (step _ (sub_top_mem S _ (node_subs hR).1) (.inl rfl)) q hq
        · exact ihr (node_subs hR).2 (step _ (sub_top_mem S _ (node_subs hR).2) (.inr rfl)) q hq
  intro j hj
  rcases c.node_cases hj with hw | ⟨q, hq, hw⟩
  · rw [vertex_inj c.hv hj h0 (hw.trans h0v.symm)]
    obtain ⟨R, hR⟩ := (dfs_spec t.toGraph i0).2.2.1
    rw [hR]
    simp
  · refine key S (self_sub S) ?_ q hq j hj hw
    intro j hj hjv
    obtain ⟨k, hk⟩ := c.out_edge (top_mem S) h0 (by rw [h0v]; exact (c.wouts (top_mem S)).2 rfl)
    have hkj : k = j := vertex_inj c.hv ((c.hg.hedges _).1 hk).2.1 hj (by rw [(c.edge_part hk).2, hjv])
    have h00 : i0 ∈ t.dfs i0 := by
      obtain ⟨R, hR⟩ := (dfs_spec t.toGraph i0).2.2.1
      rw [hR]
      simp
    have := dfs_closed t.toGraph hk (s := i0) h00
    rw [← hkj]
    exact this

theorem len (c : Rooted h t w u S) : t.nodes.length = 1 + S.parts.length := by
  rw [c.hnodes.length_eq]
  simp
  omega

variable [Inhabited M]

theorem allO_last {xs : List (Outcome Bool)} (hx : ∀ x ∈ xs, x = .ok true) (b : Bool) : allO (xs ++ [.ok b]) = .ok b := by
  induction xs with
  | nil => simp [allO, Outcome.bind]
  | cons x xs ih =>
    rw [List.forall_mem_cons] at hx
    rw [List.cons_append, allO, hx.1, ih hx.2]
    rfl

omit [Inhabited M] in
theorem allO_head {xs : List (Outcome Bool)} (hx : ∀ x ∈ xs, x = .ok true) (b : Bool) : allO (.ok b :: xs) = .ok b := by
  rw [allO, (allO_true xs).2 hx]
  show Outcome.ok (b && true) = _
  rw [Bool.and_true]

/-- **the check decides the indices of the final-state particles; everything else is in order.** -/
theorem check (c : Rooted h t w u S) : isobarCheck h t = .ok (indicesOk h t) := by
  obtain ⟨i0, h0, h0v⟩ := c.at_w
  have hnw : t.node w = .ok i0 := by rw [← h0v]; exact node_ok c.hv h0
  have isE : ∀ p ∈ S.parts, t.isEdge p = true := by
    intro p hp
    obtain ⟨e, he, rfl⟩ := c.part_edge hp
    exact c.hg.hpart e he
  have hdec : ∀ v ∈ t.decays, ∃ i, t.node v = .ok i ∧ t.vertex i = v ∧ t.outDeg i = 2 ∧ t.inDeg i = 1 := by
    intro v hv
    obtain ⟨p, l, r, hN, hu⟩ := c.hends.verts (c.hdecays.subset hv)
    have hp := sub_top_mem S _ hN
    obtain ⟨i, hi, hiv⟩ := c.at_part hp
    have hiv : t.vertex i = u p := hiv
    refine ⟨i, ?_, by rw [hiv, hu], c.outDeg hN hi hiv, c.inDeg hp hi hiv⟩
    rw [← hu, ← hiv]
    exact node_ok c.hv hi
  have hchk : checkTopology h t = .ok (indicesOk h t) := by
    unfold checkTopology
    rw [show ([Outcome.ok (danglingOk h t), prodOk t, reachOk t] ++ t.decays.map (decayOk t) ++ t.fsParts.map (fsOk h t) ++ [.ok (edgesOk h t), .ok (indicesOk h t)])
      = ([Outcome.ok (danglingOk h t), prodOk t, reachOk t] ++ t.decays.map (decayOk t) ++ t.fsParts.map (fsOk h t) ++ [.ok (edgesOk h t)]) ++ [.ok (indicesOk h t)] by simp]
    refine allO_last ?_ _
    intro x hx
    simp only [List.mem_append, List.mem_cons, List.mem_map, List.not_mem_nil, or_false] at hx
    rcases hx with (((rfl | rfl | rfl) | ⟨v, hvm, rfl⟩) | ⟨p, hpm, rfl⟩) | rfl
    · congr 1
      unfold danglingOk
      rw [List.all_eq_true]
      intro v hvm
      obtain ⟨i, hi, rfl⟩ := mem_vertex hvm
      rcases c.node_cases hi with hw | ⟨q, hq, hw⟩
      · have h2 : t.isProd (t.vertex i) = true := by
          unfold Topo.isProd
          rw [c.hprod, hw]
          rw [hw] at hvm
          simp [hvm]
        rw [if_pos h2, hw]
        have h4 : (h.vtx w).outs.headD 0 = S.top := by
          have := c.hX
          cases ho : (h.vtx w).outs with
          | nil => rw [ho] at this; cases this
          | cons a l => rw [ho] at this; cases this; rfl
        rw [h4]
        exact isE _ (top_mem S)
      · have h2 : t.isProd (t.vertex i) = false := by
          unfold Topo.isProd
          rw [c.hprod]
          have : ¬ w = t.vertex i := by
            intro hc
            exact c.hw (List.mem_map.2 ⟨q, hq, by rw [hc, hw]⟩)
          simp [this]
        rw [h2, if_neg (by simp), Bool.and_eq_true, List.all_eq_true, List.all_eq_true, hw]
        refine ⟨fun p hp => isE p ?_, fun p hp => isE p ?_⟩
        · rw [c.hends.ins hq, List.mem_singleton] at hp
          rw [hp]; exact hq
        · obtain ⟨v, l, r, hN, b⟩ := (c.hends.outs hq).1 hp
          rcases b with rfl | rfl
          · exact sub_top_mem S _ (node_subs hN).1
          · exact sub_top_mem S _ (node_subs hN).2
    · unfold prodOk
      rw [c.hprod]
      dsimp only
      rw [hnw]
      obtain ⟨d1, d2⟩ := c.root_out h0 h0v
      show Outcome.ok _ = _
      rw [h0v, d1, d2]
      simp
    · unfold reachOk
      rw [c.hprod]
      dsimp only
      rw [hnw]
      show Outcome.ok (decide ((t.dfs i0).length = _)) = _
      have hperm : (t.dfs i0).Perm (List.range t.nodes.length) := by
        rw [List.perm_ext_iff_of_nodup (dfs_spec _ _).1 List.nodup_range]
        intro j
        rw [List.mem_range]
        refine ⟨fun hj => ?_, c.reach h0 h0v j⟩
        have := ((dfs_spec t.toGraph i0).2.1 j).1 hj
        induction this with
        | refl => exact h0
        | step a b ha hb ih =>
          unfold Graph.succ at hb
          obtain ⟨e, he, rfl⟩ := List.mem_map.1 hb
          exact ((c.hg.hedges e).1 (List.mem_filter.1 he).1).2.1
      rw [hperm.length_eq, List.length_range, c.hdecays.length_eq, c.hfs.length_eq, c.len, parts_length]
      congr 1
      exact decide_eq_true (by omega)
    · obtain ⟨i, h1, h2, h3, h4⟩ := hdec v hvm
      unfold decayOk
      rw [h1]
      show Outcome.ok _ = _
      rw [h2, h3, h4]
      simp
    · have hp := leaf_sub S p (c.hfs.subset hpm)
      have hpp : p ∈ S.parts := sub_top_mem S _ hp
      unfold fsOk
      rw [if_pos (isE _ hpp)]
      obtain ⟨⟨a, b⟩, hab⟩ := Option.isSome_iff_exists.1 (isE p hpp)
      have hme := c.hg.hpmap _ _ _ hab
      unfold Graph.edge
      rw [hab]
      dsimp only
      cases hfi : t.edges.findIdx? (fun e => e.src = a ∧ e.dst = b) with
      | none =>
        rw [List.findIdx?_eq_none_iff] at hfi
        have := hfi _ hme
        simp at this
      | some x =>
        obtain ⟨hxl, hx, _⟩ := List.findIdx?_eq_some_iff_getElem.1 hfi
        have hx := of_decide_eq_true hx
        have hxm : t.edges[x] ∈ t.edges := List.getElem_mem hxl
        show (match t.edges[x]? with | none => Outcome.ub | some e => Outcome.ok _) = _
        rw [List.getElem?_eq_getElem hxl]
        dsimp only
        have h5 := (c.edge_part hxm)
        have h6 := (c.edge_part hme).2
        dsimp only at h6
        have h7 : t.edges[x].part = p := c.hends.inj h5.1 hpp (by rw [← h5.2, hx.2, h6])
        have h8 : isFsVertex h t.toGraph (t.vertex t.edges[x].dst) = true := by
          unfold isFsVertex
          refine decide_eq_true ⟨?_, vertex_mem ((c.hg.hedges _).1 hxm).2.1⟩
          rw [hx.2, h6, c.hends.hleaf p hp]
        rw [h7, h8]
        simp
    · congr 1
      unfold edgesOk
      rw [List.all_eq_true]
      intro e he
      have h5 := (c.hg.hedges e).1 he
      rw [Bool.and_eq_true]
      exact ⟨decide_eq_true h5.2.2.2.1, decide_eq_true h5.2.2.2.2⟩
  unfold isobarCheck
  rw [hchk]
  refine allO_head ?_ _
  intro x hx
  obtain ⟨v, hv, rfl⟩ := List.mem_map.1 hx
  obtain ⟨i, h1, _, h3, h4⟩ := hdec v hv
  unfold isobarOk
  rw [h1]
  show Outcome.ok _ = _
  rw [h3, h4]
  simp

end Rooted
end Rpwa.Dec
