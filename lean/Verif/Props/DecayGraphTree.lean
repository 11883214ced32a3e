import Verif.Props.DecayGraphBuild
/-! # From degrees and reachability to a tree (C70) -/
namespace Rpwa.Dec

/-- what the check establishes about a graph; node 0 is the production vertex. -/
structure Ctx (g : Graph) (V : ℕ → Vtx) (n X : ℕ) : Prop where
  hmem : ∀ e, e ∈ g.edges ↔ e.src < n ∧ e.dst < n ∧ e.src ≠ e.dst ∧ e.part ∈ (V e.src).outs ∧ e.part ∈ (V e.dst).ins
  hshare : ∀ i j p, i < n → j < n → p ∈ (V i).outs → p ∈ (V j).outs → i = j
  hnode : ∀ i, i ≠ 0 → i < n → ∃ p, V i = ⟨.fs, [p], []⟩ ∨ ∃ a b, V i = ⟨.decay, [p], [a, b]⟩ ∧ a ≠ b ∧ g.outDeg i = 2
  hroot : g.outDeg 0 = 1
  hrootIn : g.inDeg 0 = 0
  hX : X ∈ (V 0).outs ∧ ∃ e ∈ g.edges, e.part = X
  hpos : 0 < n
  hin : ∀ i, i ≠ 0 → i < n → ∃ e ∈ g.edges, e.dst = i
  hout : ∀ i, i ≠ 0 → i < n → ∀ p ∈ (V i).outs, ∃ e ∈ g.edges, e.part = p
  hreach : ∀ i, i < n → i ∈ g.dfs 0

/-- the node in which a particle ends. -/
def Graph.ends (g : Graph) (p : ℕ) : ℕ := ((g.edges.find? fun e => e.part = p).map Edge.dst).getD 0

theorem two_list {α : Type} {l : List α} (hl : l.length = 2) {a b : α} (ha : a ∈ l) (hb : b ∈ l) (hab : a ≠ b) : l = [a, b] ∨ l = [b, a] := by
  match l, hl with
  | [x, y], _ =>
    simp only [List.mem_cons, List.not_mem_nil, or_false] at ha hb
    rcases ha with rfl | rfl <;> rcases hb with rfl | rfl
    · exact absurd rfl hab
    · exact .inl rfl
    · exact .inr rfl
    · exact absurd rfl hab

theorem one_list {α : Type} {l : List α} (hl : l.length = 1) {a : α} (ha : a ∈ l) : l = [a] := by
  match l, hl with
  | [x], _ => rw [List.mem_singleton.1 ha]

namespace Ctx
variable {g : Graph} {V : ℕ → Vtx} {n X : ℕ}

theorem out_edge (c : Ctx g V n X) {i p : ℕ} (hi : i < n) (hp : p ∈ (V i).outs) (he : ∃ e ∈ g.edges, e.part = p) :
    ∃ j, (⟨i, j, p⟩ : Edge) ∈ g.edges := by
  obtain ⟨⟨a, b, q⟩, he, rfl⟩ := he
  obtain ⟨h1, _, _, h4, _⟩ := (c.hmem _).1 he
  have : i = a := c.hshare i a _ hi h1 hp h4
  subst this
  exact ⟨b, he⟩

theorem filter_two (c : Ctx g V n X) {i p a b : ℕ} (hi : i ≠ 0) (hin : i < n) (hV : V i = ⟨.decay, [p], [a, b]⟩) (hab : a ≠ b) (hd : g.outDeg i = 2) :
    ∃ j k, (⟨i, j, a⟩ : Edge) ∈ g.edges ∧ (⟨i, k, b⟩ : Edge) ∈ g.edges ∧
      ((g.edges.filter fun e => e.src = i) = [⟨i, j, a⟩, ⟨i, k, b⟩] ∨ (g.edges.filter fun e => e.src = i) = [⟨i, k, b⟩, ⟨i, j, a⟩]) := by
  have ha : a ∈ (V i).outs := by rw [hV]; simp
  have hb : b ∈ (V i).outs := by rw [hV]; simp
  obtain ⟨j, hj⟩ := c.out_edge hin ha (c.hout i hi hin a ha)
  obtain ⟨k, hk⟩ := c.out_edge hin hb (c.hout i hi hin b hb)
  refine ⟨j, k, hj, hk, two_list hd (List.mem_filter.2 ⟨hj, by simp⟩) (List.mem_filter.2 ⟨hk, by simp⟩) ?_⟩
  intro hc
  exact hab (Edge.mk.inj hc).2.2

/-- a particle belongs to one edge only. -/
theorem part_unique (c : Ctx g V n X) {e e' : Edge} (he : e ∈ g.edges) (he' : e' ∈ g.edges) (hp : e.part = e'.part) : e = e' := by
  obtain ⟨h1, _, _, h4, _⟩ := (c.hmem e).1 he
  obtain ⟨h1', _, _, h4', _⟩ := (c.hmem e').1 he'
  have hs : e'.src = e.src := c.hshare _ _ e.part h1' h1 (hp ▸ h4') h4
  have m1 : e ∈ g.edges.filter fun x => x.src = e.src := List.mem_filter.2 ⟨he, by simp⟩
  have m2 : e' ∈ g.edges.filter fun x => x.src = e.src := List.mem_filter.2 ⟨he', by simp [hs]⟩
  by_cases h0 : e.src = 0
  · have hd : (g.edges.filter fun x => x.src = e.src).length = 1 := by rw [h0]; exact c.hroot
    have h2 := one_list hd m1
    rw [h2] at m2
    exact (List.mem_singleton.1 m2).symm
  · obtain ⟨p, hV | ⟨a, b, hV, hab, hd⟩⟩ := c.hnode _ h0 h1
    · rw [hV] at h4
      cases h4
    · obtain ⟨j, k, _, _, hf⟩ := c.filter_two h0 h1 hV hab hd
      have hor : ∀ x ∈ g.edges.filter (fun x => x.src = e.src), x = ⟨e.src, j, a⟩ ∨ x = ⟨e.src, k, b⟩ := by
        intro x hx
        rcases hf with hf | hf <;> rw [hf] at hx <;> simp at hx
        · exact hx
        · exact hx.symm
      rcases hor e m1 with h1 | h1 <;> rcases hor e' m2 with h2 | h2
      · rw [h1, h2]
      · rw [h1, h2] at hp; exact absurd hp hab
      · rw [h1, h2] at hp; exact absurd hp.symm hab
      · rw [h1, h2]

theorem ends_eq (c : Ctx g V n X) {e : Edge} (he : e ∈ g.edges) : g.ends e.part = e.dst := by
  unfold Graph.ends
  cases hf : g.edges.find? fun x => x.part = e.part with
  | none =>
    have := List.find?_eq_none.1 hf e he
    simp at this
  | some x =>
    have h1 := List.mem_of_find?_eq_some hf
    have h2 := List.find?_some hf
    rw [c.part_unique h1 he (of_decide_eq_true h2)]
    rfl

/-- the edge into a node. -/
theorem in_edge (c : Ctx g V n X) {i p : ℕ} (h0 : i ≠ 0) (hi : i < n) (hp : (V i).ins = [p]) : ∃ j, (⟨j, i, p⟩ : Edge) ∈ g.edges := by
  obtain ⟨⟨a, b, q⟩, he, rfl⟩ := c.hin i h0 hi
  have := ((c.hmem _).1 he).2.2.2.2
  dsimp only at this
  rw [hp] at this
  rw [List.mem_singleton.1 this] at he
  exact ⟨a, he⟩

theorem ends_node (c : Ctx g V n X) {i p : ℕ} (h0 : i ≠ 0) (hi : i < n) (hp : (V i).ins = [p]) : g.ends p = i := by
  obtain ⟨j, hj⟩ := c.in_edge h0 hi hp
  exact c.ends_eq hj

theorem dst_ne (c : Ctx g V n X) {e : Edge} (he : e ∈ g.edges) : e.dst ≠ 0 := by
  intro h0
  have := c.hrootIn
  unfold Graph.inDeg at this
  rw [List.length_eq_zero_iff, List.filter_eq_nil_iff] at this
  exact this e he (by simp [h0])

theorem dst_ins (c : Ctx g V n X) {e : Edge} (he : e ∈ g.edges) : (V e.dst).ins = [e.part] := by
  have h1 := (c.hmem e).1 he
  obtain ⟨p, hV | ⟨a, b, hV, _⟩⟩ := c.hnode _ (c.dst_ne he) h1.2.1
  all_goals
    have h2 := h1.2.2.2.2
    rw [hV] at h2 ⊢
    rw [List.mem_singleton.1 h2]

/-- an edge leads to a later node. -/
theorem pos_lt (c : Ctx g V n X) {e : Edge} (he : e ∈ g.edges) : (g.dfs 0).idxOf e.src < (g.dfs 0).idxOf e.dst := by
  obtain ⟨hn, _, _, hord⟩ := dfs_spec g 0
  have h1 := (c.hmem e).1 he
  have hd := c.dst_ne he
  obtain ⟨A, B, hAB⟩ := List.append_of_mem (c.hreach e.dst h1.2.1)
  obtain ⟨y, hy, hs⟩ := hord A e.dst B hAB hd
  unfold Graph.succ at hs
  obtain ⟨e', he', hdst⟩ := List.mem_map.1 hs
  obtain ⟨he', hsrc⟩ := List.mem_filter.1 he'
  have hsrc : e'.src = y := of_decide_eq_true hsrc
  have hp : e'.part = e.part := by
    have h2 := c.dst_ins he'
    rw [hdst, c.dst_ins he] at h2
    exact (List.head_eq_of_cons_eq h2).symm
  have : e' = e := c.part_unique he' he hp
  subst this
  rw [hAB] at hn ⊢
  have hnot : e'.dst ∉ A := fun hc => (List.disjoint_of_nodup_append hn) hc List.mem_cons_self
  rw [List.idxOf_append_of_mem (hsrc ▸ hy), List.idxOf_append_of_notMem hnot, List.idxOf_cons_self]
  have := List.idxOf_lt_length_iff.2 (hsrc ▸ hy : e'.src ∈ A)
  omega

end Ctx

/-- the tree that hangs at a node. -/
inductive NT (g : Graph) (V : ℕ → Vtx) : ℕ → Tree → Prop
  | leaf (i p : ℕ) : V i = ⟨.fs, [p], []⟩ → NT g V i (.leaf p)
  | node (i p j k : ℕ) (l r : Tree) (outs : List ℕ) : V i = ⟨.decay, [p], outs⟩ → outs = [l.top, r.top] ∨ outs = [r.top, l.top] → l.top ≠ r.top →
      g.succ i = [j, k] → (⟨i, j, l.top⟩ : Edge) ∈ g.edges → (⟨i, k, r.top⟩ : Edge) ∈ g.edges → NT g V j l → NT g V k r → NT g V i (.node (g.vertex i) p l r)

theorem NT.ins {g : Graph} {V : ℕ → Vtx} {i : ℕ} {T : Tree} (h : NT g V i T) : (V i).ins = [T.top] := by
  cases h with
  | leaf _ p h => rw [h]; rfl
  | node _ p j k l r outs h => rw [h]; rfl

namespace Ctx
variable {g : Graph} {V : ℕ → Vtx} {n X : ℕ}

theorem exists_tree (c : Ctx g V n X) : ∀ (m i : ℕ), (g.dfs 0).length - (g.dfs 0).idxOf i ≤ m → i ≠ 0 → i < n → ∃ T, NT g V i T := by
  intro m
  induction m with
  | zero =>
    intro i hm _ hi
    have := List.idxOf_lt_length_iff.2 (c.hreach i hi)
    omega
  | succ m ih =>
    intro i hm h0 hi
    obtain ⟨p, hV | ⟨a, b, hV, hab, hd⟩⟩ := c.hnode i h0 hi
    · exact ⟨_, .leaf i p hV⟩
    · obtain ⟨j, k, hj, hk, hf⟩ := c.filter_two h0 hi hV hab hd
      have go : ∀ (j : ℕ) (q : ℕ), (⟨i, j, q⟩ : Edge) ∈ g.edges → ∃ T, NT g V j T ∧ T.top = q := by
        intro j q hj
        have hp := c.pos_lt hj
        dsimp only at hp
        obtain ⟨T, hT⟩ := ih j (by omega) (c.dst_ne hj) ((c.hmem _).1 hj).2.1
        refine ⟨T, hT, ?_⟩
        have := c.dst_ins hj
        dsimp only at this
        rw [hT.ins] at this
        exact List.head_eq_of_cons_eq this
      obtain ⟨A, hA, rfl⟩ := go j _ hj
      obtain ⟨B, hB, rfl⟩ := go k _ hk
      rcases hf with hf | hf
      · exact ⟨_, .node i p j k A B _ hV (.inl rfl) hab (by unfold Graph.succ; rw [hf]; rfl) hj hk hA hB⟩
      · exact ⟨_, .node i p k j B A _ hV (.inr rfl) (Ne.symm hab) (by unfold Graph.succ; rw [hf]; rfl) hk hj hB hA⟩

/-- every particle of the tree ends in a node of its own, not before the root of the tree. -/
theorem nt_parts (c : Ctx g V n X) {i : ℕ} {T : Tree} (h : NT g V i T) : i ≠ 0 → i < n → ∀ q ∈ T.parts,
    (g.ends q ≠ 0 ∧ g.ends q < n ∧ (V (g.ends q)).ins = [q]) ∧ (g.dfs 0).idxOf i ≤ (g.dfs 0).idxOf (g.ends q) ∧
    (q ≠ T.top → ∃ q' ∈ T.parts, (⟨g.ends q', g.ends q, q⟩ : Edge) ∈ g.edges) := by
  induction h with
  | leaf i p hV =>
    intro h0 hi q hq
    rw [List.mem_singleton.1 hq]
    have hins : (V i).ins = [p] := by rw [hV]
    rw [c.ends_node h0 hi hins]
    exact ⟨⟨h0, hi, hins⟩, le_rfl, fun hc => absurd rfl hc⟩
  | node i p j k l r outs hV ho hne hs hj hk _ _ ihl ihr =>
    intro h0 hi q hq
    have hins : (V i).ins = [p] := by rw [hV]
    have hip := c.ends_node h0 hi hins
    rcases List.mem_cons.1 hq with rfl | hq
    · rw [hip]
      exact ⟨⟨h0, hi, hins⟩, le_rfl, fun hc => absurd rfl hc⟩
    have side : ∀ (S : Tree) (j : ℕ), (∀ x ∈ S.parts, x ∈ (Tree.node (g.vertex i) p l r).parts) → (⟨i, j, S.top⟩ : Edge) ∈ g.edges →
        (j ≠ 0 → j < n → ∀ q ∈ S.parts, (g.ends q ≠ 0 ∧ g.ends q < n ∧ (V (g.ends q)).ins = [q]) ∧ (g.dfs 0).idxOf j ≤ (g.dfs 0).idxOf (g.ends q) ∧
          (q ≠ S.top → ∃ q' ∈ S.parts, (⟨g.ends q', g.ends q, q⟩ : Edge) ∈ g.edges)) → q ∈ S.parts →
        (g.ends q ≠ 0 ∧ g.ends q < n ∧ (V (g.ends q)).ins = [q]) ∧ (g.dfs 0).idxOf i ≤ (g.dfs 0).idxOf (g.ends q) ∧
        (q ≠ p → ∃ q' ∈ (Tree.node (g.vertex i) p l r).parts, (⟨g.ends q', g.ends q, q⟩ : Edge) ∈ g.edges) := by
      intro S j hS hj ih hqS
      have hp := c.pos_lt hj
      dsimp only at hp
      obtain ⟨h1, h2, h3⟩ := ih (c.dst_ne hj) ((c.hmem _).1 hj).2.1 q hqS
      refine ⟨h1, by omega, fun _ => ?_⟩
      by_cases hq : q = S.top
      · refine ⟨p, by simp [Tree.parts], ?_⟩
        have he := c.ends_eq hj
        dsimp only at he
        rw [hip, hq, he]
        exact hj
      · obtain ⟨q', hq', he⟩ := h3 hq
        exact ⟨q', hS _ hq', he⟩
    rcases List.mem_append.1 hq with hq | hq
    · exact side l j (fun x hx => by simp [Tree.parts, hx]) hj ihl hq
    · exact side r k (fun x hx => by simp [Tree.parts, hx]) hk ihr hq

theorem nt_nodup (c : Ctx g V n X) {i : ℕ} {T : Tree} (h : NT g V i T) : i ≠ 0 → i < n → T.parts.Nodup := by
  induction h with
  | leaf i p hV => intro _ _; simp [Tree.parts]
  | node i p j k l r outs hV ho hne hs hj hk hl hr ihl ihr =>
    intro h0 hi
    have hj0 := c.dst_ne hj
    have hjn := ((c.hmem _).1 hj).2.1
    have hk0 := c.dst_ne hk
    have hkn := ((c.hmem _).1 hk).2.1
    have pj := c.pos_lt hj
    have pk := c.pos_lt hk
    dsimp only at hj0 hjn hk0 hkn pj pk
    have Pl := c.nt_parts hl hj0 hjn
    have Pr := c.nt_parts hr hk0 hkn
    have hip := c.ends_node h0 hi (p := p) (by rw [hV])
    have disj : ∀ (m q : ℕ), (g.dfs 0).idxOf (g.ends q) ≤ m → q ∈ l.parts → q ∈ r.parts → False := by
      intro m
      induction m with
      | zero =>
        intro q hm hq _
        have := (Pl q hq).2.1
        omega
      | succ m ih =>
        intro q hm h1 h2
        obtain ⟨_, _, hc1⟩ := Pl q h1
        obtain ⟨_, _, hc2⟩ := Pr q h2
        by_cases e1 : q = l.top
        · by_cases e2 : q = r.top
          · exact hne (e1.symm.trans e2)
          · obtain ⟨q', hq', he⟩ := hc2 e2
            have h3 := c.part_unique he hj e1
            have h4 := congrArg Edge.src h3
            dsimp only at h4
            have := (Pr q' hq').2.1
            rw [h4] at this
            omega
        · by_cases e2 : q = r.top
          · obtain ⟨q', hq', he⟩ := hc1 e1
            have h3 := c.part_unique he hk e2
            have h4 := congrArg Edge.src h3
            dsimp only at h4
            have := (Pl q' hq').2.1
            rw [h4] at this
            omega
          · obtain ⟨q', hq', he⟩ := hc1 e1
            obtain ⟨q'', hq'', he'⟩ := hc2 e2
            have h3 := congrArg Edge.src (c.part_unique he he' rfl)
            dsimp only at h3
            have e3 : q' = q'' := by
              have h5 := (Pl q' hq').1.2.2
              rw [h3, (Pr q'' hq'').1.2.2] at h5
              exact (List.head_eq_of_cons_eq h5).symm
            subst e3
            have hp := c.pos_lt he
            dsimp only at hp
            exact ih q' (by omega) hq' hq''
    refine List.nodup_cons.2 ⟨fun hc => ?_, List.nodup_append.2 ⟨ihl hj0 hjn, ihr hk0 hkn, ?_⟩⟩
    · rcases List.mem_append.1 hc with hc | hc
      · have := (Pl p hc).2.1
        rw [hip] at this
        omega
      · have := (Pr p hc).2.1
        rw [hip] at this
        omega
    · intro a ha b hb hab
      subst hab
      exact disj _ a le_rfl ha hb

theorem nt_subs (c : Ctx g V n X) {i : ℕ} {T : Tree} (h : NT g V i T) : i ≠ 0 → i < n →
    ∀ S ∈ T.subs, g.succ (g.ends S.top) = match S with | .leaf _ => [] | .node _ _ l r => [g.ends l.top, g.ends r.top] := by
  induction h with
  | leaf i p hV =>
    intro h0 hi S hS
    rw [List.mem_singleton.1 hS]
    have hip := c.ends_node h0 hi (p := p) (by rw [hV])
    show g.succ (g.ends p) = []
    rw [hip]
    unfold Graph.succ
    rw [List.map_eq_nil_iff, List.filter_eq_nil_iff]
    intro e he hc
    have h4 := ((c.hmem e).1 he).2.2.2.1
    rw [of_decide_eq_true hc, hV] at h4
    cases h4
  | node i p j k l r outs hV ho hne hs hj hk hl hr ihl ihr =>
    intro h0 hi S hS
    have hip := c.ends_node h0 hi (p := p) (by rw [hV])
    rcases List.mem_cons.1 hS with rfl | hS
    · show g.succ (g.ends p) = [g.ends l.top, g.ends r.top]
      have e1 := c.ends_eq hj
      have e2 := c.ends_eq hk
      dsimp only at e1 e2
      rw [hip, hs, e1, e2]
    · rcases List.mem_append.1 hS with hS | hS
      · exact ihl (c.dst_ne hj) ((c.hmem _).1 hj).2.1 S hS
      · exact ihr (c.dst_ne hk) ((c.hmem _).1 hk).2.1 S hS

theorem nt_decay (c : Ctx g V n X) {vtx : ℕ → Vtx} (hvtx : ∀ i, i < n → vtx (g.vertex i) = V i) {i : ℕ} {T : Tree} (h : NT g V i T) : i < n → IsDecay vtx T := by
  induction h with
  | leaf i p hV => intro _; exact .leaf p
  | node i p j k l r outs hV ho hne hs hj hk hl hr ihl ihr =>
    intro hi
    exact .node _ p l r outs ((hvtx i hi).trans hV) ho (ihl ((c.hmem _).1 hj).2.1) (ihr ((c.hmem _).1 hk).2.1)

/-- what is found in the order of the tree. -/
theorem nt_lists (c : Ctx g V n X) {i : ℕ} {T : Tree} (h : NT g V i T) : i ≠ 0 → i < n →
    ((T.parts.map g.ends).filter fun j => decide ((V j).kind = .decay)).map g.vertex = T.verts ∧
    ((T.parts.map g.ends).filter fun j => decide ((V j).kind = .fs)).map (fun j => (V j).ins.headD 0) = T.leaves := by
  induction h with
  | leaf i p hV =>
    intro h0 hi
    have hip := c.ends_node h0 hi (p := p) (by rw [hV])
    simp [Tree.parts, Tree.verts, Tree.leaves, hip, hV]
  | node i p j k l r outs hV ho hne hs hj hk hl hr ihl ihr =>
    intro h0 hi
    have hip := c.ends_node h0 hi (p := p) (by rw [hV])
    obtain ⟨a1, a2⟩ := ihl (c.dst_ne hj) ((c.hmem _).1 hj).2.1
    obtain ⟨b1, b2⟩ := ihr (c.dst_ne hk) ((c.hmem _).1 hk).2.1
    have k1 : (V i).kind = .decay := by rw [hV]
    constructor
    · simp only [Tree.parts, Tree.verts, List.map_cons, List.map_append, hip, List.filter_cons, k1, List.filter_append]
      simp [a1, b1]
    · rw [Tree.parts, List.map_cons, hip, List.filter_cons_of_neg (by rw [k1]; decide), List.map_append, List.filter_append, List.map_append, a2, b2]
      rfl

/-- **the graph is a tree**, and the depth-first search gives its depth-first order. -/
theorem tree (c : Ctx g V n X) : ∃ T, NT g V (g.ends X) T ∧ T.top = X ∧ T.parts.Nodup ∧ g.dfs 0 = 0 :: T.parts.map g.ends ∧ g.ends X ≠ 0 ∧ g.ends X < n := by
  obtain ⟨hX, hXe⟩ := c.hX
  obtain ⟨b, hb⟩ := c.out_edge c.hpos hX hXe
  have hb0 := c.dst_ne hb
  have hbn := ((c.hmem _).1 hb).2.1
  have hbe := c.ends_eq hb
  dsimp only at hb0 hbn hbe
  obtain ⟨T, hT⟩ := c.exists_tree _ b le_rfl hb0 hbn
  have htop : T.top = X := by
    have := c.dst_ins hb
    dsimp only at this
    rw [hT.ins] at this
    exact List.head_eq_of_cons_eq this
  refine ⟨T, hbe ▸ hT, htop, c.nt_nodup hT hb0 hbn, ?_, hbe ▸ hb0, hbe ▸ hbn⟩
  have hs0 : g.succ 0 = [g.ends T.top] := by
    unfold Graph.succ
    have := one_list c.hroot (List.mem_filter.2 ⟨hb, by simp⟩ : (⟨0, b, X⟩ : Edge) ∈ g.edges.filter fun e => e.src = 0)
    rw [this, htop, hbe]
    rfl
  have P := c.nt_parts hT hb0 hbn
  have hnd : ([0] ++ T.parts.map g.ends).Nodup := by
    refine List.nodup_append.2 ⟨by simp, ?_, ?_⟩
    · refine List.Nodup.map_on ?_ (c.nt_nodup hT hb0 hbn)
      intro x hx y hy hxy
      have h1 := (P x hx).1.2.2
      rw [hxy, (P y hy).1.2.2] at h1
      exact (List.head_eq_of_cons_eq h1).symm
    · intro a ha d hd had
      obtain ⟨q, hq, rfl⟩ := List.mem_map.1 hd
      rw [List.mem_singleton.1 ha] at had
      exact (P q hq).1.1 had.symm
  refine (dfs_runs g 0).det ?_
  refine .visit 0 [] [] _ (by simp) ?_
  rw [hs0]
  exact runs_tree T [] _ _ (c.nt_subs hT hb0 hbn) hnd (.done _)

end Ctx
end Rpwa.Dec
