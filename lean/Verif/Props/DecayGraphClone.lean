import Verif.Props.DecayGraphCloneStep
/-! # C71: cloning a topology -/
namespace Rpwa.Dec
variable {M : Type} [Inhabited M]

section
variable {h : Heap M} {t : Topo}

theorem kind_cases (g : Good h t) {v : ℕ} (hv : v ∈ t.nodes) : ((h.vtx v).kind = .fs ↔ ¬ (t.prod = some v ∨ v ∈ t.decays)) := by
  constructor
  · rintro hk (hc | hc)
    · rw [(g.hprod v hc).2.1] at hk; cases hk
    · obtain ⟨_, _, _, h1⟩ := g.hdec v hc
      rw [h1] at hk; cases hk
  · intro hc
    rcases g.hfsv v hv with h1 | h1 | ⟨p, _, h1⟩
    · exact absurd (.inl h1) hc
    · exact absurd (.inr h1) hc
    · rw [h1]

/-- which nodes are cloned. -/
theorem cloned_iff (g : Good h t) {v : ℕ} (hv : v ∈ t.nodes) :
    (isDecayVertex h t v = true ∨ t.isProd v = true ∨ (false = true ∧ isFsVertex h t.toGraph v = true)) ↔ (h.vtx v).kind ≠ .fs := by
  have hp : t.isProd v = true ↔ t.prod = some v := by
    unfold Topo.isProd
    rw [decide_eq_true_iff]
    exact ⟨fun h => h.2, fun h => ⟨hv, h⟩⟩
  have hf : isFsVertex h t.toGraph v = true ↔ (h.vtx v).kind = .fs := by
    unfold isFsVertex
    rw [decide_eq_true_iff]
    exact ⟨fun h => h.1, fun h => ⟨h, hv⟩⟩
  have hd : isDecayVertex h t v = true ↔ ¬ (t.prod = some v ∨ (h.vtx v).kind = .fs) := by
    unfold isDecayVertex
    rw [decide_eq_true_iff, hp, hf]
    exact ⟨fun h => h.2, fun h => ⟨hv, h⟩⟩
  rw [hd, hp, hf]
  constructor
  · rintro (h1 | h1 | ⟨h1, _⟩)
    · exact fun hc => h1 (.inr hc)
    · rw [(g.hprod v h1).2.1]; decide
    · cases h1
  · intro h1
    by_cases h2 : t.prod = some v
    · exact .inr (.inl h2)
    · exact .inl fun hc => hc.elim h2 h1

/-- the state after the first `k` nodes. -/
structure Nodes (h : Heap M) (t : Topo) (k : ℕ) (h1 : Heap M) (t1 : Topo) (ws : List ℕ) (σ : ℕ → ℕ) : Prop where
  hiso : Iso h t h1 t1 σ id
  hgood : Good h1 t1
  hverts : ∃ new, h1.verts = h.verts ++ new
  hparts : h1.parts = h.parts
  hlater : ∀ m, k ≤ m → m < t.nodes.length → t1.vertex m = t.vertex m
  hfsn : ∀ m, m < t.nodes.length → (h.vtx (t.vertex m)).kind = .fs → t1.vertex m = t.vertex m
  hnew : ∀ m, m < k → m < t.nodes.length → (h.vtx (t.vertex m)).kind ≠ .fs → h.verts.length ≤ t1.vertex m
  hws : ws.Nodup ∧ ∀ w, w ∈ ws ↔ ∃ m, m < k ∧ m < t.nodes.length ∧ (h.vtx (t.vertex m)).kind ≠ .fs ∧ t1.vertex m = w

theorem nodes_step (g : Good h t) {k : ℕ} (hk : k < t.nodes.length) {h1 : Heap M} {t1 : Topo} {ws : List ℕ} {σ : ℕ → ℕ} (s : Nodes h t k h1 t1 ws σ) :
    ∃ σ', Nodes h t (k + 1)
      (if isDecayVertex h t (t1.vertex k) = true ∨ t.isProd (t1.vertex k) = true ∨ (false = true ∧ isFsVertex h t.toGraph (t1.vertex k) = true) then
        ((cloneNode (h1, t1) k).1, (cloneNode (h1, t1) k).2.1, ws ++ [(cloneNode (h1, t1) k).2.2]) else (h1, t1, ws)).1
      (if isDecayVertex h t (t1.vertex k) = true ∨ t.isProd (t1.vertex k) = true ∨ (false = true ∧ isFsVertex h t.toGraph (t1.vertex k) = true) then
        ((cloneNode (h1, t1) k).1, (cloneNode (h1, t1) k).2.1, ws ++ [(cloneNode (h1, t1) k).2.2]) else (h1, t1, ws)).2.1
      (if isDecayVertex h t (t1.vertex k) = true ∨ t.isProd (t1.vertex k) = true ∨ (false = true ∧ isFsVertex h t.toGraph (t1.vertex k) = true) then
        ((cloneNode (h1, t1) k).1, (cloneNode (h1, t1) k).2.1, ws ++ [(cloneNode (h1, t1) k).2.2]) else (h1, t1, ws)).2.2 σ' := by
  have hvk := s.hlater k le_rfl hk
  have hvm := vertex_mem hk
  obtain ⟨new, hnew⟩ := s.hverts
  rw [hvk]
  by_cases hf : (h.vtx (t.vertex k)).kind = .fs
  · rw [if_neg (fun hc => (cloned_iff g hvm).1 hc hf)]
    refine ⟨σ, s.hiso, s.hgood, s.hverts, s.hparts, fun m hm => s.hlater m (by omega), s.hfsn, fun m hm hmn hmk => ?_, s.hws.1, fun w => ?_⟩
    · rcases Nat.lt_succ_iff_lt_or_eq.1 hm with hm | hm
      · exact s.hnew m hm hmn hmk
      · rw [hm] at hmk; exact absurd hf hmk
    · rw [s.hws.2]
      constructor
      · rintro ⟨m, a, b⟩; exact ⟨m, by omega, b⟩
      · rintro ⟨m, a, b, c, d⟩
        rcases Nat.lt_succ_iff_lt_or_eq.1 a with a | a
        · exact ⟨m, a, b, c, d⟩
        · rw [a] at c; exact absurd hf c
  · rw [if_pos ((cloned_iff g hvm).2 hf)]
    have hkl : k < t1.nodes.length := by rw [s.hiso.len]; exact hk
    have hσv : σ (t.vertex k) = t1.vertex k := (s.hiso.vertex hk).symm
    have hcl : t1.prod = some (t1.vertex k) ∨ t1.vertex k ∈ t1.decays := by
      have h2 : t.prod = some (t.vertex k) ∨ t.vertex k ∈ t.decays := by
        by_contra hc
        exact hf ((kind_cases g hvm).2 hc)
      rcases h2 with h2 | h2
      · left
        rw [s.hiso.hprod, h2, ← hσv]
        rfl
      · right
        rw [s.hiso.hdecays, ← hσv]
        exact List.mem_map_of_mem h2
    obtain ⟨c1, c2, c3, c4, c5, c6⟩ := cloneNode_step s.hgood hkl hcl
    dsimp only
    obtain ⟨h2, hh2⟩ : ∃ h2, h2 = (cloneNode (h1, t1) k).1 := ⟨_, rfl⟩
    obtain ⟨t2, ht2⟩ : ∃ t2, t2 = (cloneNode (h1, t1) k).2.1 := ⟨_, rfl⟩
    rw [← hh2] at c1 c2 c4 c5 ⊢
    rw [← ht2] at c1 c2 c6 ⊢
    rw [c3]
    have hlen : h.verts.length ≤ h1.verts.length := by rw [hnew]; simp
    have hvert : ∀ m, m < t.nodes.length → t2.vertex m = if m = k then h1.verts.length else t1.vertex m := by
      intro m hm
      unfold Graph.vertex
      rw [c6]
      by_cases hmk : m = k
      · subst hmk
        rw [if_pos rfl]
        simp [List.getD, hkl]
      · rw [if_neg hmk]
        have hkm : ¬ k = m := fun hc => hmk hc.symm
        simp [List.getD, List.getElem?_set, hkm]
    refine ⟨_, s.hiso.trans c2, c1, ?_, by rw [c5, s.hparts], fun m hm hmn => ?_, fun m hmn hmk => ?_, fun m hm hmn hmk => ?_, ?_, fun w => ?_⟩
    · rw [c4, hnew, List.append_assoc]
      exact ⟨_, rfl⟩
    · rw [hvert m hmn, if_neg (by omega)]
      exact s.hlater m (by omega) hmn
    · rw [hvert m hmn, if_neg (fun hc : m = k => hf (hc ▸ hmk))]
      exact s.hfsn m hmn hmk
    · rw [hvert m hmn]
      by_cases hmk' : m = k
      · rw [if_pos hmk']; exact hlen
      · rw [if_neg hmk']
        exact s.hnew m (by omega) hmn hmk
    · refine List.nodup_append.2 ⟨s.hws.1, by simp, fun a ha b hb hab => ?_⟩
      rw [List.mem_singleton] at hb
      obtain ⟨m, a1, a2, a3, a4⟩ := (s.hws.2 a).1 ha
      have := s.hgood.hlt _ (vertex_mem (g := t1.toGraph) (i := m) (by rw [s.hiso.len]; exact a2))
      rw [a4, hab, hb] at this
      omega
    · rw [List.mem_append, List.mem_singleton, s.hws.2]
      constructor
      · rintro (⟨m, a, b, c, d⟩ | rfl)
        · exact ⟨m, by omega, b, c, by rw [hvert m b, if_neg (by omega)]; exact d⟩
        · exact ⟨k, by omega, hk, hf, by rw [hvert k hk, if_pos rfl]⟩
      · rintro ⟨m, a, b, c, d⟩
        rw [hvert m b] at d
        by_cases hmk : m = k
        · rw [if_pos hmk] at d
          exact .inr d.symm
        · rw [if_neg hmk] at d
          exact .inl ⟨m, by omega, b, c, d⟩

theorem cloneNodes_spec (g : Good h t) : ∃ σ, Nodes h t t.nodes.length (cloneNodes h t false).1 (cloneNodes h t false).2.1 (cloneNodes h t false).2.2 σ := by
  unfold cloneNodes
  have key : ∀ k, k ≤ t.nodes.length → ∃ σ, Nodes h t k
      ((List.range k).foldl (fun r n =>
        let v := r.2.1.vertex n
        if isDecayVertex h t v ∨ t.isProd v ∨ (false = true ∧ isFsVertex h t.toGraph v) then
          let c := cloneNode (r.1, r.2.1) n
          (c.1, c.2.1, r.2.2 ++ [c.2.2])
        else r) (h, t, ([] : List ℕ))).1
      ((List.range k).foldl (fun r n =>
        let v := r.2.1.vertex n
        if isDecayVertex h t v ∨ t.isProd v ∨ (false = true ∧ isFsVertex h t.toGraph v) then
          let c := cloneNode (r.1, r.2.1) n
          (c.1, c.2.1, r.2.2 ++ [c.2.2])
        else r) (h, t, ([] : List ℕ))).2.1
      ((List.range k).foldl (fun r n =>
        let v := r.2.1.vertex n
        if isDecayVertex h t v ∨ t.isProd v ∨ (false = true ∧ isFsVertex h t.toGraph v) then
          let c := cloneNode (r.1, r.2.1) n
          (c.1, c.2.1, r.2.2 ++ [c.2.2])
        else r) (h, t, ([] : List ℕ))).2.2 σ := by
    intro k
    induction k with
    | zero =>
      intro _
      refine ⟨id, Iso.refl h t, g, ⟨[], by simp⟩, rfl, fun _ _ _ => rfl, fun _ _ _ => rfl, fun m hm => absurd hm (Nat.not_lt_zero _), List.nodup_nil, fun w => ?_⟩
      constructor
      · intro hc; cases hc
      · rintro ⟨m, hm, _⟩; exact absurd hm (Nat.not_lt_zero _)
    | succ k ih =>
      intro hk
      obtain ⟨σ, s⟩ := ih (by omega)
      rw [List.range_succ, List.foldl_append]
      exact nodes_step g (by omega) s
  exact key _ le_rfl

/-! ### the particles -/

/-- the state in the middle of the second part: `D` are the particles that were replaced, vertices before `N` are not touched. -/
structure Parts (N : ℕ) (h1 : Heap M) (t1 : Topo) (h2 : Heap M) (t2 : Topo) (τ : ℕ → ℕ) (D : List ℕ) : Prop where
  hiso : Iso h1 t1 h2 t2 id τ
  hgood : Good h2 t2
  hnodes : t2.nodes = t1.nodes
  hold : ∀ v, v < N → h2.vtx v = h1.vtx v
  hlen : h2.verts.length = h1.verts.length
  hparts : ∃ new, h2.parts = h1.parts ++ new
  hsame : ∀ p, p ∉ D → τ p = p
  hnew : ∀ p ∈ D, h1.parts.length ≤ τ p

theorem edge_of_decay (g : Good h t) {w p : ℕ} (hw : w ∈ t.nodes) (hp : p ∈ (h.vtx w).ins) (hone : w ∈ t.decays) (he : t.isEdge p = true) :
    ∃ k e, t.edge p = .ok k ∧ t.edges[k]? = some e ∧ e.part = p ∧ t.vertex e.dst = w := by
  unfold Graph.isEdge at he
  obtain ⟨⟨a, b⟩, hab⟩ := Option.isSome_iff_exists.1 he
  have hm := (g.hpm p a b).1 hab
  have h5 := (g.hedges _).1 hm
  dsimp only at h5
  have hbw : t.vertex b = w := g.hshareIn _ (vertex_mem h5.2.1) w hw p h5.2.2.2.2 hp
  unfold Graph.edge
  rw [hab]
  dsimp only
  cases hfi : t.edges.findIdx? (fun e => e.src = a ∧ e.dst = b) with
  | none =>
    rw [List.findIdx?_eq_none_iff] at hfi
    have := hfi _ hm
    simp at this
  | some x =>
    obtain ⟨hxl, hx, _⟩ := List.findIdx?_eq_some_iff_getElem.1 hfi
    have hx := of_decide_eq_true hx
    have hxm : t.edges[x] ∈ t.edges := List.getElem_mem hxl
    have h6 := (g.hedges _).1 hxm
    obtain ⟨_, q, o, hV⟩ := g.hdec w hone
    refine ⟨x, t.edges[x], rfl, List.getElem?_eq_getElem hxl, ?_, by rw [hx.2, hbw]⟩
    have h7 := h6.2.2.2.2
    rw [hx.2, hbw, hV] at h7
    rw [hV] at hp
    rw [List.mem_singleton.1 h7, List.mem_singleton.1 hp]

theorem cloneIn_step {N : ℕ} {h1 h2 : Heap M} {t1 t2 : Topo} {τ : ℕ → ℕ} {D : List ℕ} (g1 : Good h1 t1) (s : Parts N h1 t1 h2 t2 τ D)
    (hfresh : ∀ v ∈ t1.nodes, (h1.vtx v).kind ≠ .fs → N ≤ v) {w j p : ℕ} (hw : w ∈ t1.nodes) (hk : t1.prod = some w ∨ w ∈ t1.decays)
    (hj : (h1.vtx w).ins[j]? = some p) (hpD : p ∉ D) :
    ∃ h3 t3 τ', cloneIn false w (h2, t2) j = .ok (h3, t3) ∧ Parts N h1 t1 h3 t3 τ' (D ++ [p]) := by
  have hpi := List.mem_of_getElem? hj
  have hpl := g1.hplt w hw p (.inl hpi)
  have hτp := s.hsame p hpD
  have hw2 : w ∈ t2.nodes := by rw [s.hnodes]; exact hw
  have hvw := s.hiso.hvtx w hw
  have hj2 : (h2.vtx w).ins[j]? = some p := by
    have : h2.vtx w = _ := hvw
    rw [this]
    show ((h1.vtx w).ins.map τ)[j]? = _
    rw [List.getElem?_map, hj]
    show some (τ p) = _
    rw [hτp]
  have hget : (h2.vtx w).ins.getD j 0 = p := by simp [List.getD, hj2]
  have hp2i := List.mem_of_getElem? hj2
  have hpn : ∀ u, t2.prod = some u ↔ t1.prod = some u := by
    intro u
    rw [s.hiso.hprod, Option.map_id]
    rfl
  have hdn : t2.decays = t1.decays := by rw [s.hiso.hdecays, List.map_id]
  have hk2 : t2.prod = some w ∨ w ∈ t2.decays := by
    rw [hpn, hdn]
    exact hk
  have hfs2 : p ∉ t2.fsParts := by
    intro hc
    obtain ⟨_, a, b⟩ := s.hgood.hfs p hc
    rcases hk2 with hk2 | hk2
    · exact b w hk2 hp2i
    · exact a w hk2 hp2i
  have hnf : t2.isFsParticle p = false := by
    unfold Topo.isFsParticle
    rw [decide_eq_false hfs2, Bool.and_false]
  obtain ⟨new, hpn2⟩ := s.hparts
  have hlen2 : h1.parts.length ≤ h2.parts.length := by rw [hpn2]; simp
  have hkind2 : ∀ v ∈ t2.nodes, (h2.vtx v).kind ≠ .fs → N ≤ v := by
    intro v hv hvk
    rw [s.hnodes] at hv
    have := s.hiso.hvtx v hv
    rw [show h2.vtx v = _ from this] at hvk
    exact hfresh v hv hvk
  have hwN : N ≤ w := by
    refine hkind2 w hw2 ?_
    rcases hk2 with hk2 | hk2
    · rw [(s.hgood.hprod w hk2).2.1]; decide
    · obtain ⟨_, _, _, hV⟩ := s.hgood.hdec w hk2
      rw [hV]; simp
  -- what has to be shown of the new objects
  have fin : ∀ (h3 : Heap M) (t3 : Topo), Good h3 t3 → Iso h2 t2 h3 t3 id (Function.update id p h2.parts.length) → h3.parts = h2.parts ++ [h2.part p] →
      h3.verts.length = h2.verts.length → (∀ v, v < N → h3.vtx v = h2.vtx v) → t3.nodes = t2.nodes →
      Parts N h1 t1 h3 t3 (Function.update id p h2.parts.length ∘ τ) (D ++ [p]) := by
    intro h3 t3 g3 i3 e1 e2 e3 e4
    refine ⟨s.hiso.trans i3, g3, e4.trans s.hnodes, fun v hv => (e3 v hv).trans (s.hold v hv), e2.trans s.hlen, ?_, fun x hx => ?_, fun x hx => ?_⟩
    · rw [e1, hpn2, List.append_assoc]
      exact ⟨_, rfl⟩
    · rw [List.mem_append, List.mem_singleton] at hx
      push Not at hx
      show Function.update id p h2.parts.length (τ x) = x
      rw [s.hsame x hx.1, Function.update_of_ne hx.2]
      rfl
    · show _ ≤ Function.update id p h2.parts.length (τ x)
      rcases List.mem_append.1 hx with hx | hx
      · have := s.hnew x hx
        rw [Function.update_of_ne (by omega)]
        exact this
      · rw [List.mem_singleton.1 hx, hτp, Function.update_self]
        exact hlen2
  unfold cloneIn
  dsimp only
  rw [hget, if_neg (by rw [hnf]; simp)]
  by_cases he : t2.isEdge p = true
  · rw [if_pos he]
    have hdw : w ∈ t2.decays := by
      rcases hk2 with hk2 | hk2
      · exfalso
        unfold Graph.isEdge at he
        obtain ⟨⟨a, b⟩, hab⟩ := Option.isSome_iff_exists.1 he
        have hm := (s.hgood.hpm p a b).1 hab
        have h5 := (s.hgood.hedges _).1 hm
        dsimp only at h5
        have hbw := s.hgood.hshareIn _ (vertex_mem h5.2.1) w hw2 p h5.2.2.2.2 hp2i
        exact s.hgood.hpin _ hm (by rw [hk2, hbw])
      · exact hk2
    obtain ⟨k, e, hek, hget', hep, hdst⟩ := edge_of_decay s.hgood hw2 hp2i hdw he
    rw [hek]
    obtain ⟨h3, t3, c1, c2, c3, c4, c5, c6, c7⟩ := cloneEdge_step s.hgood hget' (by rw [hep]; exact hfs2)
    refine ⟨h3, t3, Function.update id p h2.parts.length ∘ τ, c1, ?_⟩
    rw [hep] at c3 c4
    refine fin h3 t3 c2 c3 c4 c5 (fun v hv => ?_) c7
    have h5 := (s.hgood.hedges e).1 (List.mem_of_getElem? hget')
    refine c6 v ?_ ?_
    · intro hc
      have : N ≤ t2.vertex e.src := by
        refine hkind2 _ (vertex_mem h5.1) ?_
        intro hkf
        have h8 := (kind_cases s.hgood (vertex_mem h5.1)).1 hkf
        rcases s.hgood.hfsv _ (vertex_mem h5.1) with h9 | h9 | ⟨q, _, h9⟩
        · exact h8 (.inl h9)
        · exact h8 (.inr h9)
        · have h10 := h5.2.2.2.1
          rw [h9] at h10
          cases h10
      omega
    · rw [hdst]
      omega
  · rw [if_neg he]
    have he : t2.isEdge p = false := by simpa using he
    obtain ⟨c1, c2⟩ := dangling_step s.hgood hw2 hj2 he hfs2
    refine ⟨_, _, _, rfl, fin _ _ c1 c2 rfl (by simp) (fun v hv => ?_) rfl⟩
    rw [vtx_modify _ _ _ _ _ (s.hgood.hlt w hw2), if_neg (by omega)]
    rfl

theorem cloneIns_step {N : ℕ} {h1 h2 : Heap M} {t1 t2 : Topo} {τ : ℕ → ℕ} {D : List ℕ} (g1 : Good h1 t1) (s : Parts N h1 t1 h2 t2 τ D)
    (hfresh : ∀ v ∈ t1.nodes, (h1.vtx v).kind ≠ .fs → N ≤ v) {w : ℕ} (cp : Bool) (hw : w ∈ t1.nodes) (hk : t1.prod = some w ∨ w ∈ t1.decays)
    (hD : ∀ p ∈ (h1.vtx w).ins, p ∉ D) :
    ∃ h3 t3 τ', cloneIns false cp (h2, t2) w = .ok (h3, t3) ∧
      Parts N h1 t1 h3 t3 τ' (D ++ if t1.prod ≠ some w ∨ cp = true then (h1.vtx w).ins else []) := by
  unfold cloneIns
  dsimp only
  have hw2 : w ∈ t2.nodes := by rw [s.hnodes]; exact hw
  have hisp : t2.isProd w = false ↔ t1.prod ≠ some w := by
    unfold Topo.isProd
    rw [decide_eq_false_iff_not, s.hiso.hprod, Option.map_id]
    exact ⟨fun hc h => hc ⟨hw2, h⟩, fun hc h => hc h.2⟩
  by_cases hc : t1.prod ≠ some w ∨ cp = true
  · rw [if_pos (by rw [hisp]; exact hc), if_pos hc]
    have hlen : (h2.vtx w).ins.length = (h1.vtx w).ins.length := by
      have := s.hiso.hvtx w hw
      rw [show h2.vtx w = _ from this]
      simp
    rw [hlen]
    have key : ∀ m, m ≤ (h1.vtx w).ins.length → ∃ h3 t3 τ', (List.range m).foldlM (cloneIn false w) (h2, t2) = .ok (h3, t3) ∧
        Parts N h1 t1 h3 t3 τ' (D ++ (h1.vtx w).ins.take m) := by
      intro m
      induction m with
      | zero =>
        intro _
        refine ⟨h2, t2, τ, rfl, ?_⟩
        rw [List.take_zero, List.append_nil]
        exact s
      | succ m ih =>
        intro hm
        obtain ⟨h3, t3, τ', c1, c2⟩ := ih (by omega)
        have hml : m < (h1.vtx w).ins.length := by omega
        have hnd := g1.hins w hw
        have hp : (h1.vtx w).ins[m]? = some (h1.vtx w).ins[m] := List.getElem?_eq_getElem hml
        obtain ⟨h4, t4, τ'', d1, d2⟩ := cloneIn_step g1 c2 hfresh hw hk hp (by
          intro hc
          rcases List.mem_append.1 hc with hc | hc
          · exact hD _ (List.getElem_mem hml) hc
          · obtain ⟨i, hi, he⟩ := List.mem_take_iff_getElem.1 hc
            have := (hnd.getElem_inj_iff).1 he
            omega)
        refine ⟨h4, t4, τ'', ?_, ?_⟩
        · rw [List.range_succ, List.foldlM_append, c1]
          show ((List.foldlM (cloneIn false w) (h3, t3) [m])) = _
          rw [List.foldlM_cons, d1]
          rfl
        · rw [List.append_assoc, ← List.take_succ_eq_append_getElem hml] at d2
          exact d2
    obtain ⟨h3, t3, τ', c1, c2⟩ := key _ le_rfl
    rw [List.take_length] at c2
    exact ⟨h3, t3, τ', c1, c2⟩
  · rw [if_neg (by rw [hisp]; exact hc), if_neg hc, List.append_nil]
    exact ⟨h2, t2, τ, rfl, s⟩

theorem cloneParts_spec {N : ℕ} {h1 : Heap M} {t1 : Topo} (g1 : Good h1 t1) (hfresh : ∀ v ∈ t1.nodes, (h1.vtx v).kind ≠ .fs → N ≤ v) (cp : Bool) :
    ∀ (ws : List ℕ) (D : List ℕ) (h2 : Heap M) (t2 : Topo) (τ : ℕ → ℕ), ws.Nodup → (∀ w ∈ ws, w ∈ t1.nodes ∧ (t1.prod = some w ∨ w ∈ t1.decays)) →
      (∀ w ∈ ws, ∀ p ∈ (h1.vtx w).ins, p ∉ D) → Parts N h1 t1 h2 t2 τ D →
      ∃ h3 t3 τ', ws.foldlM (cloneIns false cp) (h2, t2) = .ok (h3, t3) ∧
        Parts N h1 t1 h3 t3 τ' (D ++ ws.flatMap fun w => if t1.prod ≠ some w ∨ cp = true then (h1.vtx w).ins else []) := by
  intro ws
  induction ws with
  | nil =>
    intro D h2 t2 τ _ _ _ s
    refine ⟨h2, t2, τ, rfl, ?_⟩
    rw [List.flatMap_nil, List.append_nil]
    exact s
  | cons w ws ih =>
    intro D h2 t2 τ hn hw hD s
    obtain ⟨hw1, hw2⟩ := hw w List.mem_cons_self
    obtain ⟨h3, t3, τ', c1, c2⟩ := cloneIns_step g1 s hfresh cp hw1 hw2 (hD w List.mem_cons_self)
    have hn' := List.nodup_cons.1 hn
    obtain ⟨h4, t4, τ'', d1, d2⟩ := ih _ h3 t3 τ' hn'.2 (fun u hu => hw u (List.mem_cons_of_mem _ hu)) (by
      intro u hu p hp hc
      rcases List.mem_append.1 hc with hc | hc
      · exact hD u (List.mem_cons_of_mem _ hu) p hp hc
      · by_cases hif : t1.prod ≠ some w ∨ cp = true
        · rw [if_pos hif] at hc
          have := g1.hshareIn u (hw u (List.mem_cons_of_mem _ hu)).1 w hw1 p hp hc
          exact hn'.1 (this ▸ hu)
        · rw [if_neg hif] at hc
          cases hc) c2
    refine ⟨h4, t4, τ'', ?_, ?_⟩
    · rw [List.foldlM_cons, c1]
      exact d1
    · rw [List.flatMap_cons, ← List.append_assoc]
      exact d2

/-- **a clone** (without final-state particles): the copy has the structure of the original; its production vertex, its decay vertices and the particles going into the
decay vertices (and, if wanted, into the production vertex) are new objects with the values of the old ones; all other objects are shared; and no object that existed
before is changed. -/
theorem clone_spec (g : Good h t) (cp : Bool) : ∃ h2 t2 σ τ, clone h t false cp = .ok (h2, t2) ∧ Iso h t h2 t2 σ τ ∧ Good h2 t2 ∧
    (∀ v, v < h.verts.length → h2.vtx v = h.vtx v) ∧ (∀ p, p < h.parts.length → h2.part p = h.part p) ∧
    (∀ v ∈ t.nodes, if (h.vtx v).kind = .fs then σ v = v else h.verts.length ≤ σ v) ∧
    ∀ p, if (∃ v ∈ t.decays, p ∈ (h.vtx v).ins) ∨ (cp = true ∧ ∃ v, t.prod = some v ∧ p ∈ (h.vtx v).ins) then h.parts.length ≤ τ p else τ p = p := by
  obtain ⟨σ, s⟩ := cloneNodes_spec g
  unfold clone
  dsimp only
  obtain ⟨h1, hh1⟩ : ∃ h1, h1 = (cloneNodes h t false).1 := ⟨_, rfl⟩
  obtain ⟨t1, ht1⟩ : ∃ t1, t1 = (cloneNodes h t false).2.1 := ⟨_, rfl⟩
  obtain ⟨ws, hws⟩ : ∃ ws, ws = (cloneNodes h t false).2.2 := ⟨_, rfl⟩
  rw [← hh1, ← ht1, ← hws] at s ⊢
  have hkind : ∀ v ∈ t.nodes, (h1.vtx (σ v)).kind = (h.vtx v).kind ∧ (h1.vtx (σ v)).ins = (h.vtx v).ins := by
    intro v hv
    rw [s.hiso.hvtx v hv]
    exact ⟨rfl, by simp⟩
  have hnode : ∀ v ∈ t1.nodes, ∃ u ∈ t.nodes, σ u = v := by
    intro v hv
    rw [s.hiso.hnodes] at hv
    obtain ⟨u, hu, h2⟩ := List.mem_map.1 hv
    exact ⟨u, hu, h2⟩
  have hσv : ∀ v ∈ t.nodes, if (h.vtx v).kind = .fs then σ v = v else h.verts.length ≤ σ v := by
    intro v hv
    obtain ⟨m, hm, rfl⟩ := mem_vertex hv
    rw [← s.hiso.vertex hm]
    by_cases hk : (h.vtx (t.vertex m)).kind = .fs
    · rw [if_pos hk]; exact s.hfsn m hm hk
    · rw [if_neg hk]; exact s.hnew m hm hm hk
  have hfresh : ∀ v ∈ t1.nodes, (h1.vtx v).kind ≠ .fs → h.verts.length ≤ v := by
    intro v hv hk
    obtain ⟨u, hu, rfl⟩ := hnode v hv
    rw [(hkind u hu).1] at hk
    have := hσv u hu
    rwa [if_neg hk] at this
  have hwsmem : ∀ w, w ∈ ws ↔ ∃ u ∈ t.nodes, (h.vtx u).kind ≠ .fs ∧ σ u = w := by
    intro w
    rw [s.hws.2]
    constructor
    · rintro ⟨m, _, a, b, c⟩
      exact ⟨t.vertex m, vertex_mem a, b, by rw [← s.hiso.vertex a]; exact c⟩
    · rintro ⟨u, hu, b, c⟩
      obtain ⟨m, hm, rfl⟩ := mem_vertex hu
      exact ⟨m, hm, hm, b, by rw [s.hiso.vertex hm]; exact c⟩
  have hpd : ∀ u ∈ t.nodes, (t1.prod = some (σ u) ↔ t.prod = some u) ∧ (σ u ∈ t1.decays ↔ u ∈ t.decays) := by
    intro u hu
    constructor
    · rw [s.hiso.hprod]
      constructor
      · intro hc
        cases hpr : t.prod with
        | none => rw [hpr] at hc; cases hc
        | some x =>
          rw [hpr] at hc
          rw [s.hiso.hσ x (g.hprod x hpr).1 u hu (Option.some.inj hc)]
      · intro hc; rw [hc]; rfl
    · rw [s.hiso.hdecays]
      constructor
      · intro hc
        obtain ⟨x, hx, hxu⟩ := List.mem_map.1 hc
        rw [← s.hiso.hσ x (g.hdec x hx).1 u hu hxu]
        exact hx
      · exact fun hc => List.mem_map_of_mem hc
  have hw : ∀ w ∈ ws, w ∈ t1.nodes ∧ (t1.prod = some w ∨ w ∈ t1.decays) := by
    intro w hw
    obtain ⟨u, hu, hk, rfl⟩ := (hwsmem w).1 hw
    refine ⟨by rw [s.hiso.hnodes]; exact List.mem_map_of_mem hu, ?_⟩
    rw [(hpd u hu).1, (hpd u hu).2]
    by_contra hc
    exact hk ((kind_cases g hu).2 hc)
  obtain ⟨h2, t2, τ, c1, c2⟩ := cloneParts_spec (N := h.verts.length) s.hgood hfresh cp ws [] h1 t1 id s.hws.1 hw (fun _ _ _ _ hc => (by cases hc))
    ⟨Iso.refl h1 t1, s.hgood, rfl, fun _ _ => rfl, rfl, ⟨[], by simp⟩, fun _ _ => rfl, fun _ hc => (by cases hc)⟩
  obtain ⟨nv, hnv⟩ := s.hverts
  obtain ⟨np, hnp⟩ := c2.hparts
  have hτ : ∀ p, if (∃ v ∈ t.decays, p ∈ (h.vtx v).ins) ∨ (cp = true ∧ ∃ v, t.prod = some v ∧ p ∈ (h.vtx v).ins) then h.parts.length ≤ τ p else τ p = p := by
    intro p
    have hDp : p ∈ ([] : List ℕ) ++ ws.flatMap (fun w => if t1.prod ≠ some w ∨ cp = true then (h1.vtx w).ins else []) ↔
        (∃ v ∈ t.decays, p ∈ (h.vtx v).ins) ∨ (cp = true ∧ ∃ v, t.prod = some v ∧ p ∈ (h.vtx v).ins) := by
      rw [List.nil_append, List.mem_flatMap]
      constructor
      · rintro ⟨w, hwm, hp⟩
        obtain ⟨u, hu, hk, rfl⟩ := (hwsmem w).1 hwm
        by_cases hif : t1.prod ≠ some (σ u) ∨ cp = true
        · rw [if_pos hif, (hkind u hu).2] at hp
          rcases g.hfsv u hu with h3 | h3 | ⟨_, _, h3⟩
          · rcases hif with hif | hif
            · exact absurd ((hpd u hu).1.2 h3) hif
            · exact .inr ⟨hif, u, h3, hp⟩
          · exact .inl ⟨u, h3, hp⟩
          · rw [h3] at hk; exact absurd rfl hk
        · rw [if_neg hif] at hp
          cases hp
      · rintro (⟨u, hu, hp⟩ | ⟨hcp, u, hu, hp⟩)
        · have hun := (g.hdec u hu).1
          obtain ⟨_, _, _, hV⟩ := g.hdec u hu
          refine ⟨σ u, (hwsmem _).2 ⟨u, hun, by rw [hV]; simp, rfl⟩, ?_⟩
          rw [if_pos (.inl (by
            rw [Ne, (hpd u hun).1]
            intro hc
            have := (g.hprod u hc).2.1
            rw [hV] at this
            cases this)), (hkind u hun).2]
          exact hp
        · have hun := (g.hprod u hu).1
          refine ⟨σ u, (hwsmem _).2 ⟨u, hun, by rw [(g.hprod u hu).2.1]; simp, rfl⟩, ?_⟩
          rw [if_pos (.inr hcp), (hkind u hun).2]
          exact hp
    by_cases hc : (∃ v ∈ t.decays, p ∈ (h.vtx v).ins) ∨ (cp = true ∧ ∃ v, t.prod = some v ∧ p ∈ (h.vtx v).ins)
    · rw [if_pos hc]
      have := c2.hnew p (hDp.2 hc)
      rwa [s.hparts] at this
    · rw [if_neg hc]
      exact c2.hsame p (fun h3 => hc (hDp.1 h3))
  refine ⟨h2, t2, σ, τ, c1, ?_, c2.hgood, fun v hv => ?_, fun p hp => ?_, hσv, hτ⟩
  · exact s.hiso.trans c2.hiso
  · rw [c2.hold v hv]
    unfold Heap.vtx
    rw [hnv]
    simp [List.getD, List.getElem?_append_left hv]
  · unfold Heap.part
    rw [hnp, s.hparts]
    simp [List.getD, List.getElem?_append_left hp]

end
end Rpwa.Dec
