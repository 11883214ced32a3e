import Verif.Props.WaveGraphGrow
/-! # The production vertices of the waves (C74) -/
namespace Rpwa.Dec
variable {M : Type} [Inhabited M]

section
variable {h k : Heap M} {t : Topo} {w : ℕ} {u : ℕ → ℕ} {S : Tree}

omit [Inhabited M] in
theorem Rooted.congr (c : Rooted h t w u S) (hv : ∀ v ∈ t.nodes, k.vtx v = h.vtx v) : Rooted k t w u S := by
  have hn : ∀ q ∈ S.parts, u q ∈ t.nodes := fun q hq => c.hnodes.symm.subset (List.mem_cons_of_mem _ (List.mem_map_of_mem hq))
  have hw : k.vtx w = h.vtx w := hv w (c.hnodes.symm.subset List.mem_cons_self)
  refine ⟨c.hv, ⟨fun e => ?_, c.hg.hpmap, c.hg.hpart⟩, c.hend, c.hnd, ⟨fun p hp => ?_, fun v p l r hN => ?_⟩, c.hprod, c.hnodes, c.hw, by rw [hw]; exact c.hX, by rw [hw]; exact c.hrest,
    by rw [hw]; exact c.hself, c.hdecays, c.hfs⟩
  · rw [c.hg.hedges]
    constructor
    · rintro ⟨h1, h2, h3, h4, h5⟩
      rw [hv _ (vertex_mem h1), hv _ (vertex_mem h2)]
      exact ⟨h1, h2, h3, h4, h5⟩
    · rintro ⟨h1, h2, h3, h4, h5⟩
      rw [hv _ (vertex_mem h1)] at h4
      rw [hv _ (vertex_mem h2)] at h5
      exact ⟨h1, h2, h3, h4, h5⟩
  · rw [hv _ (hn p (sub_top_mem S _ hp))]
    exact c.hends.hleaf p hp
  · obtain ⟨h1, outs, h2, h3⟩ := c.hends.hnode v p l r hN
    have := hv _ (hn p (sub_top_mem S _ hN))
    rw [h1] at this
    exact ⟨h1, outs, by rw [this, h2], h3⟩

omit [Inhabited M] in
theorem Rooted.decay (c : Rooted h t w u S) : IsDecay h.vtx S := by
  have : ∀ R ∈ S.subs, IsDecay h.vtx R := by
    intro R
    induction R with
    | leaf q => intro _; exact .leaf q
    | node v' p' l' r' ihl ihr =>
      intro hR
      obtain ⟨_, outs, h2, h3⟩ := c.hends.hnode v' p' l' r' hR
      exact .node _ _ _ _ outs h2 h3 (ihl (node_subs hR).1) (ihr (node_subs hR).2)
  exact this S (self_sub S)
end

/-- a wave with its production vertex `v`, in the heap `h`. -/
structure Wave (C : ℕ → ℕ → Part M → Prop) (H h : Heap M) (prod : ℕ) (T : Tree) (w : Topo) (v : ℕ) (S : Tree) : Prop where
  rooted : ∃ u, Rooted h w v u S
  hlt : ∀ x ∈ w.nodes, x < h.verts.length
  filled : Filled C h T S
  hplt : ∀ p ∈ S.parts, p < h.parts.length
  own : Own H S
  hdecays : w.decays = S.verts
  hfs : w.fsParts = S.leaves
  hnew : H.verts.length ≤ v
  hprod : h.vtx v = { H.vtx prod with outs := S.top :: (H.vtx prod).outs.tail }

section
variable {C : ℕ → ℕ → Part M → Prop} {H h k : Heap M} {prod v : ℕ} {T S : Tree} {w : Topo}

theorem Wave.mono (c : Wave C H h prod T w v S) (e : Ext h k) : Wave C H k prod T w v S := by
  obtain ⟨u, r⟩ := c.rooted
  have hv : v < h.verts.length := c.hlt v (r.hnodes.symm.subset List.mem_cons_self)
  exact ⟨⟨u, r.congr fun x hx => e.hvtx x (c.hlt x hx)⟩, fun x hx => Nat.lt_of_lt_of_le (c.hlt x hx) e.hv, c.filled.congr fun p hp => e.hpart p (c.hplt p hp), fun p hp => Nat.lt_of_lt_of_le (c.hplt p hp) e.hp, c.own, c.hdecays, c.hfs, c.hnew, by rw [e.hvtx v hv]; exact c.hprod⟩

theorem Wave.lt (c : Wave C H h prod T w v S) : v < h.verts.length := by
  obtain ⟨u, r⟩ := c.rooted
  exact c.hlt v (r.hnodes.symm.subset List.mem_cons_self)

theorem withProduction_spec (e : Ext H h) (hpl : prod < H.verts.length) (hout : (H.vtx prod).outs ≠ []) (hnd : (H.vtx prod).outs.Nodup) (hni : (H.vtx prod).ins.Nodup)
    (hbeam : ∀ p ∈ (H.vtx prod).ins, p ∉ (H.vtx prod).outs) (hr : ∀ p ∈ (H.vtx prod).ins ++ (H.vtx prod).outs.tail, p < H.parts.length ∧ p ∉ T.leaves)
    (c : Whole h w S) (hf : Filled C h T S) (ho : Own H S) (hN : T.verts ≠ []) (W : List Topo) :
    ∃ h2 w2, withProduction prod (h, W) w = .ok (h2, W ++ [w2]) ∧ Ext h h2 ∧ Wave C H h2 prod T w2 h.verts.length S ∧ w2.decays = w.decays ∧ w2.prod = some h.verts.length := by
  have hl := hf.like
  obtain ⟨a, tl, hat⟩ : ∃ a tl, (H.vtx prod).outs = a :: tl := by
    cases ho : (H.vtx prod).outs with
    | nil => exact absurd ho hout
    | cons a tl => exact ⟨a, tl, rfl⟩
  have hprodv : h.vtx prod = H.vtx prod := e.hvtx prod hpl
  -- the X decay vertex
  obtain ⟨d, ds, hd, hdi⟩ : ∃ d ds, w.decays = d :: ds ∧ (h.vtx d).ins = [S.top] := by
    rw [c.hdecays]
    cases hl with
    | leaf p => exact absurd rfl hN
    | node v p v' p' l r l' r' _ _ =>
      refine ⟨v', l'.verts ++ r'.verts, rfl, ?_⟩
      obtain ⟨_, outs, h2, _⟩ := c.ord.hends.hnode v' p' l' r' (self_sub _)
      rw [h2]
      rfl
  have hrest : ∀ p ∈ (H.vtx prod).ins ++ tl, p ∉ S.parts := by
    intro p hp hc
    obtain ⟨h1, h2⟩ := hr p (by rw [hat]; exact hp)
    by_cases hpl : p ∈ S.leaves
    · rw [hl.leaves] at hpl
      exact h2 hpl
    · have := ho.hp p hc hpl
      omega
  obtain ⟨x, hx⟩ : ∃ x : Vtx, x = { H.vtx prod with outs := S.top :: tl } := ⟨_, rfl⟩
  obtain ⟨h2, hh2⟩ : ∃ h2 : Heap M, h2 = { h with verts := h.verts ++ [x] } := ⟨_, rfl⟩
  have hold : ∀ y, y < h.verts.length → h2.vtx y = h.vtx y := by
    intro y hy
    rw [hh2]
    unfold Heap.vtx
    simp [List.getD, List.getElem?_append_left hy]
  have hnew : h2.vtx h.verts.length = x := by
    rw [hh2]
    unfold Heap.vtx
    simp [List.getD]
  have e2 : Ext h h2 := ⟨by rw [hh2]; simp, by rw [hh2], hold, fun p _ => by rw [hh2]; rfl⟩
  have c2 := c.mono e2
  have hin : h.verts.length ∉ w.nodes := fun hc => absurd (c.hlt _ hc) (Nat.lt_irrefl _)
  obtain ⟨w2, hw2⟩ : ∃ w2 : Topo, w2 = { addVertex h2 w.toGraph h.verts.length with prod := some h.verts.length, decays := w.decays, fsParts := w.fsParts } := ⟨_, rfl⟩
  have hg2 : w2.toGraph = addVertex h2 w.toGraph h.verts.length := by rw [hw2]
  have hn2 : w2.nodes = w.nodes ++ [h.verts.length] := by rw [hg2]; rfl
  have hnds : ∀ y ∈ w.nodes, (h2.vtx y).ins.Nodup ∧ (h2.vtx y).outs.Nodup := by
    intro y hy
    obtain ⟨q, hq, rfl⟩ := c2.at hy
    refine ⟨by rw [c2.ord.hends.ins hq]; simp, ?_⟩
    obtain ⟨R, hR, rfl⟩ := top_of S q hq
    cases R with
    | leaf q => rw [show h2.vtx (endOf w.toGraph S (Tree.leaf q).top) = _ from c2.ord.hends.hleaf q hR]; simp
    | node v' p' l' r' =>
      obtain ⟨h1, outs, h2', h3⟩ := c2.ord.hends.hnode v' p' l' r' hR
      have h1 : endOf w.toGraph S (Tree.node v' p' l' r').top = v' := h1
      rw [h1, h2']
      have ht := (triple_sub hR).nodup c2.ord.hnd
      simp only [List.nodup_cons, List.mem_cons, List.not_mem_nil, or_false, not_or] at ht
      rcases h3 with rfl | rfl
      · simp [ht.2.1]
      · simp [Ne.symm ht.2.1]
  have hxo : x.outs = S.top :: tl := by rw [hx]
  have hxi : x.ins = (H.vtx prod).ins := by rw [hx]
  have hstl : S.top ∉ tl := fun hc => hrest S.top (List.mem_append_right _ hc) (top_mem S)
  refine ⟨h2, w2, ?_, e2, ⟨⟨endOf w.toGraph S, ?_⟩, ?_, hf.congr fun p hp => e2.hpart p (c.hplt p hp), fun p hp => c2.hplt p hp, ho, by rw [hw2]; exact c.hdecays, by rw [hw2]; exact c.hfs, e.hv, ?_⟩, by rw [hw2], by rw [hw2]⟩
  · unfold withProduction
    rw [hd]
    dsimp only
    rw [hdi, hprodv, hat]
    show (setProductionVertex { h with verts := h.verts ++ [{ H.vtx prod with outs := S.top :: tl }] } w h.verts.length).bind _ = _
    rw [← hx, ← hh2]
    unfold setProductionVertex
    rw [c.hprod]
    show Outcome.ok _ = _
    rw [hw2, hh2, hx]
    rfl
  · refine ⟨?_, ?_, ?_, c2.ord.hnd, c2.ord.hends, by rw [hw2], ?_, ?_, by rw [hnew, hxo]; rfl, ?_, ?_, by rw [hw2]; show w.decays.Perm _; rw [c.hdecays],
      by rw [hw2]; show w.fsParts.Perm _; rw [c.hfs]⟩
    · rw [hg2]; exact vinv_addVertex h2 _ _ c2.ord.hv hin
    · rw [hg2]; exact ginv_addVertex h2 _ _ c2.ord.hg
    · rw [hg2]
      refine nodup_addVertex h2 _ _ c2.ord.hg c2.ord.hend hnds ?_
      rw [hnew, hxo, hxi]
      refine ⟨hni, List.nodup_cons.2 ⟨hstl, ?_⟩⟩
      rw [hat] at hnd
      exact (List.nodup_cons.1 hnd).2
    · rw [hn2, c2.ord.nodes]
      exact List.perm_append_comm
    · rw [← c2.ord.nodes]
      exact hin
    · rw [hnew, hxo, hxi]
      exact hrest
    · rw [hnew, hxo, hxi]
      intro p hp hc
      rcases List.mem_cons.1 hc with rfl | hc
      · exact hrest _ (List.mem_append_left _ hp) (top_mem S)
      · exact hbeam p hp (by rw [hat]; exact List.mem_cons_of_mem _ hc)
  · intro y hy
    have hlen : h2.verts.length = h.verts.length + 1 := by rw [hh2]; simp
    rw [hn2] at hy
    rcases List.mem_append.1 hy with hy | hy
    · have := c.hlt y hy
      omega
    · rw [List.mem_singleton.1 hy]
      omega
  · rw [hnew, hx, hat]
    rfl

/-- all production vertices. -/
theorem withProductions (hpl : prod < H.verts.length) (hout : (H.vtx prod).outs ≠ []) (hnd : (H.vtx prod).outs.Nodup) (hni : (H.vtx prod).ins.Nodup)
    (hbeam : ∀ p ∈ (H.vtx prod).ins, p ∉ (H.vtx prod).outs) (hr : ∀ p ∈ (H.vtx prod).ins ++ (H.vtx prod).outs.tail, p < H.parts.length ∧ p ∉ T.leaves) (hN : T.verts ≠ [])
    (D : List Topo) : ∀ (h : Heap M) (W : List Topo), Ext H h → (∀ w ∈ D, ∃ S, Whole h w S ∧ Filled C h T S ∧ Own H S) →
    (∀ w ∈ W, ∃ v S, w.prod = some v ∧ Wave C H h prod T w v S) → (W.map Topo.prod).Nodup →
    ∃ h2 E, D.foldlM (withProduction prod) (h, W) = .ok (h2, W ++ E) ∧ Ext h h2 ∧ (∀ w ∈ W ++ E, ∃ v S, w.prod = some v ∧ Wave C H h2 prod T w v S) ∧
      ((W ++ E).map Topo.prod).Nodup ∧ E.map Topo.decays = D.map Topo.decays := by
  induction D with
  | nil => intro h W e _ hW hWn; exact ⟨h, [], by rw [List.append_nil]; rfl, Ext.refl h, by rw [List.append_nil]; exact hW, by rw [List.append_nil]; exact hWn, rfl⟩
  | cons w D ih =>
    intro h W e hD hW hWn
    rw [List.forall_mem_cons] at hD
    obtain ⟨⟨S, c1, c2, c3⟩, hD⟩ := hD
    obtain ⟨h2, w2, a1, a2, a3, a4, a5⟩ := withProduction_spec e hpl hout hnd hni hbeam hr c1 c2 c3 hN W
    obtain ⟨h3, E, b1, b2, b3, b4, b5⟩ := ih h2 (W ++ [w2]) (e.trans a2) (fun x hx => by
        obtain ⟨S, d1, d2, d3⟩ := hD x hx
        exact ⟨S, d1.mono a2, d2.congr fun p hp => a2.hpart p (d1.hplt p hp), d3⟩) (fun x hx => by
        rcases List.mem_append.1 hx with hx | hx
        · obtain ⟨v, S, d1, d2⟩ := hW x hx
          exact ⟨v, S, d1, d2.mono a2⟩
        · rw [List.mem_singleton.1 hx]
          exact ⟨_, S, a5, a3⟩) (by
        rw [List.map_append, List.nodup_append]
        refine ⟨hWn, by simp, ?_⟩
        intro x hx y hy hxy
        obtain ⟨z, hz, rfl⟩ := List.mem_map.1 hx
        rw [List.map_singleton, List.mem_singleton] at hy
        obtain ⟨v, S, d1, d2⟩ := hW z hz
        rw [hy, d1, a5] at hxy
        have := d2.lt
        cases hxy
        exact Nat.lt_irrefl _ this)
    rw [List.append_assoc] at b1 b3 b4
    refine ⟨h3, [w2] ++ E, ?_, a2.trans b2, b3, b4, ?_⟩
    · rw [List.foldlM_cons, a1]
      exact b1
    · rw [List.map_append, b5, List.map_singleton, a4]
      rfl

end
end Rpwa.Dec
