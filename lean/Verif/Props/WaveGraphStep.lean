import Verif.Props.WaveGraphWhole
/-! # The steps of the wave-set generator (C74) -/
namespace Rpwa.Dec
variable {M : Type} [Inhabited M]

omit [Inhabited M] in
theorem InOrder.congr {h k : Heap M} {g : Graph} {S : Tree} (c : InOrder h g S) (hv : ∀ v ∈ g.nodes, k.vtx v = h.vtx v) : InOrder k g S := by
  refine ⟨c.hv, ⟨fun e => ?_, c.hg.hpmap, c.hg.hpart⟩, c.hend, c.hnd, c.hlen, ⟨fun p hp => ?_, fun v p l r hN => ?_⟩, c.hsucc⟩
  · rw [c.hg.hedges]
    constructor
    · rintro ⟨h1, h2, h3, h4, h5⟩
      rw [hv _ (vertex_mem h1), hv _ (vertex_mem h2)]
      exact ⟨h1, h2, h3, h4, h5⟩
    · rintro ⟨h1, h2, h3, h4, h5⟩
      rw [hv _ (vertex_mem h1)] at h4
      rw [hv _ (vertex_mem h2)] at h5
      exact ⟨h1, h2, h3, h4, h5⟩
  · have := hv _ (c.mem (sub_top_mem S _ hp))
    exact this.trans (c.hends.hleaf p hp)
  · obtain ⟨h1, outs, h2, h3⟩ := c.hends.hnode v p l r hN
    have := hv _ (c.mem (sub_top_mem S _ hN))
    have h1' : endOf g S (Tree.node v p l r).top = v := h1
    rw [h1'] at this
    exact ⟨h1, outs, by rw [this, h2], h3⟩

section
variable {C : ℕ → ℕ → Part M → Prop} {h k : Heap M} {t : Topo} {S Q : Tree}

theorem Whole.mono (w : Whole h t S) (e : Ext h k) : Whole k t S :=
  ⟨w.ord.congr fun v hv => e.hvtx v (w.hlt v hv), w.hprod, w.hdecays, w.hfs, fun v hv => Nat.lt_of_lt_of_le (w.hlt v hv) e.hv, fun p hp => Nat.lt_of_lt_of_le (w.hplt p hp) e.hp⟩

omit [Inhabited M] in
theorem Whole.dec_ins (w : Whole h t S) {v : ℕ} (hv : v ∈ t.decays) : v < h.verts.length ∧ v ∈ S.verts ∧ ∃ p ∈ S.parts, p ∉ S.leaves ∧ (h.vtx v).ins = [p] := by
  rw [w.hdecays] at hv
  obtain ⟨p, l, r, hN, hu⟩ := w.ord.hends.verts hv
  obtain ⟨_, outs, h2, _⟩ := w.ord.hends.hnode v p l r hN
  have hp : p ∈ S.parts := sub_top_mem S _ hN
  exact ⟨w.hlt v (hu ▸ w.ord.mem hp), hv, p, hp, w.leaf_node hN, by rw [h2]⟩

/-- a list of topologies like `Q`, all made after the heap `h0`, no two with common vertices or isobars. -/
structure Poss (C : ℕ → ℕ → Part M → Prop) (h0 h : Heap M) (Q : Tree) (W : List Topo) : Prop where
  hall : ∀ w ∈ W, ∃ S, Whole h w S ∧ Filled C h Q S ∧ Own h0 S
  hpair : (W.map Topo.decays).Pairwise (Apart h)

theorem Poss.nil (C : ℕ → ℕ → Part M → Prop) (h0 h : Heap M) (Q : Tree) : Poss C h0 h Q [] := ⟨fun w hw => (List.not_mem_nil hw).elim, List.Pairwise.nil⟩

theorem Poss.mono {h0 : Heap M} {W : List Topo} (p : Poss C h0 h Q W) (e : Ext h k) : Poss C h0 k Q W := by
  constructor
  · intro w hw
    obtain ⟨S, a, b, c⟩ := p.hall w hw
    exact ⟨S, a.mono e, b.congr fun q hq => e.hpart q (a.hplt q hq), c⟩
  · have hpair := p.hpair
    rw [List.pairwise_map] at hpair ⊢
    refine hpair.imp_of_mem ?_
    intro a b ha hb hab v hv u hu
    obtain ⟨Sa, wa, _⟩ := p.hall a ha
    obtain ⟨Sb, wb, _⟩ := p.hall b hb
    obtain ⟨h1, h2⟩ := hab v hv u hu
    refine ⟨h1, ?_⟩
    rw [e.hvtx v (wa.dec_ins hv).1, e.hvtx u (wb.dec_ins hu).1]
    exact h2

theorem Poss.base {h0 h1 : Heap M} {W : List Topo} (p : Poss C h1 h Q W) (e : Ext h0 h1) : Poss C h0 h Q W := by
  refine ⟨fun w hw => ?_, p.hpair⟩
  obtain ⟨S, a, b, c⟩ := p.hall w hw
  exact ⟨S, a, b, fun v hv => Nat.le_trans e.hv (c.hv v hv), fun q hq hl => Nat.le_trans e.hp (c.hp q hq hl)⟩

/-- a topology with new objects is added. -/
theorem Poss.snoc {h0 : Heap M} {W : List Topo} {w : Topo} (p : Poss C h0 h Q W) (e0 : Ext h0 h) (e : Ext h k) (hw : Whole k w S) (hl : Filled C k Q S) (ho : Own h S) :
    Poss C h0 k Q (W ++ [w]) := by
  have p' := p.mono e
  constructor
  · intro x hx
    rcases List.mem_append.1 hx with hx | hx
    · exact p'.hall x hx
    · rw [List.mem_singleton.1 hx]
      exact ⟨S, hw, hl, fun v hv => Nat.le_trans e0.hv (ho.hv v hv), fun q hq hql => Nat.le_trans e0.hp (ho.hp q hq hql)⟩
  · rw [List.map_append, List.pairwise_append]
    refine ⟨p'.hpair, List.pairwise_singleton _ _, ?_⟩
    intro a ha b hb
    rw [List.map_singleton, List.mem_singleton] at hb
    obtain ⟨x, hx, rfl⟩ := List.mem_map.1 ha
    subst hb
    intro v hv u hu
    obtain ⟨Sx, wx, _⟩ := p.hall x hx
    obtain ⟨a1, _, q, hq, _, a2⟩ := wx.dec_ins hv
    obtain ⟨_, b1, q', hq', hql, b2⟩ := hw.dec_ins hu
    have b3 := ho.hv u b1
    refine ⟨by omega, ?_⟩
    rw [e.hvtx v a1, a2, b2]
    intro y hy hy'
    rw [List.mem_singleton] at hy hy'
    subst hy
    have := wx.hplt y hq
    have := ho.hp q' hq' hql
    omega

theorem newDecay_spec {v P : ℕ} {L R : Tree} (w : Whole h t (.node v P L R)) (f : Part M → Part M) :
    ∃ h2 t2 σ τ, newDecay h t v f = .ok (h2, t2) ∧ Ext h h2 ∧ Whole h2 t2 ((Tree.node v P L R).rename σ τ) ∧ Own h ((Tree.node v P L R).rename σ τ) ∧
      h2.part (τ P) = f (h.part P) ∧ (∀ q ∈ L.parts ++ R.parts, h2.part (τ q) = h.part q) ∧ ∀ q ∈ L.leaves ++ R.leaves, τ q = q := by
  obtain ⟨h2, t2, σ, τ, hc, e, w2, hl, ho, hpq, hτ⟩ := w.cloned
  have hvz : t.vertex 0 = v := by
    have := (w.ord.hends.hnode v P L R (self_sub _)).1
    unfold endOf at this
    rwa [show (Tree.node v P L R).parts.idxOf P = 0 from top_idx (.node v P L R)] at this
  have hnode : t.node v = .ok 0 := by
    have := node_ok w.ord.hv w.ord.pos
    rwa [hvz] at this
  have hins : (h2.vtx (t2.vertex 0)).ins = [τ P] := by
    have h1 := w2.ord.hends.ins (top_mem _)
    have h3 : endOf t2.toGraph ((Tree.node v P L R).rename σ τ) ((Tree.node v P L R).rename σ τ).top = t2.vertex 0 := by unfold endOf; rw [top_idx]
    rw [h3] at h1
    exact h1
  have hge : h.parts.length ≤ τ P := by
    refine ho.hp (τ P) (top_mem ((Tree.node v P L R).rename σ τ)) ?_
    exact w2.leaf_node (self_sub ((Tree.node v P L R).rename σ τ))
  obtain ⟨h3, hh3⟩ : ∃ h3 : Heap M, h3 = { h2 with parts := h2.parts.modify (τ P) f } := ⟨_, rfl⟩
  have hvt : ∀ u, h3.vtx u = h2.vtx u := fun u => by rw [hh3]; rfl
  refine ⟨h3, t2, σ, τ, ?_, ⟨?_, ?_, ?_, ?_⟩, ⟨w2.ord.congr fun u _ => hvt u, w2.hprod, w2.hdecays, w2.hfs, ?_, ?_⟩, ho, ?_, ?_, hτ⟩
  · unfold newDecay
    rw [hc]
    show (t.node v).bind _ = _
    rw [hnode]
    show Outcome.ok _ = _
    rw [hins, hh3]
    rfl
  · rw [hh3]; exact e.hv
  · rw [hh3]; simpa using e.hp
  · intro u hu
    rw [hvt, e.hvtx u hu]
  · intro p hp
    rw [← e.hpart p hp, hh3]
    unfold Heap.part
    simp only [List.getD, List.getElem?_modify]
    have hne : ¬ τ P = p := by omega
    simp [hne]
  · rw [hh3]; exact w2.hlt
  · rw [hh3]; simpa using w2.hplt
  · rw [← hpq P List.mem_cons_self, hh3]
    have hlt : τ P < h2.parts.length := w2.hplt (τ P) (top_mem ((Tree.node v P L R).rename σ τ))
    unfold Heap.part
    simp [List.getD, hlt]
  · intro q hq
    rw [← hpq q (List.mem_cons_of_mem _ hq), hh3]
    have hnd := w2.ord.hnd
    rw [(rename_lists σ τ _).2.2.1] at hnd
    have hne : ¬ τ P = τ q := by
      intro hc
      have : (τ P :: (L.parts ++ R.parts).map τ).Nodup := hnd
      exact (List.nodup_cons.1 this).1 (hc ▸ List.mem_map_of_mem hq)
    unfold Heap.part
    simp only [List.getD, List.getElem?_modify]
    simp [hne]

theorem massDeps_spec {h0 : Heap M} {W : List Topo} (p : Poss C h0 h Q W) (e0 : Ext h0 h) (w : Whole h t S) (hl : Filled C h Q S) :
    ∀ n, ∃ h2 E, massDeps h t n = .ok (h2, E) ∧ Ext h h2 ∧ Poss C h0 h2 Q (W ++ E) ∧ E.length = n
  | 0 => ⟨h, [], rfl, Ext.refl h, by rw [List.append_nil]; exact p, rfl⟩
  | n + 1 => by
    obtain ⟨h1, E, a1, a2, a3, a4⟩ := massDeps_spec p e0 w hl n
    obtain ⟨h2, t2, σ, τ, hc, e, w2, _, ho, hpq, hτ⟩ := (w.mono a2).cloned
    refine ⟨h2, E ++ [t2], ?_, a2.trans e, ?_, by simp [a4]⟩
    · unfold massDeps
      rw [a1]
      show (clone h1 t false false).bind _ = _
      rw [hc]
      rfl
    · rw [← List.append_assoc]
      exact a3.snoc (e0.trans a2) e w2 ((hl.congr fun q hq => a2.hpart q (w.hplt q hq)).rename hpq hτ) ho

theorem applyChoice_spec {h0 : Heap M} {W : List Topo} {v P vq : ℕ} {L R ql qr : Tree} (p : Poss C h0 h (.node vq P ql qr) W) (e0 : Ext h0 h) (w : Whole h t (.node v P L R))
    (hl : Filled C h ql L) (hr : Filled C h qr R) (c : Choice M) (hC : C vq P (c.change (h.part P))) : ∃ h2 W2, applyChoice t v (h, W) c = .ok (h2, W2) ∧ Ext h h2 ∧ Poss C h0 h2 (.node vq P ql qr) W2 ∧ W2.length = W.length + c.size := by
  obtain ⟨h1, d, σ, τ, a1, a2, a3, a5, a6, a7, a8⟩ := newDecay_spec w c.change
  have hd : Filled C h1 (.node vq P ql qr) ((Tree.node v P L R).rename σ τ) := by
    refine .node _ _ _ _ _ _ _ _ (by rw [a6]; exact hC) (hl.rename (fun q hq => a7 q (List.mem_append_left _ hq)) fun q hq => a8 q (List.mem_append_left _ hq))
      (hr.rename (fun q hq => a7 q (List.mem_append_right _ hq)) fun q hq => a8 q (List.mem_append_right _ hq))
  have p1 : Poss C h0 h1 (.node vq P ql qr) (W ++ if c.self then [d] else []) := by
    cases c.self with
    | true => exact p.snoc e0 a2 a3 hd a5
    | false => rw [if_neg (by simp), List.append_nil]; exact p.mono a2
  obtain ⟨h2, E, b1, b2, b3, b4⟩ := massDeps_spec p1 (e0.trans a2) a3 hd c.clones
  refine ⟨h2, _, ?_, a2.trans b2, b3, ?_⟩
  · unfold applyChoice
    dsimp only
    rw [a1]
    show (massDeps h1 d c.clones).bind _ = _
    rw [b1]
    rfl
  · unfold Choice.size
    rw [List.length_append, List.length_append, b4]
    cases c.self <;> simp ; omega

theorem applyChoices_spec {h0 : Heap M} {v P vq : ℕ} {L R ql qr : Tree} (x : Part M) (cs : List (Choice M)) (hC : ∀ c ∈ cs, C vq P (c.change x)) :
    ∀ (h : Heap M) (W : List Topo), Poss C h0 h (.node vq P ql qr) W → Ext h0 h → Whole h t (.node v P L R) → Filled C h ql L → Filled C h qr R → h.part P = x →
    ∃ h2 W2, cs.foldlM (applyChoice t v) (h, W) = .ok (h2, W2) ∧ Ext h h2 ∧ Poss C h0 h2 (.node vq P ql qr) W2 ∧ W2.length = W.length + (cs.map Choice.size).sum := by
  induction cs with
  | nil => intro h W p _ _ _ _ _; exact ⟨h, W, rfl, Ext.refl h, p, by simp⟩
  | cons c cs ih =>
    intro h W p e0 w hl hr hx
    rw [List.forall_mem_cons] at hC
    have hP : P < h.parts.length := w.hplt P List.mem_cons_self
    have hL : ∀ q ∈ L.parts, q < h.parts.length := fun q hq => w.hplt q (List.mem_cons_of_mem _ (List.mem_append_left _ hq))
    have hR : ∀ q ∈ R.parts, q < h.parts.length := fun q hq => w.hplt q (List.mem_cons_of_mem _ (List.mem_append_right _ hq))
    obtain ⟨h1, W1, a1, a2, a3, a4⟩ := applyChoice_spec p e0 w hl hr c (by rw [hx]; exact hC.1)
    obtain ⟨h2, W2, b1, b2, b3, b4⟩ := ih hC.2 h1 W1 a3 (e0.trans a2) (w.mono a2) (hl.congr fun q hq => a2.hpart q (hL q hq)) (hr.congr fun q hq => a2.hpart q (hR q hq))
      (by rw [a2.hpart P hP, hx])
    refine ⟨h2, W2, ?_, a2.trans b2, b3, ?_⟩
    · rw [List.foldlM_cons, a1]
      exact b1
    · rw [b4, a4, List.map_cons, List.sum_cons]
      omega

omit [Inhabited M] in
theorem Whole.top (w : Whole h t S) : topPart h t = .ok S.top := by
  unfold topPart
  rw [w.ord.topNode]
  show Outcome.ok _ = _
  have h1 := w.ord.hends.ins (top_mem S)
  have h3 : endOf t.toGraph S S.top = t.vertex 0 := by unfold endOf; rw [top_idx]
  rw [h3] at h1
  rw [h1]
  rfl

/-- a pair of daughter decays. -/
theorem combine_spec {choose : Choose M} {g : Graph} {n vq P : ℕ} {ql qr SL SR : Tree} {h0 : Heap M} {W : List Topo} {x1 x2 : Topo} {o1 o2 : ℕ}
    (hvx : h.vtx (g.vertex n) = ⟨.decay, [P], [o1, o2]⟩) (hPlt : P < h.parts.length)
    (p : Poss C h0 h (.node vq P ql qr) W) (e0 : Ext h0 h) (w1 : Whole h x1 SL) (w2 : Whole h x2 SR) (l1 : Filled C h ql SL) (l2 : Filled C h qr SR)
    (hC : ∀ k, ∀ c ∈ choose k n x1 x2, C vq P (c.change (h.part P)))
    (hn1 : P ∉ SL.parts) (hn2 : P ∉ SR.parts) (hn3 : ∀ q ∈ SL.parts, q ∉ SR.parts) :
    ∃ h2 W2, combine choose g n (h, W) (x1, x2) = .ok (h2, W2) ∧ Ext h h2 ∧ Poss C h0 h2 (.node vq P ql qr) W2 ∧
      ∃ h', W2.length = W.length + ((choose h' n x1 x2).map Choice.size).sum := by
  obtain ⟨h', hh'⟩ : ∃ h' : Heap M, h' = { h with verts := h.verts ++ [⟨.decay, [P], [SL.top, SR.top]⟩] } := ⟨_, rfl⟩
  obtain ⟨v, hv⟩ : ∃ v, v = h.verts.length := ⟨_, rfl⟩
  have hold : ∀ u, u < h.verts.length → h'.vtx u = h.vtx u := by
    intro u hu
    rw [hh']
    unfold Heap.vtx
    simp [List.getD, List.getElem?_append_left hu]
  have hnew : h'.vtx v = ⟨.decay, [P], [SL.top, SR.top]⟩ := by
    rw [hh', hv]
    unfold Heap.vtx
    simp [List.getD]
  have e : Ext h h' := ⟨by rw [hh']; simp, by rw [hh'], hold, fun q _ => by rw [hh']; rfl⟩
  have j : Joinable h' v P x1.toGraph x2.toGraph SL SR := by
    refine ⟨(w1.mono e).ord, (w2.mono e).ord, ⟨_, hnew, .inl rfl⟩, ?_⟩
    refine List.nodup_cons.2 ⟨fun hc => ?_, List.nodup_append.2 ⟨w1.ord.hnd, w2.ord.hnd, fun a ha b hb hab => hn3 a ha (hab ▸ hb)⟩⟩
    rcases List.mem_append.1 hc with hc | hc
    · exact hn1 hc
    · exact hn2 hc
  obtain ⟨t, ht⟩ : ∃ t : Topo, t = { Joinable.g2 h' v x1.toGraph x2.toGraph with prod := none, decays := (Tree.node v P SL SR).verts, fsParts := (Tree.node v P SL SR).leaves } := ⟨_, rfl⟩
  have htw : Whole h' t (.node v P SL SR) := by
    rw [ht]
    refine ⟨j.inOrder, rfl, rfl, rfl, ?_, ?_⟩
    · intro u hu
      have hnodes : (Joinable.g2 h' v x1.toGraph x2.toGraph).nodes = v :: x1.nodes ++ x2.nodes := by
        have : (Joinable.g2 h' v x1.toGraph x2.toGraph).nodes = _ := j.fits2.nodes
        rw [this, j.g1_nodes]
      have hlen : h'.verts.length = h.verts.length + 1 := by rw [hh']; simp
      have hu : u ∈ (Joinable.g2 h' v x1.toGraph x2.toGraph).nodes := hu
      rw [hnodes] at hu
      rcases List.mem_append.1 hu with hu | hu
      · rcases List.mem_cons.1 hu with hu | hu
        · omega
        · have := w1.hlt u hu; omega
      · have := w2.hlt u hu; omega
    · intro q hq
      have : h'.parts.length = h.parts.length := by rw [hh']
      rw [this]
      rcases List.mem_cons.1 hq with rfl | hq
      · exact hPlt
      · rcases List.mem_append.1 hq with hq | hq
        · exact w1.hplt q hq
        · exact w2.hplt q hq
  obtain ⟨h2, W2, b1, b2, b3, b4⟩ := applyChoices_spec (C := C) (h.part P) (choose h' n x1 x2) (hC h') h' W (p.mono e) (e0.trans e) htw
    (l1.congr fun q hq => e.hpart q (w1.hplt q hq)) (l2.congr fun q hq => e.hpart q (w2.hplt q hq)) (e.hpart P hPlt)
  refine ⟨h2, W2, ?_, e.trans b2, b3, h', b4⟩
  unfold combine
  dsimp only
  rw [w1.top]
  show (topPart h x2).bind _ = _
  rw [w2.top]
  show (joinDaughters _ _ _).bind _ = _
  rw [hvx]
  show (joinDaughters { h with verts := h.verts ++ [⟨.decay, [P], [SL.top, SR.top]⟩] } h.verts.length [x1.toGraph, x2.toGraph]).bind _ = _
  rw [← hh', ← hv, j.joined, ← ht]
  show List.foldlM (applyChoice t v) ({ h with verts := h.verts ++ [⟨.decay, [P], [SL.top, SR.top]⟩] }, W)
    (choose { h with verts := h.verts ++ [⟨.decay, [P], [SL.top, SR.top]⟩] } n x1 x2) = _
  rw [← hh']
  exact b1

end
end Rpwa.Dec
