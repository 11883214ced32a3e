import Verif.Props.DecayGraphClone
/-! # C71: a clone of a valid topology -/
namespace Rpwa.Dec
variable {M : Type} [Inhabited M]

section
variable {h : Heap M} {prod : ℕ} {decays fs : List ℕ} {T : Tree}

/-- all pointers to particles are valid. -/
def Pointers (h : Heap M) (prod : ℕ) (decays : List ℕ) : Prop :=
  ∀ v ∈ prod :: decays, ∀ p, p ∈ (h.vtx v).ins ∨ p ∈ (h.vtx v).outs → p < h.parts.length

theorem leaf_parent {vtx : ℕ → Vtx} (hT : IsDecay vtx T) (hn : T.parts.Nodup) : ∀ p ∈ T.leaves, ∀ v ∈ T.verts, p ∉ (vtx v).ins := by
  intro p hp v hv hc
  have h1 := (heads_perm hT).symm.nodup hn
  have h2 := (List.nodup_append.1 h1).2.2 ((vtx v).ins.headD 0) (List.mem_map_of_mem hv) p hp
  have h3 : ∃ q, (vtx v).ins = [q] := by
    clear h1 h2 hp hn hc
    induction hT with
    | leaf p => cases hv
    | node u p l r outs hu _ _ _ ihl ihr =>
      simp only [Tree.verts, List.mem_cons, List.mem_append] at hv
      rcases hv with rfl | hv | hv
      · exact ⟨p, by rw [hu]⟩
      · exact ihl hv
      · exact ihr hv
  obtain ⟨q, hq⟩ := h3
  rw [hq] at hc h2
  rw [List.mem_singleton] at hc
  exact h2 hc.symm

theorem good_made (hi : Input h prod decays) (hs : NoSharing h prod decays) (hp : Pointers h prod decays) (hT : IsTree h prod decays fs T) :
    Good (withFs h fs) (made h prod decays fs) := by
  have c := ctx_of_tree hi hs hT
  obtain ⟨T', hT', hd, hf⟩ := tree_of_ctx hi hs hT.hX c
  have hd : (made h prod decays fs).decays = T'.verts := hd
  have hf : (made h prod decays fs).fsParts = T'.leaves := hf
  have hv := built_vinv (fs := fs) hi hs
  have hlen := built_len (h := h) (prod := prod) (decays := decays) (fs := fs)
  have hold : ∀ v ∈ prod :: decays, v < h.verts.length := by
    intro v hv
    rcases List.mem_cons.1 hv with rfl | hv
    · exact hi.hprod
    · exact hi.hdecays v hv
  have hlt0 : ∀ v ∈ (built h prod decays fs).nodes, v ∈ prod :: decays ∨ ∃ k, ∃ hk : k < fs.length, v = h.verts.length + k ∧ (withFs h fs).vtx v = ⟨.fs, [fs[k]], []⟩ := by
    intro v hv
    obtain ⟨i, hn, rfl⟩ := mem_vertex hv
    by_cases h0 : i = 0
    · subst h0
      rw [vertex_zero]
      exact .inl List.mem_cons_self
    · rcases node_cases hi h0 hn with ⟨h1, _⟩ | ⟨k, hk, h1, _, h2⟩
      · exact .inl (List.mem_cons_of_mem _ h1)
      · exact .inr ⟨k, hk, h1, h2⟩
  -- the final-state particles are valid pointers
  have hfp : ∀ p ∈ fs, p < h.parts.length := by
    intro p hpf
    have h1 : p ∈ T.parts := (leaves_sub T).subset (hT.hleaves.symm.subset hpf)
    rcases daughter hT.hdecay p h1 with rfl | ⟨v, hv, hq⟩
    · refine hp prod List.mem_cons_self _ (.inr ?_)
      exact List.mem_of_head? hT.hX
    · exact hp v (List.mem_cons_of_mem _ (hT.hverts.subset hv)) p (.inr hq)
  have hsh : ∀ i j p, i < (built h prod decays fs).nodes.length → j < (built h prod decays fs).nodes.length → i ≠ j →
      p ∈ (nodeVtx (withFs h fs) (built h prod decays fs) i).ins → j ≠ 0 → p ∉ (nodeVtx (withFs h fs) (built h prod decays fs) j).ins := by
    intro i j p hin hjn hij hpi hj0 hpj
    have hV : ∀ x, x ≠ 0 → x < (built h prod decays fs).nodes.length → p ∈ (nodeVtx (withFs h fs) (built h prod decays fs) x).ins →
        (nodeVtx (withFs h fs) (built h prod decays fs) x).ins = [p] := by
      intro x hx0 hxn hxp
      obtain ⟨q, hq | ⟨a, b, hq, _⟩⟩ := c.hnode x hx0 hxn <;> · rw [hq] at hxp ⊢; rw [List.mem_singleton] at hxp; rw [hxp]
    have hpj' := hV j hj0 hjn hpj
    by_cases hi0 : i = 0
    · subst hi0
      obtain ⟨s, hse⟩ := c.in_edge hj0 hjn hpj'
      have h5 := (c.hmem _).1 hse
      dsimp only at h5
      by_cases hs0 : s = 0
      · subst hs0
        rw [nodeVtx_zero hi] at h5 hpi
        exact hi.hbeam p hpi h5.2.2.2.1
      · have : (⟨s, 0, p⟩ : Edge) ∈ (built h prod decays fs).edges := (c.hmem _).2 ⟨h5.1, hin, hs0, h5.2.2.2.1, hpi⟩
        exact c.dst_ne this rfl
    · have hpi' := hV i hi0 hin hpi
      exact hij ((c.ends_node hi0 hin hpi').symm.trans (c.ends_node hj0 hjn hpj'))
  refine
    { hnd := nodes_nodup hi hs
      hend := built_nodup hi hs
      hlt := fun v hv => ?_
      hvinv := hv
      hedges := c.hmem
      hpm := fun p a b => ⟨fun hab => built_inv.hpmap _ _ _ hab, fun hab => ?_⟩
      hplt := fun v hvn p hpv => ?_
      hshare := fun v hvn u hun p hpv hpu => ?_
      hshareIn := fun v hvn u hun p hpv hpu => ?_
      hins := fun v hvn => ?_
      hself := fun v hvn p hpv hpo => ?_
      hprod := fun v hpr => ?_
      hdec := fun v hvd => ?_
      hfsv := fun v hvn => ?_
      hfs := fun p hpf => ?_
      hpin := fun e he hc => ?_ }
  · have hl : (withFs h fs).verts.length = h.verts.length + fs.length := by simp [withFs]
    rcases hlt0 v hv with h1 | ⟨k, hk, h1, _⟩
    · have := hold v h1
      omega
    · omega
  · have hab' : (⟨a, b, p⟩ : Edge) ∈ (built h prod decays fs).edges := hab
    have h1 : ((built h prod decays fs).pmap p).isSome := built_inv.hpart _ hab'
    obtain ⟨⟨x, y⟩, hxy⟩ := Option.isSome_iff_exists.1 h1
    have := c.part_unique (built_inv.hpmap _ _ _ hxy) hab' rfl
    obtain ⟨rfl, rfl, _⟩ := Edge.mk.inj this
    exact hxy
  · show p < h.parts.length
    rcases hlt0 v hvn with h1 | ⟨k, hk, h1, h2⟩
    · rw [withFs_old h fs (hold v h1)] at hpv
      exact hp v h1 p hpv
    · rw [h2] at hpv
      rcases hpv with hpv | hpv
      · rw [List.mem_singleton.1 hpv]
        exact hfp _ (List.getElem_mem hk)
      · cases hpv
  · obtain ⟨i, hin, rfl⟩ := mem_vertex hvn
    obtain ⟨j, hjn, rfl⟩ := mem_vertex hun
    rw [c.hshare i j p hin hjn hpv hpu]
  · obtain ⟨i, hin, rfl⟩ := mem_vertex hvn
    obtain ⟨j, hjn, rfl⟩ := mem_vertex hun
    by_cases hij : i = j
    · rw [hij]
    · exfalso
      by_cases hj0 : j = 0
      · exact hsh j i p hjn hin (Ne.symm hij) hpu (by omega) hpv
      · exact hsh i j p hin hjn hij hpv hj0 hpu
  · obtain ⟨i, hin, rfl⟩ := mem_vertex hvn
    show (nodeVtx (withFs h fs) (built h prod decays fs) i).ins.Nodup
    by_cases h0 : i = 0
    · subst h0
      rw [nodeVtx_zero hi]
      exact hi.hins
    · obtain ⟨q, hq | ⟨a, b, hq, _⟩⟩ := c.hnode i h0 hin <;> · rw [hq]; simp
  · obtain ⟨i, hin, rfl⟩ := mem_vertex hvn
    have hpv : p ∈ (nodeVtx (withFs h fs) (built h prod decays fs) i).ins := hpv
    have hpo : p ∈ (nodeVtx (withFs h fs) (built h prod decays fs) i).outs := hpo
    by_cases h0 : i = 0
    · subst h0
      rw [nodeVtx_zero hi] at hpv hpo
      exact hi.hbeam p hpv hpo
    · have hV : (nodeVtx (withFs h fs) (built h prod decays fs) i).ins = [p] := by
        obtain ⟨q, hq | ⟨a, b, hq, _⟩⟩ := c.hnode i h0 hin <;> · rw [hq] at hpv ⊢; rw [List.mem_singleton] at hpv; rw [hpv]
      obtain ⟨s, hse⟩ := c.in_edge h0 hin hV
      have h5 := (c.hmem _).1 hse
      dsimp only at h5
      exact h5.2.2.1 (c.hshare s i p h5.1 hin h5.2.2.2.1 hpo)
  · cases hpr
    refine ⟨?_, ?_, ?_⟩
    · show prod ∈ (built h prod decays fs).nodes
      rw [built_nodes]
      simp
    · rw [withFs_old h fs hi.hprod]; exact hi.hkprod
    · rw [withFs_old h fs hi.hprod]; exact hi.hout
  · rw [hd] at hvd
    have hm := hT'.hverts.subset hvd
    refine ⟨?_, ?_⟩
    · show v ∈ (built h prod decays fs).nodes
      rw [built_nodes]
      simp [hm]
    · obtain ⟨p, a, b, h1⟩ := hi.hkind v hm
      exact ⟨p, [a, b], by rw [withFs_old h fs (hi.hdecays v hm)]; exact h1⟩
  · rcases hlt0 v hvn with h1 | ⟨k, hk, _, h2⟩
    · rcases List.mem_cons.1 h1 with rfl | h1
      · exact .inl rfl
      · exact .inr (.inl (by rw [hd]; exact hT'.hverts.symm.subset h1))
    · refine .inr (.inr ⟨fs[k], ?_, h2⟩)
      rw [hf]
      exact hT'.hleaves.symm.subset (List.getElem_mem hk)
  · rw [hf] at hpf
    refine ⟨hfp p (hT'.hleaves.subset hpf), fun v hvd => ?_, fun v hpr => ?_⟩
    · rw [hd] at hvd
      rw [withFs_old h fs (hi.hdecays v (hT'.hverts.subset hvd))]
      exact leaf_parent hT'.hdecay hT'.hparts p hpf v hvd
    · cases hpr
      rw [withFs_old h fs hi.hprod]
      intro hc
      exact hT'.hrest p (List.mem_append_left _ hc) ((leaves_sub T').subset hpf)
  · have he : e ∈ (built h prod decays fs).edges := he
    have h5 := (c.hmem _).1 he
    have h6 : prod = (built h prod decays fs).vertex e.dst := Option.some.inj hc
    refine c.dst_ne he (vertex_inj hv h5.2.1 c.hpos ?_)
    rw [← h6, vertex_zero]

omit [Inhabited M] in
theorem rename_lists (σ τ : ℕ → ℕ) (T : Tree) : (T.rename σ τ).verts = T.verts.map σ ∧ (T.rename σ τ).leaves = T.leaves.map τ ∧ (T.rename σ τ).parts = T.parts.map τ ∧
    (T.rename σ τ).top = τ T.top := by
  induction T with
  | leaf p => exact ⟨rfl, rfl, rfl, rfl⟩
  | node v p l r ihl ihr =>
    simp only [Tree.rename, Tree.verts, Tree.leaves, Tree.parts, Tree.top, ihl, ihr, List.map_cons, List.map_append, and_self]

omit [Inhabited M] in
theorem rename_decay {f g : ℕ → Vtx} {σ τ : ℕ → ℕ} {T : Tree} (hT : IsDecay f T)
    (hg : ∀ v ∈ T.verts, g (σ v) = ⟨(f v).kind, (f v).ins.map τ, (f v).outs.map τ⟩) : IsDecay g (T.rename σ τ) := by
  induction hT with
  | leaf p => exact .leaf _
  | node v p l r outs hv ho _ _ ihl ihr =>
    refine .node _ _ _ _ (outs.map τ) ?_ ?_ (ihl fun u hu => hg u (by simp [Tree.verts, hu])) (ihr fun u hu => hg u (by simp [Tree.verts, hu]))
    · rw [hg v (by simp [Tree.verts]), hv]
      rfl
    · rw [(rename_lists σ τ l).2.2.2, (rename_lists σ τ r).2.2.2]
      rcases ho with rfl | rfl
      · exact .inl rfl
      · exact .inr rfl

omit [Inhabited M] in
theorem inner_part {vtx : ℕ → Vtx} (hT : IsDecay vtx T) (p : ℕ) (hp : p ∈ T.parts) (hl : p ∉ T.leaves) : ∃ v ∈ T.verts, p ∈ (vtx v).ins := by
  have h1 := (heads_perm hT).symm.subset hp
  rcases List.mem_append.1 h1 with h1 | h1
  · obtain ⟨v, hv, rfl⟩ := List.mem_map.1 h1
    refine ⟨v, hv, ?_⟩
    clear * - hT hv
    induction hT with
    | leaf p => cases hv
    | node u p l r outs hu _ _ _ ihl ihr =>
      simp only [Tree.verts, List.mem_cons, List.mem_append] at hv
      rcases hv with rfl | hv | hv
      · rw [hu]; simp
      · exact ihl hv
      · exact ihr hv
  · exact absurd h1 hl

omit [Inhabited M] in
theorem rename_subs (σ τ : ℕ → ℕ) (T : Tree) : (T.rename σ τ).subs = T.subs.map fun S => S.rename σ τ := by
  induction T with
  | leaf p => rfl
  | node v p l r ihl ihr => simp only [Tree.rename, Tree.subs, ihl, ihr, List.map_cons, List.map_append]

omit [Inhabited M] in
theorem rename_sum [Add M] (σ τ : ℕ → ℕ) (f : ℕ → M) (T : Tree) : (T.rename σ τ).sum f = T.sum fun p => f (τ p) := by
  induction T with
  | leaf p => rfl
  | node v p l r ihl ihr => simp only [Tree.rename, Tree.sum, ihl, ihr]

/-- what a clone is. `σ` and `τ` say which vertex and which particle of the copy stands for which of the original. -/
structure IsCopy (h : Heap M) (t : Topo) (prod : ℕ) (T : Tree) (cp : Bool) (h2 : Heap M) (t2 : Topo) (σ τ : ℕ → ℕ) : Prop where
  /-- the copy is the same tree, -/
  hdecay : IsDecay h2.vtx (T.rename σ τ)
  hdecays : t2.decays = (T.rename σ τ).verts
  hfs : t2.fsParts = t.fsParts
  hprod : t2.prod = some (σ prod) ∧ h2.vtx (σ prod) = ⟨(h.vtx prod).kind, (h.vtx prod).ins.map τ, (h.vtx prod).outs.map τ⟩
  hinj : ∀ p ∈ T.parts, ∀ q ∈ T.parts, τ p = τ q → p = q
  hinjv : ∀ v ∈ prod :: T.verts, ∀ u ∈ prod :: T.verts, σ v = σ u → v = u
  /-- it is valid, -/
  hvalid : isobarCheck h2 t2 = .ok true
  /-- with equal particles; -/
  hval : ∀ p, p < h.parts.length → h2.part (τ p) = h.part p
  /-- its vertices are new objects; so are the particles that decay, and, if wanted, beam and target; all other particles are shared; -/
  hnewv : ∀ v ∈ prod :: T.verts, h.verts.length ≤ σ v
  hnew : ∀ p ∈ T.parts, p ∉ T.leaves → h.parts.length ≤ τ p
  hleaf : ∀ p ∈ T.leaves, τ p = p
  hbeam : ∀ p ∈ (h.vtx prod).ins, if cp = true then h.parts.length ≤ τ p else τ p = p
  hout : ∀ p ∈ (h.vtx prod).outs.tail, p ∉ (h.vtx prod).ins → τ p = p
  /-- and no object that existed before is changed. -/
  holdv : ∀ v, v < h.verts.length → h2.vtx v = h.vtx v
  hold : ∀ p, p < h.parts.length → h2.part p = h.part p

/-- **a clone (without final-state particles) of a valid topology is a valid topology with the same tree, equal particles, own vertices and isobars, and
leaves the original as it is.** -/
theorem clone_is_copy (hi : Input h prod decays) (hs : NoSharing h prod decays) (hp : Pointers h prod decays) {h' : Heap M} {t : Topo}
    (hc : constructIsobarDecay h prod decays fs true = .ok (h', t)) (hk : isobarCheck h' t = .ok true) (cp : Bool) :
    ∃ T h2 t2 σ τ, IsTree h prod decays fs T ∧ clone h' t false cp = .ok (h2, t2) ∧ IsCopy h' t prod T cp h2 t2 σ τ := by
  obtain ⟨T, hT, hd, hf, hpr, _⟩ := accepted_is_tree hi hs hc hk
  obtain ⟨_, _, hr, _, _⟩ := (construct_iff hi hs _).1 hc
  cases hr
  have g := good_made hi hs hp hT
  obtain ⟨h2, t2, σ, τ, c1, i, g2, ov, op, nv, np⟩ := clone_spec g cp
  refine ⟨T, h2, t2, σ, τ, hT, c1, ?_⟩
  have hT' : IsDecay (withFs h fs).vtx T := hT.hdecay.congr fun v hv => (withFs_old h fs (hi.hdecays v (hT.hverts.subset hv))).symm
  have hvn : ∀ v ∈ prod :: T.verts, v ∈ (made h prod decays fs).nodes ∧ ((withFs h fs).vtx v).kind ≠ .fs := by
    intro v hv
    rcases List.mem_cons.1 hv with rfl | hv
    · have := g.hprod v rfl
      exact ⟨this.1, by rw [this.2.1]; simp⟩
    · rw [← hd] at hv
      obtain ⟨h1, _, _, h3⟩ := g.hdec v hv
      exact ⟨h1, by rw [h3]; simp⟩
  have hpl : ∀ p ∈ T.parts, p < h.parts.length := by
    intro p hpT
    rcases daughter hT.hdecay p hpT with rfl | ⟨v, hv, hq⟩
    · exact hp prod List.mem_cons_self _ (.inr (List.mem_of_head? hT.hX))
    · exact hp v (List.mem_cons_of_mem _ (hT.hverts.subset hv)) p (.inr hq)
  have hdi : ∀ p, (∃ v ∈ (made h prod decays fs).decays, p ∈ ((withFs h fs).vtx v).ins) → p ∈ T.parts ∧ p ∉ T.leaves := by
    rintro p ⟨v, hv, hpv⟩
    have hv' := hv
    rw [hd] at hv
    refine ⟨?_, fun hc => ?_⟩
    · obtain ⟨_, q, outs, h3⟩ := g.hdec v hv'
      have h4 : ((withFs h fs).vtx v).ins.headD 0 ∈ T.parts := (heads_perm hT').subset (List.mem_append_left _ (List.mem_map_of_mem hv))
      rw [h3] at h4 hpv
      rw [List.mem_singleton.1 hpv]
      exact h4
    · exact leaf_parent hT' hT.hparts p hc v hv hpv
  have hprv : (withFs h fs).vtx prod = h.vtx prod := withFs_old h fs hi.hprod
  have hpi : ∀ p, (∃ v, (made h prod decays fs).prod = some v ∧ p ∈ ((withFs h fs).vtx v).ins) ↔ p ∈ (h.vtx prod).ins := by
    intro p
    constructor
    · rintro ⟨v, hv, hpv⟩
      cases hv
      rwa [hprv] at hpv
    · intro hpv
      exact ⟨prod, rfl, by rw [hprv]; exact hpv⟩
  have hleaf : ∀ p ∈ T.leaves, τ p = p := by
    intro p hpl
    have h1 := np p
    rwa [if_neg] at h1
    rintro (h2 | ⟨_, h2⟩)
    · exact (hdi p h2).2 hpl
    · exact hT.hrest p (List.mem_append_left _ ((hpi p).1 h2)) ((leaves_sub T).subset hpl)
  refine
    { hdecay := rename_decay hT' fun v hv => i.hvtx v (hvn v (List.mem_cons_of_mem _ hv)).1
      hdecays := by rw [i.hdecays, hd, (rename_lists σ τ T).1]
      hfs := ?_
      hprod := ⟨by rw [i.hprod, hpr]; rfl, i.hvtx prod (hvn prod List.mem_cons_self).1⟩
      hinj := fun p hp q hq hpq => i.hτ p (hpl p hp) q (hpl q hq) hpq
      hinjv := fun v hv u hu hvu => i.hσ v (hvn v hv).1 u (hvn u hu).1 hvu
      hvalid := by rw [i.check g g2]; exact hk
      hval := fun p hp => (i.hpart p hp).2
      hnewv := fun v hv => ?_
      hnew := fun p hp hl => ?_
      hleaf := hleaf
      hbeam := fun p hpb => ?_
      hout := fun p hpo hpb => ?_
      holdv := ov
      hold := op }
  · rw [i.hfs, hf]
    exact (List.map_congr_left hleaf).trans (List.map_id' _)
  · have := nv v (hvn v hv).1
    rwa [if_neg (hvn v hv).2] at this
  · have := np p
    obtain ⟨v, hv, hpv⟩ := inner_part hT' p hp hl
    rwa [if_pos (.inl ⟨v, hd ▸ hv, hpv⟩)] at this
  · rw [hprv] at hpb
    have h1 := np p
    have h2 : ¬ ∃ v ∈ (made h prod decays fs).decays, p ∈ ((withFs h fs).vtx v).ins := fun hc =>
      hT.hrest p (List.mem_append_left _ hpb) (hdi p hc).1
    by_cases hcp : cp = true
    · rw [if_pos (.inr ⟨hcp, (hpi p).2 hpb⟩)] at h1
      rw [if_pos hcp]
      exact h1
    · rw [if_neg (by rintro (h3 | ⟨h3, _⟩); exact h2 h3; exact hcp h3)] at h1
      rw [if_neg hcp]
      exact h1
  · rw [hprv] at hpo hpb
    have h1 := np p
    rwa [if_neg] at h1
    rintro (h2 | ⟨_, h2⟩)
    · exact hT.hrest p (List.mem_append_right _ hpo) (hdi p h2).1
    · exact hpb ((hpi p).1 h2)

/-- **the copy can be used for other kinematics**: calculating the momenta of the isobars of the copy changes no momentum of the original; and the isobars of the
copy get the same sums of final-state momenta as those of the original would. -/
theorem clone_independent [AddCommMagma M] (hi : Input h prod decays) (hs : NoSharing h prod decays) (hp : Pointers h prod decays) {h' : Heap M} {t : Topo}
    (hc : constructIsobarDecay h prod decays fs true = .ok (h', t)) (hk : isobarCheck h' t = .ok true) (cp : Bool) :
    ∃ T h2 t2 σ τ, IsTree h prod decays fs T ∧ clone h' t false cp = .ok (h2, t2) ∧ IsCopy h' t prod T cp h2 t2 σ τ ∧
      (∀ q, q < h'.parts.length → ((calcIsobarLzVec h2 t2).part q).mom = (h'.part q).mom) ∧
      ∀ S ∈ T.subs, ((calcIsobarLzVec h2 t2).part (τ S.top)).mom = S.sum fun p => (h.part p).mom := by
  obtain ⟨T, h2, t2, σ, τ, hT, c1, c⟩ := clone_is_copy hi hs hp hc hk cp
  obtain ⟨_, _, hr, _, _⟩ := (construct_iff hi hs _).1 hc
  cases hr
  refine ⟨T, h2, t2, σ, τ, hT, c1, c, ?_⟩
  have hpl : ∀ p ∈ T.parts, p < h.parts.length := by
    intro p hpT
    rcases daughter hT.hdecay p hpT with rfl | ⟨v, hv, hq⟩
    · exact hp prod List.mem_cons_self _ (.inr (List.mem_of_head? hT.hX))
    · exact hp v (List.mem_cons_of_mem _ (hT.hverts.subset hv)) p (.inr hq)
  have hnd : (T.rename σ τ).parts.Nodup := by
    rw [(rename_lists σ τ T).2.2.1]
    exact List.Nodup.map_on (fun x hx y hy hxy => c.hinj x hx y hy hxy) hT.hparts
  have g := good_made hi hs hp hT
  obtain ⟨h2', t2', σ', τ', c1', i, g2, _, _, _, _⟩ := clone_spec g cp
  rw [c1] at c1'
  cases c1'
  obtain ⟨_, h5, h6⟩ := calc_tree c.hdecay h2 rfl hnd fun v hv p hpv => by
    rw [← c.hdecays] at hv
    exact g2.hplt v (g2.hdec v hv).1 p (.inl hpv)
  unfold calcIsobarLzVec
  rw [c.hdecays]
  have hsum : ∀ S ∈ T.subs, (((T.rename σ τ).verts.reverse.foldl calcStep h2).part (τ S.top)).mom = S.sum fun p => (h.part p).mom := by
    intro S hS
    have h7 := h6 (S.rename σ τ) (by rw [rename_subs]; exact List.mem_map_of_mem hS)
    rw [(rename_lists σ τ S).2.2.2, rename_sum] at h7
    rw [h7]
    exact sum_congr S fun p hp => by
      rw [c.hval p (hpl p (sub_top T S hS p hp))]
      rfl
  refine ⟨fun q hq => ?_, hsum⟩
  by_cases hqT : q ∈ (T.rename σ τ).parts
  · rw [(rename_lists σ τ T).2.2.1] at hqT
    obtain ⟨p, hpT, rfl⟩ := List.mem_map.1 hqT
    have hpl' : p ∈ T.leaves := by
      by_contra hc
      have := c.hnew p hpT hc
      omega
    have hsub : Tree.leaf p ∈ T.subs := by
      clear * - hpl'
      induction T with
      | leaf x => rw [List.mem_singleton.1 hpl']; exact List.mem_singleton.2 rfl
      | node v x l r ihl ihr =>
        rcases List.mem_append.1 hpl' with h1 | h1
        · exact List.mem_cons_of_mem _ (List.mem_append_left _ (ihl h1))
        · exact List.mem_cons_of_mem _ (List.mem_append_right _ (ihr h1))
    have := hsum _ hsub
    rw [show (Tree.leaf p).top = p from rfl] at this
    rw [this, c.hleaf p hpl']
    rfl
  · rw [h5 q hqT]
    rw [c.hold q hq]

end

/-! ### a case; and a clone with final-state particles -/

/-- X⁻ → π⁻ π⁰. -/
def exHeap2 : Heap ℤ :=
  { verts := [⟨.prod, [], [0]⟩, ⟨.decay, [0], [1, 2]⟩]
    parts := [⟨"X-", -1, 0⟩, ⟨"pi-", -1, 5⟩, ⟨"pi0", -1, 3⟩] }

theorem ex_pointers : Pointers exHeap 0 [1, 2] := by
  intro v hv p hp
  have hv' : v = 0 ∨ v = 1 ∨ v = 2 := by simpa using hv
  rcases hv' with rfl | rfl | rfl <;> · simp [exHeap, Heap.vtx] at hp; simp [exHeap]; omega

/-- a case: the topology of `exHeap` is cloned. -/
theorem ex_clone : ∃ h' t h2 t2 σ τ, constructIsobarDecay exHeap 0 [1, 2] [2, 3, 4] true = .ok (h', t) ∧ clone h' t false false = .ok (h2, t2) ∧
    ∃ T, IsCopy h' t 0 T false h2 t2 σ τ := by
  obtain ⟨h', t, hc, hk⟩ := ex_accepted
  obtain ⟨T, h2, t2, σ, τ, _, c1, c2⟩ := clone_is_copy ex_input.1 ex_input.2 ex_pointers hc hk false
  exact ⟨h', t, h2, t2, σ, τ, hc, c1, T, c2⟩

/-- **a clone with final-state particles is broken**: the list of final-state particles of the copy still has the objects of the original, and the copy is no valid topology
although the original is. -/
theorem clone_fs_broken : ∃ h' t h2 t2, constructIsobarDecay exHeap2 0 [1] [1, 2] true = .ok (h', t) ∧ isobarCheck h' t = .ok true ∧
    clone h' t true false = .ok (h2, t2) ∧ t2.fsParts = t.fsParts ∧ (∀ p ∈ t2.fsParts, t2.isParticle p = false) ∧ isobarCheck h2 t2 = .ok false := by
  refine ⟨_, _, _, _, rfl, rfl, rfl, rfl, ?_, rfl⟩
  intro p hp
  have : p = 1 ∨ p = 2 := by
    revert hp
    show p ∈ [1, 2] → _
    simp
  rcases this with rfl | rfl <;> rfl

end Rpwa.Dec
