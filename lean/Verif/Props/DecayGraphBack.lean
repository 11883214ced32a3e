import Verif.Props.DecayGraphAccept
/-! # From a tree to the degrees of the graph (C70) -/
namespace Rpwa.Dec
variable {M : Type}

theorem heads_perm {vtx : ℕ → Vtx} {T : Tree} (hT : IsDecay vtx T) : (T.verts.map (fun v => (vtx v).ins.headD 0) ++ T.leaves).Perm T.parts := by
  induction hT with
  | leaf p => exact List.Perm.refl _
  | node v p l r outs hv ho _ _ ihl ihr =>
    simp only [Tree.verts, Tree.leaves, Tree.parts, List.map_cons, List.map_append, hv, List.headD_cons, List.cons_append]
    refine List.Perm.cons _ (List.Perm.trans ?_ (ihl.append ihr))
    rw [List.append_assoc, List.append_assoc]
    refine List.Perm.append_left _ ?_
    rw [← List.append_assoc, ← List.append_assoc]
    exact List.Perm.append_right _ List.perm_append_comm

theorem top_mem (T : Tree) : T.top ∈ T.parts := by cases T <;> simp [Tree.top, Tree.parts]

theorem daughter {vtx : ℕ → Vtx} {T : Tree} (hT : IsDecay vtx T) (q : ℕ) (hq : q ∈ T.parts) : q = T.top ∨ ∃ v ∈ T.verts, q ∈ (vtx v).outs := by
  induction hT with
  | leaf p => exact .inl (List.mem_singleton.1 hq)
  | node v p l r outs hv ho _ _ ihl ihr =>
    rcases List.mem_cons.1 hq with rfl | hq
    · exact .inl rfl
    · right
      rcases List.mem_append.1 hq with hq | hq
      · rcases ihl hq with rfl | ⟨u, hu, hm⟩
        · exact ⟨v, by simp [Tree.verts], by rw [hv]; rcases ho with rfl | rfl <;> simp⟩
        · exact ⟨u, by simp [Tree.verts, hu], hm⟩
      · rcases ihr hq with rfl | ⟨u, hu, hm⟩
        · exact ⟨v, by simp [Tree.verts], by rw [hv]; rcases ho with rfl | rfl <;> simp⟩
        · exact ⟨u, by simp [Tree.verts, hu], hm⟩

/-- what comes out of a vertex of the tree is in the tree, below what goes in. -/
theorem outs_mem {vtx : ℕ → Vtx} {T : Tree} (hT : IsDecay vtx T) (v : ℕ) (hv : v ∈ T.verts) : ∀ q ∈ (vtx v).outs, q ∈ T.parts ∧ (T.parts.Nodup → q ≠ T.top) := by
  induction hT with
  | leaf p => cases hv
  | node u p l r outs hu ho _ _ ihl ihr =>
    intro q hq
    have key : q ∈ l.parts ∨ q ∈ r.parts := by
      rcases List.mem_cons.1 hv with rfl | hv
      · rw [hu] at hq
        rcases ho with rfl | rfl <;> simp at hq <;> rcases hq with rfl | rfl <;> simp [top_mem]
      · rcases List.mem_append.1 hv with hv | hv
        · exact .inl (ihl hv q hq).1
        · exact .inr (ihr hv q hq).1
    refine ⟨by rcases key with h | h <;> simp [Tree.parts, h], fun hn hc => ?_⟩
    have h1 := (List.nodup_cons.1 hn).1
    have hc' : q = p := hc
    subst hc'
    exact h1 (by rcases key with h | h <;> simp [h])

section
variable {h : Heap M} {prod : ℕ} {decays fs : List ℕ} {T : Tree}

theorem heads_list (hi : Input h prod decays) (j : ℕ) (hj : j + 1 < (built h prod decays fs).nodes.length) :
    (decays.map (fun v => (h.vtx v).ins.headD 0) ++ fs)[j]? = some ((nodeVtx (withFs h fs) (built h prod decays fs) (j + 1)).ins.headD 0) := by
  have hlen := built_len (h := h) (prod := prod) (decays := decays) (fs := fs)
  by_cases hd : j < decays.length
  · rw [List.getElem?_append_left (by simpa using hd), List.getElem?_map]
    have hv := vertex_get hj
    rw [built_nodes, List.getElem?_append_left (by simp; omega), List.getElem?_cons_succ] at hv
    rw [hv]
    unfold nodeVtx
    rw [withFs_old h fs (hi.hdecays _ (List.mem_of_getElem? hv))]
    rfl
  · rw [List.getElem?_append_right (by simpa using hd)]
    have hk : j - decays.length < fs.length := by omega
    have := fs_node (fs := fs) hi hk
    rw [show 1 + decays.length + (j - decays.length) = j + 1 by omega] at this
    rw [this, List.length_map, List.getElem?_eq_getElem hk]
    rfl

theorem ctx_of_tree (hi : Input h prod decays) (hs : NoSharing h prod decays) (hT : IsTree h prod decays fs T) :
    Ctx (built h prod decays fs) (nodeVtx (withFs h fs) (built h prod decays fs)) (built h prod decays fs).nodes.length T.top := by
  have hlen := built_len (h := h) (prod := prod) (decays := decays) (fs := fs)
  have hpos : 0 < (built h prod decays fs).nodes.length := by omega
  have hmem := (built_inv (h := h) (prod := prod) (decays := decays) (fs := fs)).hedges
  have hL : (decays.map (fun v => (h.vtx v).ins.headD 0) ++ fs).Perm T.parts :=
    ((hT.hverts.symm.map _).append hT.hleaves.symm).trans (heads_perm hT.hdecay)
  have hLn := hL.symm.nodup hT.hparts
  have hins : ∀ i, i ≠ 0 → i < (built h prod decays fs).nodes.length → ∃ q, (nodeVtx (withFs h fs) (built h prod decays fs) i).ins = [q] ∧ q ∈ T.parts := by
    intro i h0 hn
    obtain ⟨j, rfl⟩ := Nat.exists_eq_succ_of_ne_zero h0
    have h1 := heads_list (fs := fs) hi j hn
    have h2 := hL.subset (List.mem_of_getElem? h1)
    rcases node_cases hi h0 hn with ⟨_, _, _, p, a, b, h3⟩ | ⟨k, hk, _, _, h3⟩
    · rw [show j.succ = j + 1 from rfl] at h3 ⊢
      rw [h3] at h2 ⊢
      exact ⟨_, rfl, h2⟩
    · rw [show j.succ = j + 1 from rfl] at h3 ⊢
      rw [h3] at h2 ⊢
      exact ⟨_, rfl, h2⟩
  have hinj : ∀ i j q, i ≠ 0 → j ≠ 0 → i < (built h prod decays fs).nodes.length → j < (built h prod decays fs).nodes.length →
      (nodeVtx (withFs h fs) (built h prod decays fs) i).ins = [q] → (nodeVtx (withFs h fs) (built h prod decays fs) j).ins = [q] → i = j := by
    intro i j q h0 h0' hn hn' hq hq'
    obtain ⟨i, rfl⟩ := Nat.exists_eq_succ_of_ne_zero h0
    obtain ⟨j, rfl⟩ := Nat.exists_eq_succ_of_ne_zero h0'
    have h1 := heads_list (fs := fs) hi i hn
    have h2 := heads_list (fs := fs) hi j hn'
    rw [hq] at h1
    rw [hq', ← h1] at h2
    have hil : i < (decays.map (fun v => (h.vtx v).ins.headD 0) ++ fs).length := by simp; omega
    have := (List.getElem?_inj hil hLn).1 h2.symm
    omega
  have hsur : ∀ q ∈ T.parts, ∃ j, j ≠ 0 ∧ j < (built h prod decays fs).nodes.length ∧ (nodeVtx (withFs h fs) (built h prod decays fs) j).ins = [q] := by
    intro q hq
    obtain ⟨j, hj, hjq⟩ := List.mem_iff_getElem.1 (hL.symm.subset hq)
    have hn : j + 1 < (built h prod decays fs).nodes.length := by simp at hj; omega
    refine ⟨j + 1, by omega, hn, ?_⟩
    have h1 := heads_list (fs := fs) hi j hn
    rw [List.getElem?_eq_getElem hj, hjq] at h1
    obtain ⟨q', hq', _⟩ := hins (j + 1) (by omega) hn
    rw [hq'] at h1 ⊢
    rw [Option.some.inj h1]
    rfl
  -- what comes out of a decay vertex
  have houts : ∀ i, i ≠ 0 → i < (built h prod decays fs).nodes.length → ∀ q ∈ (nodeVtx (withFs h fs) (built h prod decays fs) i).outs, q ∈ T.parts ∧ q ≠ T.top := by
    intro i h0 hn q hq
    rcases node_cases hi h0 hn with ⟨h1, _, h2, _⟩ | ⟨k, hk, _, _, h3⟩
    · rw [h2] at hq
      have := outs_mem hT.hdecay _ (hT.hverts.symm.subset h1) q hq
      exact ⟨this.1, this.2 hT.hparts⟩
    · rw [h3] at hq
      cases hq
  obtain ⟨rest, hrest⟩ : ∃ rest, (h.vtx prod).outs = T.top :: rest := by
    have := hT.hX
    cases ho : (h.vtx prod).outs with
    | nil => exact absurd ho hi.hout
    | cons a l => rw [ho] at this; cases this; exact ⟨l, rfl⟩
  have hnotin : ∀ p ∈ rest, p ∉ T.parts := fun p hp => hT.hrest p (List.mem_append_right _ (by rw [hrest]; exact hp))
  have hnoins : ∀ p ∈ (h.vtx prod).ins, p ∉ T.parts := fun p hp => hT.hrest p (List.mem_append_left _ hp)
  have hdst0 : ∀ e ∈ (built h prod decays fs).edges, e.dst ≠ 0 := by
    intro e he h0
    obtain ⟨h1, h2, h3, h4, h5⟩ := (hmem e).1 he
    have h4' : e.part ∈ (nodeVtx (withFs h fs) (built h prod decays fs) e.src).outs := h4
    have h5' : e.part ∈ (nodeVtx (withFs h fs) (built h prod decays fs) e.dst).ins := h5
    rw [h0, nodeVtx_zero hi] at h5'
    exact hnoins _ h5' (houts e.src (by omega) h1 _ h4').1
  have hednd := built_nodup (fs := fs) hi hs
  -- the edge of a particle that comes out of a vertex
  have hedge : ∀ i q, i < (built h prod decays fs).nodes.length → q ∈ (nodeVtx (withFs h fs) (built h prod decays fs) i).outs → q ∈ T.parts →
      ∃ j, j ≠ 0 ∧ (⟨i, j, q⟩ : Edge) ∈ (built h prod decays fs).edges ∧ ∀ e ∈ (built h prod decays fs).edges, e.part = q → e.dst = j := by
    intro i q hn hq hqT
    obtain ⟨j, j0, jn, jq⟩ := hsur q hqT
    have hij : i ≠ j := by
      rintro rfl
      rcases node_cases hi j0 jn with ⟨h1, _, h2, p, a, b, h3⟩ | ⟨k, hk, _, _, h3⟩
      · -- a particle that decays into itself
        have hab := hq
        have hpp := jq
        have hdec : ∀ {T : Tree}, IsDecay h.vtx T → T.parts.Nodup → ∀ v ∈ T.verts, ∀ q, (h.vtx v).ins = [q] → q ∉ (h.vtx v).outs := by
          intro T hT
          induction hT with
          | leaf p => intro _ v hv; cases hv
          | node u p l r outs hu ho _ _ ihl ihr =>
            intro hnd v hv q hq hqo
            have h5 := List.nodup_cons.1 hnd
            have h6 := List.nodup_append.1 h5.2
            rcases List.mem_cons.1 hv with rfl | hv
            · rw [hu] at hq hqo
              cases hq
              refine h5.1 ?_
              rcases ho with rfl | rfl <;> simp at hqo <;> rcases hqo with rfl | rfl <;> simp [top_mem]
            · rcases List.mem_append.1 hv with hv | hv
              · exact ihl h6.1 v hv q hq hqo
              · exact ihr h6.2.1 v hv q hq hqo
        rw [h2] at hab hpp
        exact hdec hT.hdecay hT.hparts _ (hT.hverts.symm.subset h1) q hpp hab
      · rw [h3] at hq
        cases hq
    refine ⟨j, j0, (hmem _).2 ⟨hn, jn, hij, hq, ?_⟩, ?_⟩
    · show q ∈ (nodeVtx (withFs h fs) (built h prod decays fs) j).ins
      rw [jq]
      simp
    · intro e he hep
      have h5 := (hmem e).1 he
      obtain ⟨q', hq', _⟩ := hins e.dst (hdst0 e he) h5.2.1
      have h6 : e.part ∈ (nodeVtx (withFs h fs) (built h prod decays fs) e.dst).ins := h5.2.2.2.2
      rw [hq', List.mem_singleton] at h6
      refine hinj _ _ q (hdst0 e he) j0 h5.2.1 jn ?_ jq
      rw [hq', ← h6, hep]
  have hX0 : T.top ∈ (nodeVtx (withFs h fs) (built h prod decays fs) 0).outs := by
    rw [nodeVtx_zero hi, hrest]
    simp
  have hinAll : ∀ i, i ≠ 0 → i < (built h prod decays fs).nodes.length → ∃ e ∈ (built h prod decays fs).edges, e.dst = i := by
    intro i h0 hn
    obtain ⟨q, hq, hqT⟩ := hins i h0 hn
    have fin : ∀ s, s < (built h prod decays fs).nodes.length → q ∈ (nodeVtx (withFs h fs) (built h prod decays fs) s).outs → ∃ e ∈ (built h prod decays fs).edges, e.dst = i := by
      intro s sn hqs
      obtain ⟨j, j0, hj, _⟩ := hedge s q sn hqs hqT
      have h5 := (hmem _).1 hj
      obtain ⟨q', hq', _⟩ := hins j j0 h5.2.1
      have h6 : q ∈ (nodeVtx (withFs h fs) (built h prod decays fs) j).ins := h5.2.2.2.2
      rw [hq', List.mem_singleton] at h6
      exact ⟨_, hj, hinj j i q j0 h0 h5.2.1 hn (by rw [hq', h6]) hq⟩
    rcases daughter hT.hdecay q hqT with rfl | ⟨v, hv, hqv⟩
    · exact fin 0 hpos hX0
    · have hvd := hT.hverts.subset hv
      obtain ⟨s, sn, rfl⟩ := mem_vertex (g := built h prod decays fs) (v := v) (by rw [built_nodes]; simp [hvd])
      refine fin s sn ?_
      show q ∈ ((withFs h fs).vtx ((built h prod decays fs).vertex s)).outs
      rw [withFs_old h fs (hi.hdecays _ hvd)]
      exact hqv
  have hreach0 : 0 ∈ (built h prod decays fs).dfs 0 := ((dfs_spec _ _).2.1 0).2 .refl
  have hreach : ∀ {S : Tree}, IsDecay h.vtx S → (∀ v ∈ S.verts, v ∈ decays) → (∀ q ∈ S.parts, q ∈ T.parts) →
      (∀ i, i ≠ 0 → i < (built h prod decays fs).nodes.length → (nodeVtx (withFs h fs) (built h prod decays fs) i).ins = [S.top] → i ∈ (built h prod decays fs).dfs 0) →
      ∀ q ∈ S.parts, ∀ i, i ≠ 0 → i < (built h prod decays fs).nodes.length → (nodeVtx (withFs h fs) (built h prod decays fs) i).ins = [q] → i ∈ (built h prod decays fs).dfs 0 := by
    intro S hS
    induction hS with
    | leaf p =>
      intro _ _ hr q hq
      rw [List.mem_singleton.1 hq]
      exact hr
    | node v p l r outs hv ho _ _ ihl ihr =>
      intro hvs hqs hr q hq
      rcases List.mem_cons.1 hq with rfl | hq
      · exact hr
      · have hvd := hvs v (by simp [Tree.verts])
        obtain ⟨s, sn, hsv⟩ := mem_vertex (g := built h prod decays fs) (v := v) (by rw [built_nodes]; simp [hvd])
        have hsV : nodeVtx (withFs h fs) (built h prod decays fs) s = ⟨.decay, [p], outs⟩ := by
          unfold nodeVtx
          rw [hsv, withFs_old h fs (hi.hdecays _ hvd), hv]
        have s0 : s ≠ 0 := by
          rintro rfl
          have hk := congrArg Vtx.kind hsV
          rw [nodeVtx_zero hi, hi.hkprod] at hk
          cases hk
        have hsr := hr s s0 sn (by rw [hsV]; rfl)
        have step : ∀ x, x ∈ outs → x ∈ T.parts → ∀ i, i ≠ 0 → i < (built h prod decays fs).nodes.length →
            (nodeVtx (withFs h fs) (built h prod decays fs) i).ins = [x] → i ∈ (built h prod decays fs).dfs 0 := by
          intro x hx hxT i i0 hn hix
          obtain ⟨j, j0, hj, _⟩ := hedge s x sn (by rw [hsV]; exact hx) hxT
          have h5 := (hmem _).1 hj
          obtain ⟨q', hq', _⟩ := hins j j0 h5.2.1
          have h6 : x ∈ (nodeVtx (withFs h fs) (built h prod decays fs) j).ins := h5.2.2.2.2
          rw [hq', List.mem_singleton] at h6
          have : j = i := hinj j i x j0 i0 h5.2.1 hn (by rw [hq', h6]) hix
          rw [← this]
          exact dfs_closed _ hj hsr
        rcases List.mem_append.1 hq with hq | hq
        · refine ihl (fun u hu => hvs u (by simp [Tree.verts, hu])) (fun x hx => hqs x (by simp [Tree.parts, hx])) ?_ q hq
          exact step l.top (by rcases ho with rfl | rfl <;> simp) (hqs _ (by simp [Tree.parts, top_mem]))
        · refine ihr (fun u hu => hvs u (by simp [Tree.verts, hu])) (fun x hx => hqs x (by simp [Tree.parts, hx])) ?_ q hq
          exact step r.top (by rcases ho with rfl | rfl <;> simp) (hqs _ (by simp [Tree.parts, top_mem]))
  have hXedge := hedge 0 T.top hpos hX0 (top_mem T)
  exact
    { hmem := hmem
      hshare := share_node hi hs
      hnode := by
        intro i h0 hn
        rcases node_cases hi h0 hn with ⟨h1, _, h2, p, a, b, h3⟩ | ⟨k, hk, _, _, h2⟩
        · have hab : a ≠ b := by
            have h4 := (List.nodup_flatMap.1 hs).1 _ (List.mem_cons_of_mem _ h1)
            rw [← h2, h3] at h4
            simpa using h4
          refine ⟨p, .inr ⟨a, b, h3, hab, ?_⟩⟩
          have ha : a ∈ (nodeVtx (withFs h fs) (built h prod decays fs) i).outs := by rw [h3]; simp
          have hb : b ∈ (nodeVtx (withFs h fs) (built h prod decays fs) i).outs := by rw [h3]; simp
          obtain ⟨j, j0, hj, hju⟩ := hedge i a hn ha (houts i h0 hn a ha).1
          obtain ⟨k, k0, hk, hku⟩ := hedge i b hn hb (houts i h0 hn b hb).1
          have hperm : ((built h prod decays fs).edges.filter fun e => e.src = i).Perm [⟨i, j, a⟩, ⟨i, k, b⟩] := by
            rw [List.perm_ext_iff_of_nodup (hednd.filter _) (by simp [hab])]
            intro e
            rw [List.mem_filter]
            constructor
            · rintro ⟨he, hes⟩
              have hes := of_decide_eq_true hes
              have h5 : e.part ∈ (nodeVtx (withFs h fs) (built h prod decays fs) e.src).outs := ((hmem e).1 he).2.2.2.1
              rw [hes, h3] at h5
              simp only [List.mem_cons, List.not_mem_nil, or_false] at h5 ⊢
              obtain ⟨es, ed, ep⟩ := e
              dsimp only at hes h5
              subst hes
              rcases h5 with rfl | rfl
              · have h6 := hju _ he rfl
                dsimp only at h6
                rw [h6]
                exact .inl rfl
              · have h6 := hku _ he rfl
                dsimp only at h6
                rw [h6]
                exact .inr rfl
            · intro he
              simp only [List.mem_cons, List.not_mem_nil, or_false] at he
              rcases he with rfl | rfl
              · exact ⟨hj, by simp⟩
              · exact ⟨hk, by simp⟩
          unfold Graph.outDeg
          rw [hperm.length_eq]
          rfl
        · exact ⟨_, .inl h2⟩
      hroot := by
        obtain ⟨j, j0, hj, hju⟩ := hXedge
        have hperm : ((built h prod decays fs).edges.filter fun e => e.src = 0).Perm [⟨0, j, T.top⟩] := by
          rw [List.perm_ext_iff_of_nodup (hednd.filter _) (by simp)]
          intro e
          rw [List.mem_filter, List.mem_singleton]
          constructor
          · rintro ⟨he, hes⟩
            have hes := of_decide_eq_true hes
            have h4 := (hmem e).1 he
            have h5 : e.part ∈ (nodeVtx (withFs h fs) (built h prod decays fs) e.src).outs := h4.2.2.2.1
            rw [hes, nodeVtx_zero hi, hrest] at h5
            obtain ⟨es, ed, ep⟩ := e
            dsimp only at hes h5
            subst hes
            rcases List.mem_cons.1 h5 with rfl | h5
            · have h6 := hju _ he rfl
              dsimp only at h6
              rw [h6]
            · exfalso
              obtain ⟨q, hq, hqT⟩ := hins ed (hdst0 _ he) h4.2.1
              have h6 : ep ∈ (nodeVtx (withFs h fs) (built h prod decays fs) ed).ins := h4.2.2.2.2
              rw [hq, List.mem_singleton] at h6
              exact hnotin _ h5 (h6 ▸ hqT)
          · rintro rfl
            exact ⟨hj, by simp⟩
        unfold Graph.outDeg
        rw [hperm.length_eq]
        rfl
      hrootIn := by
        unfold Graph.inDeg
        rw [List.length_eq_zero_iff, List.filter_eq_nil_iff]
        intro e he hc
        exact hdst0 e he (of_decide_eq_true hc)
      hX := ⟨hX0, by
        obtain ⟨j, _, hj, _⟩ := hXedge
        exact ⟨_, hj, rfl⟩⟩
      hpos := hpos
      hin := hinAll
      hout := by
        intro i h0 hn p hp
        obtain ⟨j, _, hj, _⟩ := hedge i p hn hp (houts i h0 hn p hp).1
        exact ⟨_, hj, rfl⟩
      hreach := by
        intro i hn
        by_cases h0 : i = 0
        · rw [h0]; exact hreach0
        · obtain ⟨q, hq, hqT⟩ := hins i h0 hn
          refine hreach hT.hdecay (fun v hv => hT.hverts.subset hv) (fun _ h => h) ?_ q hqT i h0 hn hq
          intro i h0 hn hix
          obtain ⟨j, j0, hj, _⟩ := hXedge
          have h5 := (hmem _).1 hj
          obtain ⟨q', hq', _⟩ := hins j j0 h5.2.1
          have h6 : T.top ∈ (nodeVtx (withFs h fs) (built h prod decays fs) j).ins := h5.2.2.2.2
          rw [hq', List.mem_singleton] at h6
          rw [← hinj j i T.top j0 h0 h5.2.1 hn (by rw [hq', h6]) hix]
          exact dfs_closed _ hj hreach0 }
end
end Rpwa.Dec
