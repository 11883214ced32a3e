import Verif.Props.DecayGraphCheck
import Mathlib.Data.List.Sort
/-! # The check of a topology and the degrees of its graph (C70) -/
namespace Rpwa.Dec
variable {M : Type} [Inhabited M]

theorem allO_true : ∀ xs : List (Outcome Bool), allO xs = .ok true ↔ ∀ x ∈ xs, x = .ok true
  | [] => by simp [allO]
  | x :: xs => by
    unfold allO
    have ih := allO_true xs
    rw [List.forall_mem_cons, ← ih]
    cases x with
    | ok a =>
      cases hb : allO xs with
      | ok b => cases a <;> cases b <;> simp [Outcome.bind]
      | terminate => simp [Outcome.bind]
      | ub => simp [Outcome.bind]
    | terminate => simp [Outcome.bind]
    | ub => simp [Outcome.bind]

section
variable {h : Heap M} {prod : ℕ} {decays fs : List ℕ}

omit [Inhabited M] in
theorem node_prod (hi : Input h prod decays) (hs : NoSharing h prod decays) : (built h prod decays fs).node prod = .ok 0 := by
  have := node_ok (built_vinv (fs := fs) hi hs) (i := 0) (by rw [built_len]; omega)
  rwa [vertex_zero] at this

/-- the topology that `constructDecay` makes. -/
def made (h : Heap M) (prod : ℕ) (decays fs : List ℕ) : Topo :=
  sortDecay (withFs h fs) (built h prod decays fs) prod decays fs ((built h prod decays fs).dfs 0)

theorem construct_iff (hi : Input h prod decays) (hs : NoSharing h prod decays) (r : Heap M × Topo) :
    constructIsobarDecay h prod decays fs true = .ok r ↔
      fs ≠ [] ∧ decays ≠ [] ∧ r = (withFs h fs, made h prod decays fs) ∧ checkTopology (withFs h fs) (made h prod decays fs) = .ok true ∧
      (made h prod decays fs).decays.length = decays.length := by
  unfold constructIsobarDecay constructDecay
  by_cases h1 : fs = []
  · subst h1
    simp [Outcome.bind]
  rw [if_neg (by have := List.length_pos_of_ne_nil h1; omega)]
  by_cases h2 : decays = []
  · subst h2
    simp [Outcome.bind]
  rw [if_neg (by have := List.length_pos_of_ne_nil h2; omega)]
  have hn := node_prod (fs := fs) hi hs
  unfold built at hn
  dsimp only
  rw [hn]
  show (Outcome.bind (if true = true then (checkTopology (withFs h fs) (made h prod decays fs)).bind
    (fun ok => if ok = true then Outcome.ok (withFs h fs, made h prod decays fs) else Outcome.terminate) else Outcome.ok (withFs h fs, made h prod decays fs)) _) = _ ↔ _
  rw [if_pos rfl]
  cases hc : checkTopology (withFs h fs) (made h prod decays fs) with
  | ok b =>
    cases b with
    | false => simp [Outcome.bind]
    | true =>
      by_cases hl : (made h prod decays fs).decays.length = decays.length
      · simp [Outcome.bind, hl, h1, h2, eq_comm]
      · simp [Outcome.bind, hl]
  | terminate => simp [Outcome.bind]
  | ub => simp [Outcome.bind]

theorem check_parts {h' : Heap M} {t : Topo} (hc : isobarCheck h' t = .ok true) :
    danglingOk h' t = true ∧ prodOk t = .ok true ∧ reachOk t = .ok true ∧ (∀ v ∈ t.decays, decayOk t v = .ok true) ∧ (∀ p ∈ t.fsParts, fsOk h' t p = .ok true) ∧
      edgesOk h' t = true ∧ indicesOk h' t = true ∧ ∀ v ∈ t.decays, isobarOk t v = .ok true := by
  unfold isobarCheck at hc
  rw [allO_true, List.forall_mem_cons] at hc
  obtain ⟨h1, h2⟩ := hc
  unfold checkTopology at h1
  rw [allO_true] at h1
  have inj : ∀ {a b : Bool}, (Outcome.ok a = Outcome.ok b) → a = b := fun hh => by cases hh; rfl
  refine ⟨inj (h1 _ (by simp)), h1 _ (by simp), h1 _ (by simp), fun v hv => h1 _ ?_, fun p hp => h1 _ ?_, inj (h1 _ (by simp)), inj (h1 _ (by simp)), fun v hv => h2 _ ?_⟩
  · simp only [List.mem_append, List.mem_map]
    exact .inl (.inl (.inr ⟨v, hv, rfl⟩))
  · simp only [List.mem_append, List.mem_map]
    exact .inl (.inr ⟨p, hp, rfl⟩)
  · exact List.mem_map.2 ⟨v, hv, rfl⟩

omit [Inhabited M] in
theorem isEdge_edge (p : ℕ) (he : (built h prod decays fs).isEdge p = true) : ∃ e ∈ (built h prod decays fs).edges, e.part = p := by
  unfold Graph.isEdge at he
  obtain ⟨⟨a, b⟩, hp⟩ := Option.isSome_iff_exists.1 he
  exact ⟨_, built_inv.hpmap p a b hp, rfl⟩

omit [Inhabited M] in
theorem dfs_lt (i j : ℕ) (hi : i < (built h prod decays fs).nodes.length) (hj : j ∈ (built h prod decays fs).dfs i) : j < (built h prod decays fs).nodes.length := by
  have := ((dfs_spec (built h prod decays fs) i).2.1 j).1 hj
  induction this with
  | refl => exact hi
  | step u w hu hw ih =>
    unfold Graph.succ at hw
    obtain ⟨e, he, rfl⟩ := List.mem_map.1 hw
    exact ((built_inv.hedges e).1 (List.mem_filter.1 he).1).2.1

omit [Inhabited M] in
theorem dfs_closed (g : Graph) {e : Edge} (he : e ∈ g.edges) {s : ℕ} (hs : e.src ∈ g.dfs s) : e.dst ∈ g.dfs s := by
  rw [(dfs_spec g s).2.1] at hs ⊢
  refine .step _ _ hs ?_
  unfold Graph.succ
  exact List.mem_map.2 ⟨e, List.mem_filter.2 ⟨he, by simp⟩, rfl⟩

theorem ctx_of_check (hi : Input h prod decays) (hs : NoSharing h prod decays) (hc : isobarCheck (withFs h fs) (made h prod decays fs) = .ok true)
    (hl : (made h prod decays fs).decays.length = decays.length) :
    Ctx (built h prod decays fs) (nodeVtx (withFs h fs) (built h prod decays fs)) (built h prod decays fs).nodes.length ((h.vtx prod).outs.headD 0) := by
  obtain ⟨hd, hp, hr, _, _, _, _, hiso⟩ := check_parts hc
  have hv := built_vinv (fs := fs) hi hs
  have hpos : 0 < (built h prod decays fs).nodes.length := by rw [built_len]; omega
  have hlen := built_len (h := h) (prod := prod) (decays := decays) (fs := fs)
  have hsub : ∀ v ∈ (made h prod decays fs).decays, v ∈ decays := fun v hv => (of_decide_eq_true (List.mem_filter.1 hv).2).2.2
  have hdnd : (made h prod decays fs).decays.Nodup := by
    refine List.Nodup.filter _ (List.Nodup.map_on ?_ (dfs_spec _ _).1)
    intro x hx y hy hxy
    exact vertex_inj hv (dfs_lt 0 x hpos hx) (dfs_lt 0 y hpos hy) hxy
  have hdperm : ∀ v ∈ decays, v ∈ (made h prod decays fs).decays := by
    have := (List.subperm_of_subset hdnd hsub).perm_of_length_le (le_of_eq hl.symm)
    exact fun v hv => this.symm.subset hv
  have hprodnot : prod ∉ decays := (List.nodup_cons.1 (decays_nodup hi hs)).1
  -- the production vertex
  have hprod : (made h prod decays fs).prod = some prod := rfl
  unfold prodOk at hp
  rw [hprod] at hp
  dsimp only at hp
  have hnp : (made h prod decays fs).node prod = .ok 0 := node_prod hi hs
  rw [hnp] at hp
  have hp' := Outcome.ok.inj hp
  rw [Bool.and_eq_true, Bool.and_eq_true] at hp'
  have hout0 : (built h prod decays fs).outDeg 0 = 1 := of_decide_eq_true hp'.2.1
  have hin0 : (built h prod decays fs).inDeg 0 = 0 := of_decide_eq_true hp'.2.2
  -- no dangling particles
  unfold danglingOk at hd
  rw [List.all_eq_true] at hd
  have hnodes : ∀ i, i < (built h prod decays fs).nodes.length → (built h prod decays fs).vertex i ∈ (made h prod decays fs).nodes := fun i hi => vertex_mem hi
  have hX : ∃ e ∈ (built h prod decays fs).edges, e.part = (h.vtx prod).outs.headD 0 := by
    have h1 := hd prod (by have := hnodes 0 hpos; rwa [vertex_zero] at this)
    have h2 : (made h prod decays fs).isProd prod = true := by
      unfold Topo.isProd
      rw [hprod]
      have := hnodes 0 hpos
      rw [vertex_zero] at this
      simp [this]
    rw [if_pos h2, withFs_old h fs hi.hprod] at h1
    exact isEdge_edge _ h1
  have hnot : ∀ i, i ≠ 0 → i < (built h prod decays fs).nodes.length → (made h prod decays fs).isProd ((built h prod decays fs).vertex i) = false := by
    intro i h0 hn
    unfold Topo.isProd
    rw [hprod]
    have : ¬ prod = (built h prod decays fs).vertex i := by
      intro hc
      rw [← vertex_zero (h := h) (prod := prod) (decays := decays) (fs := fs)] at hc
      have h3 : (built h ((built h prod decays fs).vertex 0) decays fs).vertex i = (built h prod decays fs).vertex i := by rw [vertex_zero]
      rw [h3] at hc
      exact h0 (vertex_inj hv hpos hn hc).symm
    simp [this]
  have hdang : ∀ i, i ≠ 0 → i < (built h prod decays fs).nodes.length → ∀ p, p ∈ (nodeVtx (withFs h fs) (built h prod decays fs) i).ins ∨
      p ∈ (nodeVtx (withFs h fs) (built h prod decays fs) i).outs → ∃ e ∈ (built h prod decays fs).edges, e.part = p := by
    intro i h0 hn p hp
    have h1 := hd _ (hnodes i hn)
    rw [hnot i h0 hn, if_neg (by simp), Bool.and_eq_true, List.all_eq_true, List.all_eq_true] at h1
    rcases hp with hp | hp
    · exact isEdge_edge p (h1.1 p hp)
    · exact isEdge_edge p (h1.2 p hp)
  have hmem := (built_inv (h := h) (prod := prod) (decays := decays) (fs := fs)).hedges
  have hisoi : ∀ i, i < (built h prod decays fs).nodes.length → (built h prod decays fs).vertex i ∈ decays →
      (built h prod decays fs).inDeg i = 1 ∧ (built h prod decays fs).outDeg i = 2 := by
    intro i hn hm
    have h1 := hiso _ (hdperm _ hm)
    unfold isobarOk at h1
    have h2 : (made h prod decays fs).node ((built h prod decays fs).vertex i) = .ok i := node_ok hv hn
    rw [h2] at h1
    have h3 := Outcome.ok.inj h1
    rw [Bool.and_eq_true] at h3
    exact ⟨of_decide_eq_true h3.1, of_decide_eq_true h3.2⟩
  have hin : ∀ i, i ≠ 0 → i < (built h prod decays fs).nodes.length → ∃ e ∈ (built h prod decays fs).edges, e.dst = i := by
    intro i h0 hn
    rcases node_cases hi h0 hn with ⟨h1, _, h2, _, _, _, h3⟩ | ⟨k, hk, _, _, h2⟩
    · have h4 := (hisoi i hn h1).1
      unfold Graph.inDeg at h4
      obtain ⟨e, he⟩ := List.exists_mem_of_length_pos (l := (built h prod decays fs).edges.filter fun e => e.dst = i) (by omega)
      exact ⟨e, (List.mem_filter.1 he).1, of_decide_eq_true (List.mem_filter.1 he).2⟩
    · obtain ⟨e, he, hep⟩ := hdang i h0 hn fs[k] (.inl (by rw [h2]; simp))
      have h5 := (hmem e).1 he
      refine ⟨⟨e.src, i, e.part⟩, (hmem _).2 ⟨h5.1, hn, ?_, h5.2.2.2.1, ?_⟩, rfl⟩
      · intro hc
        have h6 : e.part ∈ (nodeVtx (withFs h fs) (built h prod decays fs) e.src).outs := h5.2.2.2.1
        rw [show e.src = i from hc, h2] at h6
        cases h6
      · show e.part ∈ (nodeVtx (withFs h fs) (built h prod decays fs) i).ins
        rw [h2, hep]
        simp
  have hreachD : ∀ i, i < (built h prod decays fs).nodes.length → (built h prod decays fs).vertex i ∈ decays → i ∈ (built h prod decays fs).dfs 0 := by
    intro i hn hm
    have h1 := (List.mem_filter.1 (hdperm _ hm)).1
    obtain ⟨j, hj, hji⟩ := List.mem_map.1 h1
    rwa [← vertex_inj hv (dfs_lt 0 j hpos hj) hn hji]
  have hreach0 : 0 ∈ (built h prod decays fs).dfs 0 := ((dfs_spec _ _).2.1 0).2 .refl
  have hXmem : (h.vtx prod).outs.headD 0 ∈ (h.vtx prod).outs := by
    cases ho : (h.vtx prod).outs with
    | nil => exact absurd ho hi.hout
    | cons a l => simp
  exact
    { hmem := hmem
      hshare := share_node hi hs
      hnode := by
        intro i h0 hn
        rcases node_cases hi h0 hn with ⟨h1, _, h2, p, a, b, h3⟩ | ⟨k, hk, _, _, h2⟩
        · refine ⟨p, .inr ⟨a, b, h3, ?_, (hisoi i hn h1).2⟩⟩
          have h4 := (List.nodup_flatMap.1 hs).1 _ (List.mem_cons_of_mem _ h1)
          rw [← h2, h3] at h4
          simpa using h4
        · exact ⟨_, .inl h2⟩
      hroot := hout0
      hrootIn := hin0
      hX := ⟨by rw [nodeVtx_zero hi]; exact hXmem, hX⟩
      hpos := hpos
      hin := hin
      hout := fun i h0 hn p hp => hdang i h0 hn p (.inr hp)
      hreach := by
        intro i hn
        by_cases h0 : i = 0
        · rw [h0]; exact hreach0
        · rcases node_cases hi h0 hn with ⟨h1, _⟩ | ⟨k, hk, _, _, h2⟩
          · exact hreachD i hn h1
          · obtain ⟨e, he, hed⟩ := hin i h0 hn
            have h5 := (hmem e).1 he
            rw [← hed]
            refine dfs_closed _ he ?_
            by_cases hs0 : e.src = 0
            · rw [hs0]; exact hreach0
            · rcases node_cases hi hs0 h5.1 with ⟨h1, _⟩ | ⟨k', hk', _, _, h2'⟩
              · exact hreachD _ h5.1 h1
              · have h6 : e.part ∈ (nodeVtx (withFs h fs) (built h prod decays fs) e.src).outs := h5.2.2.2.1
                rw [h2'] at h6
                cases h6 }

end
end Rpwa.Dec
