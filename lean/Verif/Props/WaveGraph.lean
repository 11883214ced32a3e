import Verif.Props.WaveGraphProd
import Verif.Props.DecayGraphSubMain
/-! # C74: the topologies of the waves -/
namespace Rpwa.Dec
variable {M : Type} [Inhabited M]

omit [Inhabited M] in
theorem mapM_all_ok {α β : Type} (F : α → Outcome β) (G : α → β) (l : List α) (h : ∀ x ∈ l, F x = .ok (G x)) : l.mapM F = .ok (l.map G) := by
  induction l with
  | nil => rfl
  | cons x l ih =>
    rw [List.forall_mem_cons] at h
    rw [List.mapM_cons, h.1, ih h.2]
    rfl

omit [Inhabited M] in
theorem zip_self {α β : Type} (l : List α) (G : α → β) : l.zip (l.map G) = l.map fun x => (x, G x) := by
  induction l with
  | nil => rfl
  | cons x l ih => rw [List.map_cons, List.zip_cons_cons, ih]; rfl

section
variable {h : Heap M} {prod : ℕ} {decays fs : List ℕ}

/-- the template as a graph. -/
theorem template (hi : Input h prod decays) (hs : NoSharing h prod decays) (hp : Pointers h prod decays) {h' : Heap M} {t : Topo}
    (hc : constructIsobarDecay h prod decays fs true = .ok (h', t)) (hk : isobarCheck h' t = .ok true) :
    ∃ T f, IsTree h prod decays fs T ∧ t.decays = T.verts ∧ t.fsParts = T.leaves ∧ t.prod = some prod ∧ T.verts ≠ [] ∧ VInv t.toGraph ∧ (∀ q ∈ T.parts, f q < t.nodes.length) ∧
      Tmpl h' t.toGraph f T ∧ h'.parts = h.parts ∧ (∀ v ∈ prod :: decays, v < h'.verts.length ∧ h'.vtx v = h.vtx v) := by
  obtain ⟨_, hne, hr, _, hl⟩ := (construct_iff hi hs _).1 hc
  cases hr
  have hX : (h.vtx prod).outs.head? = some ((h.vtx prod).outs.headD 0) := by
    cases ho : (h.vtx prod).outs with
    | nil => exact absurd ho hi.hout
    | cons a l => rfl
  have c := ctx_of_check hi hs hk hl
  have hV := built_vinv (fs := fs) hi hs
  obtain ⟨T, hT, hd, hf, hnt, hE0, hEn⟩ := tree_of_ctx_nt hi hs hX c
  have P := c.nt_parts hnt hE0 hEn
  have eT : Ends (withFs h fs).vtx (fun q => (built h prod decays fs).vertex ((built h prod decays fs).ends q)) T := nt_ends c (fun i _ => rfl) hnt hE0 hEn
  have G := good_made hi hs hp hT
  refine ⟨T, (built h prod decays fs).ends, hT, hd, hf, rfl, ?_, hV, fun q hq => (P q hq).1.2.1, ⟨?_, hT.hparts, ?_, ?_, ?_, eT, c.nt_subs hnt hE0 hEn⟩, rfl, ?_⟩
  · intro hc
    have := hT.hverts
    rw [hc] at this
    exact hne (List.nil_perm.1 this)
  · intro p hp q hq hpq
    have h1 := (P p hp).1.2.2
    rw [hpq, (P q hq).1.2.2] at h1
    exact (List.head_eq_of_cons_eq h1).symm
  · intro p hpp
    exact G.hplt _ (vertex_mem (P p hpp).1.2.1) p (.inl (by rw [show ((withFs h fs).vtx ((made h prod decays fs).toGraph.vertex ((built h prod decays fs).ends p))).ins = [p] from eT.ins hpp]; simp))
  · intro p hpp
    exact G.hlt _ (vertex_mem (P p hpp).1.2.1)
  · intro p hpp
    exact vertex_mem (P p hpp).1.2.1
  · intro v hv
    have hlt : v < h.verts.length := by
      rcases List.mem_cons.1 hv with rfl | hv
      · exact hi.hprod
      · exact hi.hdecays v hv
    refine ⟨?_, withFs_old h fs hlt⟩
    have : (withFs h fs).verts.length = h.verts.length + fs.length := by simp [withFs]
    omega

theorem Tmpl.dfs {H : Heap M} {g : Graph} {f : ℕ → ℕ} {T : Tree} (c : Tmpl H g f T) : g.dfs (f T.top) = T.parts.map f := by
  refine (dfs_runs g _).det ?_
  have h1 := runs_tree (succ := g.succ) (f := f) T [] [] (T.parts.map f) c.hsucc (by rw [List.nil_append]; exact List.Nodup.map_on (fun x hx y hy => c.hinj x hx y hy) c.hnd)
    (by rw [List.nil_append]; exact .done _)
  exact h1

/-- `subDecay` from every node of the template. -/
theorem Tmpl.subs {H : Heap M} {g : Graph} {f : ℕ → ℕ} {T : Tree} (c : Tmpl H g f T) :
    ∃ sub : ℕ → Topo, (∀ q ∈ T.parts, subDecay H g (f q) = .ok (sub (f q))) ∧ ∀ p, Tree.leaf p ∈ T.subs → Whole H (sub (f p)) (.leaf p) := by
  refine ⟨fun n => match subDecay H g n with | .ok x => x | _ => { Graph.empty with prod := none, decays := [], fsParts := [] }, ?_, ?_⟩
  · intro q hq
    obtain ⟨R, hR, rfl⟩ := top_of T q hq
    have cR := c.sub hR
    have : ∃ x, subDecay H g (f R.top) = .ok x := by
      cases R with
      | leaf p =>
        obtain ⟨x, hx, _⟩ := sub_leaf (c.hsucc _ hR) (c.hends.hleaf p hR)
        exact ⟨x, hx⟩
      | node v p l r =>
        refine ⟨{ grown H (fun q => g.vertex (f q)) (.node v p l r) with prod := none, decays := (Tree.node v p l r).verts, fsParts := (Tree.node v p l r).leaves }, ?_⟩
        · unfold subDecay
          rw [cR.dfs, List.map_map]
          exact grown_data cR.hends cR.hnd rfl
    obtain ⟨x, hx⟩ := this
    dsimp only
    rw [hx]
  · intro p hp
    obtain ⟨x, hx, o, h1, h2, h3, h4⟩ := sub_leaf (c.hsucc _ hp) (c.hends.hleaf p hp)
    have hpp : p ∈ T.parts := sub_top_mem T _ hp
    have hx : subDecay H g (f p) = .ok x := hx
    dsimp only
    rw [hx]
    dsimp only
    refine ⟨o, h1, h2, h3, ?_, ?_⟩
    · intro v hv
      rw [h4, List.mem_singleton] at hv
      rw [hv]
      exact c.hvlt p hpp
    · intro q hq
      rw [List.mem_singleton.1 hq]
      exact c.hlt p hpp

/-- **the topologies of the waves**: from a template topology that was accepted and whatever isobars are tried, the generator makes waves (it neither ends the program nor reads invalid
memory). Every wave is a valid topology with the tree and the final-state particles of the template, isobars that were chosen for their vertex, and a production vertex like that of the
template. No two waves share a vertex, an isobar or a production vertex, and none has a vertex or isobar of the template: the template is as before. If for each pair of daughter decays
there are `k v` topologies at the vertex `v` of the template, the number of waves is the product. -/
theorem waves (hi : Input h prod decays) (hs : NoSharing h prod decays) (hp : Pointers h prod decays) {h' : Heap M} {t : Topo}
    (hc : constructIsobarDecay h prod decays fs true = .ok (h', t)) (hk : isobarCheck h' t = .ok true) (choose : Choose M) :
    ∃ T, IsTree h prod decays fs T ∧ t.decays = T.verts ∧ t.fsParts = T.leaves ∧ ∃ h2 W, genWaves choose h' t = .ok (h2, W) ∧ Ext h' h2 ∧
      (∀ w ∈ W, ∃ S, IsWave choose h' t prod T h2 w S) ∧ (W.map Topo.decays).Pairwise (Apart h2) ∧ (W.map Topo.prod).Nodup ∧
      ∀ k : ℕ → ℕ, (∀ (m : Heap M) (n : ℕ) (a b : Topo), ((choose m n a b).map Choice.size).sum = k (t.vertex n)) → W.length = T.count k := by
  obtain ⟨T, f, hT, hd, hf, hpr, hN, hV, hflt, c, hparts, hold⟩ := template hi hs hp hc hk
  refine ⟨T, hT, hd, hf, ?_⟩
  obtain ⟨sub, hsub, hleaf⟩ := c.subs
  -- the X decay vertex
  obtain ⟨x, p, l, r, hTn⟩ : ∃ x p l r, T = .node x p l r := by
    cases T with
    | leaf p => exact absurd rfl hN
    | node v p l r => exact ⟨v, p, l, r, rfl⟩
  have hnodeOf : ∀ v p l r, Tree.node v p l r ∈ T.subs → t.node v = .ok (f p) := by
    intro v p l r hm
    have h1 : t.vertex (f p) = v := (c.hends.hnode v p l r hm).1
    have := node_ok hV (hflt p (sub_top_mem T _ hm))
    rwa [h1] at this
  have htop : T.top = p := by rw [hTn]; rfl
  have hx : t.node x = .ok (f p) := hnodeOf x p l r (hTn ▸ self_sub _)
  have hdfs : t.dfs (f p) = T.parts.map f := by rw [← htop]; exact c.dfs
  have hmap : (T.parts.map f).mapM (subDecay h' t.toGraph) = .ok ((T.parts.map f).map sub) := by
    refine mapM_all_ok _ _ _ fun n hn => ?_
    obtain ⟨q, hq, rfl⟩ := List.mem_map.1 hn
    exact hsub q hq
  have hzip : (T.parts.map f).zip ((T.parts.map f).map sub) = T.parts.map fun q => (f q, sub (f q)) := by rw [zip_self, List.map_map]; rfl
  obtain ⟨h1, D, g1, g2, _, g4, g5⟩ := grow (choose := choose) (sub := sub) (C := Chosen choose h' t) T c
    (fun v p l r hm k a b c hc => ⟨f p, hnodeOf v p l r hm, k, a, b, c, hc, rfl⟩) hleaf h' (fun _ => []) (Ext.refl h') fun _ _ => rfl
  -- the production vertex
  obtain ⟨hpl, hpv⟩ := hold prod List.mem_cons_self
  have hnd : (h'.vtx prod).outs.Nodup := by
    rw [hpv]
    have := hs
    unfold NoSharing at this
    rw [List.flatMap_cons] at this
    exact (List.nodup_append.1 this).1
  obtain ⟨h2, W, p1, p2, p3, p4, p5⟩ := withProductions (C := Chosen choose h' t) (H := h') (prod := prod) (T := T) hpl (by rw [hpv]; exact hi.hout) hnd (by rw [hpv]; exact hi.hins)
    (by rw [hpv]; exact hi.hbeam) (by
      intro q hq
      rw [hpv] at hq
      refine ⟨?_, fun hc => hT.hrest q hq ((leaves_sub T).subset hc)⟩
      rw [hparts]
      refine hp prod List.mem_cons_self q ?_
      rcases List.mem_append.1 hq with hq | hq
      · exact .inl hq
      · exact .inr (List.mem_of_mem_tail hq)) hN (D (f T.top)) h1 [] g2 g4.hall (fun w hw => (List.not_mem_nil hw).elim) List.nodup_nil
  rw [List.nil_append] at p1 p3 p4
  refine ⟨h2, W, ?_, g2.trans p2, ?_, ?_, p4, ?_⟩
  · unfold genWaves
    rw [hk]
    unfold Outcome.bind
    dsimp only
    rw [if_neg (by simp), hpr, hd, hTn]
    show (t.node x).bind _ = _
    rw [hx]
    show ((t.dfs (f p)).mapM (subDecay h' t.toGraph)).bind _ = _
    rw [hdfs, hmap]
    show (((T.parts.map f).zip ((T.parts.map f).map sub)).reverse.foldlM (atNode choose t.toGraph) (h', fun _ => [])).bind _ = _
    rw [hzip, g1]
    show (D (f p)).foldlM (withProduction prod) (h1, []) = _
    rw [← htop]
    exact p1
  · intro w hw
    obtain ⟨v, S, q1, q2⟩ := p3 w hw
    obtain ⟨u, rt⟩ := q2.rooted
    refine ⟨S, q2.filled.like, q2.filled, rt.decay, rt.hnd, q2.own, q2.hdecays, by rw [q2.hfs, q2.filled.like.leaves], ⟨v, q1, q2.hnew, q2.hprod⟩, ?_⟩
    rw [rt.check]
    obtain ⟨_, _, _, _, _, _, hix, _⟩ := check_parts hk
    have hpe : ∀ q ∈ t.fsParts, h2.part q = h'.part q := by
      intro q hq
      rw [hf] at hq
      exact (g2.trans p2).hpart q (c.hlt q ((leaves_sub T).subset hq))
    have hfe : w.fsParts = t.fsParts := by rw [q2.hfs, q2.filled.like.leaves, hf]
    rw [← hix]
    congr 1
    unfold indicesOk
    rw [hfe]
    congr 1
    · exact all_congr_mem fun q hq => by rw [hpe q hq]
    · refine all_congr_mem fun q hq => ?_
      have : (t.fsParts.filter fun y => (h2.part y).name = (h2.part q).name) = t.fsParts.filter fun y => (h'.part y).name = (h'.part q).name := by
        refine List.filter_congr fun y hy => ?_
        rw [hpe y hy, hpe q hq]
      rw [this]
      have : ((t.fsParts.filter fun y => (h'.part y).name = (h'.part q).name).map fun y => (h2.part y).index) =
          (t.fsParts.filter fun y => (h'.part y).name = (h'.part q).name).map fun y => (h'.part y).index := by
        refine List.map_congr_left fun y hy => ?_
        rw [hpe y (List.mem_filter.1 hy).1]
      rw [this]
  · rw [p5]
    exact (g4.mono p2).hpair
  · intro k hk
    rw [← g5 k hk]
    have := congrArg List.length p5
    simpa using this

end

/-! ### a case -/

/-- at every vertex two isobars are tried, one of them with a second mass dependence. -/
def exChoose : Choose ℤ := fun _ n _ _ => [⟨fun x => { x with name := if n = 1 then "a1(1260)-" else "rho(770)0" }, true, 1⟩, ⟨fun x => { x with name := if n = 1 then "pi2(1670)-" else "f2(1270)0" }, true, 0⟩]

/-- a case: from the template of `exHeap` there are 3 · 3 waves. -/
theorem ex_waves : ∃ h' t h2 W, constructIsobarDecay exHeap 0 [1, 2] [2, 3, 4] true = .ok (h', t) ∧ isobarCheck h' t = .ok true ∧ genWaves exChoose h' t = .ok (h2, W) ∧ W.length = 9 ∧
    ∀ w ∈ W, isobarCheck h2 w = .ok true := by
  obtain ⟨h', t, hc, hk⟩ := ex_accepted
  obtain ⟨T, hT, _, _, h2, W, g1, _, g2, _, _, g3⟩ := waves ex_input.1 ex_input.2 ex_pointers hc hk exChoose
  refine ⟨h', t, h2, W, hc, hk, g1, ?_, fun w hw => ?_⟩
  · rw [g3 (fun _ => 3) fun _ _ _ _ => rfl]
    have hn : T.verts.length = 2 := hT.hverts.length_eq
    have gen : ∀ S : Tree, S.count (fun _ => 3) = 3 ^ S.verts.length := by
      intro S
      induction S with
      | leaf p => rfl
      | node v p l r ihl ihr =>
        simp only [Tree.count, Tree.verts, List.length_cons, List.length_append, ihl, ihr]
        ring
    rw [gen, hn]
    rfl
  · obtain ⟨S, hS⟩ := g2 w hw
    exact hS.valid

end Rpwa.Dec
