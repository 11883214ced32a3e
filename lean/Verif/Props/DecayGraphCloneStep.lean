import Verif.Props.DecayGraphIso
/-! # The steps of cloning (C71) -/
namespace Rpwa.Dec
variable {M : Type} [Inhabited M]

section
variable {h h2 : Heap M} {t t2 : Topo} {σ τ : ℕ → ℕ}

theorem mem_map_inj {τ : ℕ → ℕ} {l : List ℕ} {p n : ℕ} (hl : ∀ q ∈ l, q < n) (hp : p < n) (hτ : ∀ p, p < n → ∀ q, q < n → τ p = τ q → p = q) (hm : τ p ∈ l.map τ) : p ∈ l := by
  obtain ⟨q, hq, he⟩ := List.mem_map.1 hm
  rw [← hτ q (hl q hq) p hp he]
  exact hq

theorem Iso.good (i : Iso h t h2 t2 σ τ) (g : Good h t) (hv : VInv t2.toGraph) (hpm : ∀ p a b, t2.pmap p = some (a, b) ↔ (⟨a, b, p⟩ : Edge) ∈ t2.edges)
    (hlt : ∀ v ∈ t2.nodes, v < h2.verts.length) : Good h2 t2 := by
  have hi : ∀ v ∈ t.nodes, ∀ q ∈ (h.vtx v).ins, q < h.parts.length := fun v hv q hq => g.hplt v hv q (.inl hq)
  have ho : ∀ v ∈ t.nodes, ∀ q ∈ (h.vtx v).outs, q < h.parts.length := fun v hv q hq => g.hplt v hv q (.inr hq)
  have hn : ∀ {P : ℕ → Prop}, (∀ v ∈ t.nodes, P (σ v)) → ∀ v ∈ t2.nodes, P v := by
    intro P hP v hv
    rw [i.hnodes] at hv
    obtain ⟨u, hu, rfl⟩ := List.mem_map.1 hv
    exact hP u hu
  refine ⟨?_, ?_, hlt, hv, ?_, hpm, ?_, ?_, ?_, ?_, ?_, ?_, ?_, ?_, ?_, ?_⟩
  · rw [i.hnodes]
    exact List.Nodup.map_on (fun x hx y hy hxy => i.hσ x hx y hy hxy) g.hnd
  · rw [i.hedges]
    refine List.Nodup.map_on (fun x hx y hy hxy => ?_) g.hend
    obtain ⟨a, b, c⟩ := Edge.mk.inj hxy
    have := i.hτ _ (edge_lt g hx) _ (edge_lt g hy) c
    cases x; cases y
    simp_all
  · intro e
    rw [i.hedges, i.len]
    constructor
    · intro he
      obtain ⟨e, hem, rfl⟩ := List.mem_map.1 he
      obtain ⟨h1, h2', h3, h4, h5⟩ := (g.hedges e).1 hem
      dsimp only
      rw [i.vertex h1, i.vertex h2', i.hvtx _ (vertex_mem h1), i.hvtx _ (vertex_mem h2')]
      exact ⟨h1, h2', h3, List.mem_map_of_mem h4, List.mem_map_of_mem h5⟩
    · rintro ⟨h1, h2', h3, h4, h5⟩
      rw [i.vertex h1, i.hvtx _ (vertex_mem h1)] at h4
      rw [i.vertex h2', i.hvtx _ (vertex_mem h2')] at h5
      obtain ⟨p, hp, he⟩ := List.mem_map.1 h4
      rw [← he] at h5
      have h6 := mem_map_inj (hi _ (vertex_mem h2')) (ho _ (vertex_mem h1) p hp) i.hτ h5
      refine List.mem_map.2 ⟨⟨e.src, e.dst, p⟩, (g.hedges _).2 ⟨h1, h2', h3, hp, h6⟩, ?_⟩
      rw [he]
  · refine hn fun v hv p hp => ?_
    rw [i.hvtx v hv] at hp
    rcases hp with hp | hp
    · obtain ⟨q, hq, rfl⟩ := List.mem_map.1 hp
      exact (i.hpart q (hi v hv q hq)).1
    · obtain ⟨q, hq, rfl⟩ := List.mem_map.1 hp
      exact (i.hpart q (ho v hv q hq)).1
  · refine hn fun v hv => hn fun u hu p hp hq => ?_
    rw [i.hvtx v hv] at hp
    rw [i.hvtx u hu] at hq
    obtain ⟨q, hqm, rfl⟩ := List.mem_map.1 hp
    rw [g.hshare v hv u hu q hqm (mem_map_inj (ho u hu) (ho v hv q hqm) i.hτ hq)]
  · refine hn fun v hv => hn fun u hu p hp hq => ?_
    rw [i.hvtx v hv] at hp
    rw [i.hvtx u hu] at hq
    obtain ⟨q, hqm, rfl⟩ := List.mem_map.1 hp
    rw [g.hshareIn v hv u hu q hqm (mem_map_inj (hi u hu) (hi v hv q hqm) i.hτ hq)]
  · refine hn fun v hv => ?_
    rw [i.hvtx v hv]
    exact List.Nodup.map_on (fun x hx y hy hxy => i.hτ x (hi v hv x hx) y (hi v hv y hy) hxy) (g.hins v hv)
  · refine hn fun v hv p hp hq => ?_
    rw [i.hvtx v hv] at hp hq
    obtain ⟨q, hqm, rfl⟩ := List.mem_map.1 hp
    exact g.hself v hv q hqm (mem_map_inj (ho v hv) (hi v hv q hqm) i.hτ hq)
  · intro v hp
    rw [i.hprod] at hp
    cases hpr : t.prod with
    | none => rw [hpr] at hp; cases hp
    | some u =>
      rw [hpr] at hp
      have := Option.some.inj hp
      subst this
      obtain ⟨a, b, c⟩ := g.hprod u hpr
      refine ⟨by rw [i.hnodes]; exact List.mem_map_of_mem a, ?_⟩
      rw [i.hvtx u a]
      exact ⟨b, by simpa using c⟩
  · intro v hvd
    rw [i.hdecays] at hvd
    obtain ⟨u, hu, rfl⟩ := List.mem_map.1 hvd
    obtain ⟨a, p, o, b⟩ := g.hdec u hu
    refine ⟨by rw [i.hnodes]; exact List.mem_map_of_mem a, ?_⟩
    rw [i.hvtx u a, b]
    exact ⟨_, _, rfl⟩
  · refine hn fun v hv => ?_
    rw [i.hprod, i.hdecays, i.hfs]
    rcases g.hfsv v hv with hc | hc | ⟨p, hp, hc⟩
    · exact .inl (by rw [hc]; rfl)
    · exact .inr (.inl (List.mem_map_of_mem hc))
    · refine .inr (.inr ⟨τ p, List.mem_map_of_mem hp, ?_⟩)
      rw [i.hvtx v hv, hc]
      rfl
  · intro p hp
    rw [i.hfs] at hp
    obtain ⟨q, hq, rfl⟩ := List.mem_map.1 hp
    obtain ⟨a, b, c⟩ := g.hfs q hq
    refine ⟨(i.hpart q a).1, fun v hvd hc => ?_, fun v hvp hc => ?_⟩
    · rw [i.hdecays] at hvd
      obtain ⟨u, hu, rfl⟩ := List.mem_map.1 hvd
      have hun := (g.hdec u hu).1
      rw [i.hvtx u hun] at hc
      exact b u hu (mem_map_inj (hi u hun) a i.hτ hc)
    · rw [i.hprod] at hvp
      cases hpr : t.prod with
      | none => rw [hpr] at hvp; cases hvp
      | some u =>
        rw [hpr] at hvp
        have := Option.some.inj hvp
        subst this
        have hun := (g.hprod u hpr).1
        rw [i.hvtx u hun] at hc
        exact c u hpr (mem_map_inj (hi u hun) a i.hτ hc)
  · intro e he hc
    rw [i.hedges] at he
    obtain ⟨x, hx, rfl⟩ := List.mem_map.1 he
    have hd := ((g.hedges x).1 hx).2.1
    rw [i.hprod] at hc
    cases hpr : t.prod with
    | none => rw [hpr] at hc; cases hc
    | some u =>
      rw [hpr, i.vertex hd] at hc
      have h1 := i.hσ u (g.hprod u hpr).1 _ (vertex_mem hd) (Option.some.inj hc)
      exact g.hpin x hx (by rw [hpr, h1])

omit [Inhabited M] in
theorem vtx_snoc (h : Heap M) (x : Vtx) {v : ℕ} (hv : v < h.verts.length) : (⟨h.verts ++ [x], h.parts⟩ : Heap M).vtx v = h.vtx v := by
  unfold Heap.vtx
  simp [List.getD, List.getElem?_append_left hv]

theorem part_snoc (h : Heap M) (x : Part M) (vs : List Vtx) {p : ℕ} (hp : p < h.parts.length) : (⟨vs, h.parts ++ [x]⟩ : Heap M).part p = h.part p := by
  unfold Heap.part
  simp [List.getD, List.getElem?_append_left hp]

theorem part_last (h : Heap M) (x : Part M) (vs : List Vtx) : (⟨vs, h.parts ++ [x]⟩ : Heap M).part h.parts.length = x := by
  unfold Heap.part
  simp [List.getD]

/-- a copy of a vertex takes its place. -/
theorem cloneNode_step (g : Good h t) {n : ℕ} (hn : n < t.nodes.length) (hk : t.prod = some (t.vertex n) ∨ t.vertex n ∈ t.decays) :
    Good (cloneNode (h, t) n).1 (cloneNode (h, t) n).2.1 ∧
    Iso h t (cloneNode (h, t) n).1 (cloneNode (h, t) n).2.1 (Function.update id (t.vertex n) h.verts.length) id ∧
    (cloneNode (h, t) n).2.2 = h.verts.length ∧ (cloneNode (h, t) n).1.verts = h.verts ++ [h.vtx (t.vertex n)] ∧ (cloneNode (h, t) n).1.parts = h.parts ∧
    (cloneNode (h, t) n).2.1.nodes = t.nodes.set n h.verts.length := by
  obtain ⟨v, hv⟩ : ∃ v, v = t.vertex n := ⟨_, rfl⟩
  obtain ⟨w, hw⟩ : ∃ w, w = h.verts.length := ⟨_, rfl⟩
  have hvm : v ∈ t.nodes := by rw [hv]; exact vertex_mem hn
  have hwn : ∀ u ∈ t.nodes, u ≠ w := fun u hu hc => by
    have := g.hlt u hu
    omega
  -- the result
  have hres : ∃ t' : Topo, cloneNode (h, t) n = (⟨h.verts ++ [h.vtx v], h.parts⟩, t', w) ∧ t'.nodes = t.nodes.set n w ∧ t'.edges = t.edges ∧ t'.pmap = t.pmap ∧
      t'.vmap = Function.update (Function.update t.vmap v none) w (some n) ∧ t'.prod = t.prod.map (Function.update id v w) ∧ t'.decays = t.decays.map (Function.update id v w) ∧
      t'.fsParts = t.fsParts := by
    have hmapU : ∀ l : List ℕ, l.map (fun u => if u = v then w else u) = l.map (Function.update id v w) := by
      intro l
      refine List.map_congr_left fun u _ => ?_
      by_cases hu : u = v
      · subst hu; simp
      · simp [hu]
    have hdecn : ∀ l : List ℕ, v ∉ l → l.map (Function.update id v w) = l := by
      intro l hl
      rw [← hmapU]
      conv_rhs => rw [← List.map_id l]
      refine List.map_congr_left fun u hu => ?_
      rw [if_neg (fun hc : u = v => hl (hc ▸ hu))]
      rfl
    unfold cloneNode
    dsimp only
    rw [← hv, ← hw]
    by_cases hp : t.isProd v = true
    · rw [if_pos hp]
      have hp2 := hp
      unfold Topo.isProd at hp2
      have hp3 := (of_decide_eq_true hp2).2
      refine ⟨_, rfl, rfl, rfl, rfl, rfl, ?_, ?_, rfl⟩
      · rw [hp3]
        show some w = some (Function.update id v w v)
        rw [Function.update_self]
      · refine (hdecn _ fun hc => ?_).symm
        obtain ⟨_, hk1, _⟩ := g.hprod v hp3
        obtain ⟨_, _, _, hk2⟩ := g.hdec v hc
        rw [hk2] at hk1
        cases hk1
    · rw [if_neg hp]
      have hpn : t.prod ≠ some v := by
        intro hc
        refine hp ?_
        unfold Topo.isProd
        exact decide_eq_true ⟨hvm, hc⟩
      have hvd : v ∈ t.decays := by
        rcases hk with hk | hk
        · exact absurd (hv ▸ hk) hpn
        · exact hv ▸ hk
      have hisd : isDecayVertex h t v = true := by
        unfold isDecayVertex
        refine decide_eq_true ⟨hvm, ?_⟩
        rintro (hc | hc)
        · exact hp hc
        · unfold isFsVertex at hc
          have hc := (of_decide_eq_true hc).1
          obtain ⟨_, _, _, hk2⟩ := g.hdec v hvd
          rw [hk2] at hc
          cases hc
      rw [if_pos hisd]
      refine ⟨_, rfl, rfl, rfl, rfl, rfl, ?_, hmapU _, rfl⟩
      cases hpr : t.prod with
      | none => rfl
      | some u =>
        have : u ≠ v := fun hc => hpn (by rw [hpr, hc])
        show some u = some (Function.update id v w u)
        rw [Function.update_of_ne this]
        rfl
  obtain ⟨t', hc, h1, h2, h3, h4, h5, h6, h7⟩ := hres
  rw [← hv, ← hw, hc]
  have hset : t.nodes.set n w = t.nodes.map (Function.update id v w) := by
    refine List.ext_getElem? fun j => ?_
    rw [List.getElem?_set, List.getElem?_map]
    by_cases hj : n = j
    · subst hj
      rw [if_pos rfl, if_pos hn, vertex_get hn]
      show some w = some (Function.update id v w (t.vertex n))
      rw [← hv, Function.update_self]
    · rw [if_neg hj]
      by_cases hjn : j < t.nodes.length
      · rw [vertex_get hjn]
        have : t.vertex j ≠ v := fun hc => hj (vertex_inj g.hvinv hn hjn (by rw [← hv, hc]))
        show some _ = some (Function.update id v w (t.vertex j))
        rw [Function.update_of_ne this]
        rfl
      · rw [List.getElem?_eq_none (by omega)]
        rfl
  have hiso : Iso h t ⟨h.verts ++ [h.vtx v], h.parts⟩ t' (Function.update id v w) id := by
    refine ⟨h1.trans hset, by rw [h2]; simp, fun u hu => ?_, fun a ha b hb hab => ?_, fun _ _ _ _ hc => hc, fun p hp => ⟨hp, rfl⟩, h5, h6, by rw [h7]; simp⟩
    · by_cases huv : u = v
      · subst huv
        rw [Function.update_self]
        unfold Heap.vtx
        rw [hw]
        simp [List.getD]
      · rw [Function.update_of_ne huv]
        show (⟨h.verts ++ [h.vtx v], h.parts⟩ : Heap M).vtx u = _
        rw [vtx_snoc h _ (g.hlt u hu)]
        simp
    · by_cases hav : a = v <;> by_cases hbv : b = v
      · rw [hav, hbv]
      · rw [hav, Function.update_self, Function.update_of_ne hbv] at hab
        exact absurd hab.symm (hwn b hb)
      · rw [hbv, Function.update_self, Function.update_of_ne hav] at hab
        exact absurd hab (hwn a ha)
      · rw [Function.update_of_ne hav, Function.update_of_ne hbv] at hab
        exact hab
  refine ⟨hiso.good g ?_ ?_ ?_, hiso, rfl, rfl, rfl, h1⟩
  · intro u j
    show t'.vmap u = some j ↔ t'.nodes[j]? = some u
    rw [h4, h1, List.getElem?_set]
    by_cases huw : u = w
    · subst huw
      rw [Function.update_self]
      by_cases hj : n = j
      · subst hj
        rw [if_pos rfl, if_pos hn]
        simp
      · rw [if_neg hj]
        constructor
        · intro hc; exact absurd (Option.some.inj hc) hj
        · intro hc; exact absurd rfl (hwn _ (List.mem_of_getElem? hc))
    · rw [Function.update_of_ne huw]
      by_cases huv : u = v
      · subst huv
        rw [Function.update_self]
        refine ⟨fun hc => (by cases hc), fun hc => ?_⟩
        by_cases hj : n = j
        · rw [if_pos hj, if_pos hn] at hc
          exact absurd (Option.some.inj hc).symm huw
        · rw [if_neg hj] at hc
          have h8 := (g.hvinv u j).2 hc
          rw [(g.hvinv u n).2 (hv ▸ vertex_get hn)] at h8
          exact absurd (Option.some.inj h8) hj
      · rw [Function.update_of_ne huv, g.hvinv u j]
        by_cases hj : n = j
        · subst hj
          rw [if_pos rfl, if_pos hn, vertex_get hn, ← hv]
          exact ⟨fun hc => absurd (Option.some.inj hc).symm huv, fun hc => absurd (Option.some.inj hc).symm huw⟩
        · rw [if_neg hj]
  · rw [h3, h2]
    exact g.hpm
  · intro u hu
    rw [h1, hset] at hu
    obtain ⟨x, hx, rfl⟩ := List.mem_map.1 hu
    show _ < (h.verts ++ [h.vtx v]).length
    rw [List.length_append, List.length_singleton]
    by_cases hxv : x = v
    · rw [hxv, Function.update_self]; omega
    · rw [Function.update_of_ne hxv]
      have := g.hlt x hx
      show x < _
      omega

omit [Inhabited M] in
theorem vtx_modify (vs : List Vtx) (ps : List (Part M)) (a v : ℕ) (f : Vtx → Vtx) (ha : a < vs.length) :
    (⟨vs.modify a f, ps⟩ : Heap M).vtx v = if v = a then f ((⟨vs, ps⟩ : Heap M).vtx v) else (⟨vs, ps⟩ : Heap M).vtx v := by
  unfold Heap.vtx
  simp only [List.getD, List.getElem?_modify]
  by_cases h : a = v
  · subst h
    simp [List.getElem?_eq_getElem ha]
  · rw [if_neg fun hc => h hc.symm]
    simp [h]

theorem replace_eq (a b : ℕ) (l : List ℕ) : replace a b l = l.map (Function.update id a b) := by
  unfold replace
  refine List.map_congr_left fun x _ => ?_
  by_cases hx : x = a
  · subst hx; simp
  · simp [hx]

theorem map_update_notin (a b : ℕ) (l : List ℕ) (hl : a ∉ l) : l.map (Function.update id a b) = l := by
  conv_rhs => rw [← List.map_id l]
  refine List.map_congr_left fun x hx => ?_
  rw [Function.update_of_ne (fun hc : x = a => hl (hc ▸ hx))]

theorem update_inj {n p : ℕ} : ∀ x, x < n → ∀ y, y < n → Function.update id p n x = Function.update id p n y → x = y := by
  intro x hx y hy hxy
  by_cases h1 : x = p <;> by_cases h2 : y = p
  · rw [h1, h2]
  · rw [h1, Function.update_self, Function.update_of_ne h2] at hxy
    exact absurd hxy.symm (Nat.ne_of_lt hy)
  · rw [h2, Function.update_self, Function.update_of_ne h1] at hxy
    exact absurd hxy (Nat.ne_of_lt hx)
  · rw [Function.update_of_ne h1, Function.update_of_ne h2] at hxy
    exact hxy

theorem update_part (h : Heap M) (vs : List Vtx) (p : ℕ) : ∀ x, x < h.parts.length →
    Function.update id p h.parts.length x < (h.parts ++ [h.part p]).length ∧
      (⟨vs, h.parts ++ [h.part p]⟩ : Heap M).part (Function.update id p h.parts.length x) = h.part x := by
  intro x hx
  rw [List.length_append, List.length_singleton]
  by_cases hxp : x = p
  · rw [hxp, Function.update_self]
    exact ⟨by omega, part_last h _ vs⟩
  · rw [Function.update_of_ne hxp]
    exact ⟨by show x < _; omega, part_snoc h _ vs hx⟩

theorem edge_unique (g : Good h t) {e e' : Edge} (he : e ∈ t.edges) (he' : e' ∈ t.edges) (hp : e.part = e'.part) : e = e' := by
  obtain ⟨h1, h2, _, h4, h5⟩ := (g.hedges e).1 he
  obtain ⟨h1', h2', _, h4', h5'⟩ := (g.hedges e').1 he'
  have a := vertex_inj g.hvinv h1 h1' (g.hshare _ (vertex_mem h1) _ (vertex_mem h1') e.part h4 (hp ▸ h4'))
  have b := vertex_inj g.hvinv h2 h2' (g.hshareIn _ (vertex_mem h2) _ (vertex_mem h2') e.part h5 (hp ▸ h5'))
  cases e; cases e'
  simp_all

/-- a copy of a particle takes its place. -/
theorem cloneEdge_step (g : Good h t) {k : ℕ} {e : Edge} (hk : t.edges[k]? = some e) (hfs : e.part ∉ t.fsParts) :
    ∃ h' t', cloneEdge (h, t) k = .ok (h', t') ∧ Good h' t' ∧ Iso h t h' t' id (Function.update id e.part h.parts.length) ∧
      h'.parts = h.parts ++ [h.part e.part] ∧ h'.verts.length = h.verts.length ∧ (∀ v, v ≠ t.vertex e.src → v ≠ t.vertex e.dst → h'.vtx v = h.vtx v) ∧ t'.nodes = t.nodes := by
  have hem := List.mem_of_getElem? hk
  obtain ⟨e1, e2, e3, e4, e5⟩ := (g.hedges e).1 hem
  obtain ⟨p, hp⟩ : ∃ p, p = e.part := ⟨_, rfl⟩
  obtain ⟨q, hq⟩ : ∃ q, q = h.parts.length := ⟨_, rfl⟩
  obtain ⟨a, ha⟩ : ∃ a, a = t.vertex e.src := ⟨_, rfl⟩
  obtain ⟨b, hb⟩ : ∃ b, b = t.vertex e.dst := ⟨_, rfl⟩
  rw [← hp] at e4 e5 hfs
  rw [← ha] at e4
  rw [← hb] at e5
  have ham : a ∈ t.nodes := ha ▸ vertex_mem e1
  have hbm : b ∈ t.nodes := hb ▸ vertex_mem e2
  have hab : a ≠ b := by
    intro hc
    rw [ha, hb] at hc
    exact e3 (vertex_inj g.hvinv e1 e2 hc)
  have hpq : p < q := hq ▸ g.hplt a ham p (.inr e4)
  obtain ⟨h', hh'⟩ : ∃ h' : Heap M, h' = ⟨(h.verts.modify a fun x => { x with outs := replace p q x.outs }).modify b fun x => { x with ins := replace p q x.ins }, h.parts ++ [h.part p]⟩ :=
    ⟨_, rfl⟩
  obtain ⟨t', ht'⟩ : ∃ t' : Topo, t' = { t with edges := t.edges.set k ⟨e.src, e.dst, q⟩, pmap := Function.update (Function.update t.pmap p none) q (some (e.src, e.dst)) } := ⟨_, rfl⟩
  have hres : cloneEdge (h, t) k = .ok (h', t') := by
    unfold cloneEdge
    dsimp only
    rw [hk]
    dsimp only
    rw [← hp, ← hq, ← ha, ← hb, ← hh', ← ht']
    have : t'.isFsParticle p = false := by
      unfold Topo.isFsParticle
      have : decide (p ∈ t'.fsParts) = false := by
        rw [ht']
        exact decide_eq_false hfs
      rw [this, Bool.and_false]
    rw [this]
    rfl
  have hvtx : ∀ v, h'.vtx v = if v = b then ⟨(h.vtx v).kind, replace p q (h.vtx v).ins, (h.vtx v).outs⟩
      else if v = a then ⟨(h.vtx v).kind, (h.vtx v).ins, replace p q (h.vtx v).outs⟩ else h.vtx v := by
    intro v
    rw [hh', vtx_modify _ _ _ _ _ (by rw [List.length_modify]; exact g.hlt b hbm), vtx_modify _ _ _ _ _ (g.hlt a ham)]
    by_cases h1 : v = b
    · rw [if_pos h1, if_pos h1, if_neg (fun hc : v = a => hab (hc.symm.trans h1))]
      rfl
    · rw [if_neg h1, if_neg h1]
      by_cases h2 : v = a
      · rw [if_pos h2, if_pos h2]; rfl
      · rw [if_neg h2, if_neg h2]; rfl
  have hset : t.edges.set k ⟨e.src, e.dst, q⟩ = t.edges.map fun x => ⟨x.src, x.dst, Function.update id p q x.part⟩ := by
    refine List.ext_getElem? fun j => ?_
    rw [List.getElem?_set, List.getElem?_map]
    have hkl : k < t.edges.length := (List.getElem?_eq_some_iff.1 hk).1
    by_cases hj : k = j
    · subst hj
      rw [if_pos rfl, if_pos hkl, hk]
      show some _ = some (⟨e.src, e.dst, Function.update id p q e.part⟩ : Edge)
      rw [← hp, Function.update_self]
    · rw [if_neg hj]
      cases hx : t.edges[j]? with
      | none => rfl
      | some x =>
        have : x.part ≠ p := by
          intro hc
          have h1 := edge_unique g (List.mem_of_getElem? hx) hem (by rw [hc, hp])
          rw [h1, ← hk] at hx
          exact hj ((List.getElem?_inj hkl g.hend).1 hx.symm)
        show some x = some (⟨x.src, x.dst, Function.update id p q x.part⟩ : Edge)
        rw [Function.update_of_ne this]
        rfl
  have hiso : Iso h t h' t' id (Function.update id p q) := by
    refine ⟨by rw [ht']; simp, by rw [ht']; exact hset, fun v hv => ?_, fun _ _ _ _ hc => hc, ?_, fun x hx => ?_, by rw [ht']; simp, by rw [ht']; simp, ?_⟩
    · show h'.vtx v = _
      rw [hvtx]
      by_cases h1 : v = b
      · rw [if_pos h1, replace_eq, map_update_notin _ _ (h.vtx v).outs]
        intro hc
        exact hab (g.hshare a ham v hv p e4 hc |>.trans h1)
      · rw [if_neg h1]
        have h3 : p ∉ (h.vtx v).ins := fun hc => h1 (g.hshareIn v hv b hbm p hc e5)
        by_cases h2 : v = a
        · rw [if_pos h2, replace_eq, map_update_notin _ _ (h.vtx v).ins h3]
        · rw [if_neg h2, map_update_notin _ _ (h.vtx v).ins h3, map_update_notin _ _ (h.vtx v).outs]
          exact fun hc => h2 (g.hshare v hv a ham p hc e4)
    · rw [hq]
      exact update_inj
    · have := update_part h ((h.verts.modify a fun x => { x with outs := replace p q x.outs }).modify b fun x => { x with ins := replace p q x.ins }) p x hx
      rw [hq, hh', ← hq]
      rw [← hq] at this
      exact this
    · rw [ht']
      exact (map_update_notin _ _ _ hfs).symm
  refine ⟨h', t', hres, hiso.good g ?_ ?_ ?_, ?_, by rw [hh', hp], by rw [hh']; simp, fun v h1 h2 => ?_, by rw [ht']⟩
  · rw [ht']
    exact g.hvinv
  · intro x c d
    have hed : t'.edges = t.edges.map fun x => ⟨x.src, x.dst, Function.update id p q x.part⟩ := hiso.hedges
    have hpm' : t'.pmap = Function.update (Function.update t.pmap p none) q (some (e.src, e.dst)) := by rw [ht']
    rw [hed, hpm', List.mem_map]
    by_cases h1 : x = q
    · subst h1
      rw [Function.update_self]
      constructor
      · intro hc
        have hc := Option.some.inj hc
        refine ⟨e, hem, ?_⟩
        rw [← hp, Function.update_self]
        cases hc
        rfl
      · rintro ⟨y, hy, heq⟩
        obtain ⟨i1, i2, i3⟩ := Edge.mk.inj heq
        have hyp : y.part = p := by
          by_contra hc
          rw [Function.update_of_ne hc] at i3
          have := edge_lt g hy
          have i4 : y.part = x := i3
          omega
        have := edge_unique g hy hem (by rw [hyp, hp])
        rw [← i1, ← i2, this]
    · rw [Function.update_of_ne h1]
      by_cases h2 : x = p
      · rw [h2, Function.update_self]
        refine ⟨fun hc => (by cases hc), ?_⟩
        rintro ⟨y, hy, heq⟩
        have i3 := (Edge.mk.inj heq).2.2
        by_cases hyp : y.part = p
        · rw [hyp, Function.update_self] at i3
          omega
        · rw [Function.update_of_ne hyp] at i3
          exact absurd i3 hyp
      · rw [Function.update_of_ne h2, g.hpm]
        constructor
        · intro hm
          refine ⟨_, hm, ?_⟩
          dsimp only
          rw [Function.update_of_ne h2]
          rfl
        · rintro ⟨y, hy, heq⟩
          obtain ⟨i1, i2, i3⟩ := Edge.mk.inj heq
          by_cases hyp : y.part = p
          · rw [hyp, Function.update_self] at i3
            exact absurd i3.symm h1
          · rw [Function.update_of_ne hyp] at i3
            have i4 : y.part = x := i3
            rw [← i1, ← i2, ← i4]
            exact hy
  · intro v hv
    have : v ∈ t.nodes := by rw [ht'] at hv; exact hv
    rw [hh']
    simpa using g.hlt v this
  · rw [← hp, ← hq]
    exact hiso
  · rw [hvtx, if_neg (by rw [hb]; exact h2), if_neg (by rw [ha]; exact h1)]

/-- a copy of an incoming particle without edge takes its place. -/
theorem dangling_step (g : Good h t) {w j p : ℕ} (hw : w ∈ t.nodes) (hj : (h.vtx w).ins[j]? = some p) (hne : t.isEdge p = false) (hfs : p ∉ t.fsParts) :
    Good ⟨h.verts.modify w fun x => { x with ins := x.ins.set j h.parts.length }, h.parts ++ [h.part p]⟩ t ∧
    Iso h t ⟨h.verts.modify w fun x => { x with ins := x.ins.set j h.parts.length }, h.parts ++ [h.part p]⟩ t id (Function.update id p h.parts.length) := by
  have hpi := List.mem_of_getElem? hj
  have hnone : t.pmap p = none := by
    unfold Graph.isEdge at hne
    cases hc : t.pmap p with
    | none => rfl
    | some x => rw [hc] at hne; cases hne
  have hnoedge : ∀ e ∈ t.edges, e.part ≠ p := by
    intro e he hc
    have := (g.hpm e.part e.src e.dst).2 he
    rw [hc, hnone] at this
    cases this
  have hnout : ∀ v ∈ t.nodes, p ∉ (h.vtx v).outs := by
    intro v hv hc
    obtain ⟨n, hn, rfl⟩ := mem_vertex hv
    obtain ⟨m, hm, rfl⟩ := mem_vertex hw
    by_cases hnm : n = m
    · subst hnm
      exact g.hself _ hw p hpi hc
    · exact hnoedge ⟨n, m, p⟩ ((g.hedges _).2 ⟨hn, hm, hnm, hc, hpi⟩) rfl
  have hiso : Iso h t ⟨h.verts.modify w fun x => { x with ins := x.ins.set j h.parts.length }, h.parts ++ [h.part p]⟩ t id (Function.update id p h.parts.length) := by
    refine ⟨by simp, ?_, fun v hv => ?_, fun _ _ _ _ hc => hc, update_inj, update_part h _ p, by simp, by simp, (map_update_notin _ _ _ hfs).symm⟩
    · conv_lhs => rw [← List.map_id t.edges]
      refine List.map_congr_left fun e he => ?_
      rw [Function.update_of_ne (hnoedge e he)]
      rfl
    · show Heap.vtx _ v = _
      rw [vtx_modify _ _ _ _ _ (g.hlt w hw), map_update_notin _ _ _ (hnout v hv)]
      by_cases hvw : v = w
      · rw [if_pos hvw]
        subst hvw
        show (⟨(h.vtx v).kind, (h.vtx v).ins.set j h.parts.length, (h.vtx v).outs⟩ : Vtx) = _
        congr 1
        refine List.ext_getElem? fun i => ?_
        rw [List.getElem?_set, List.getElem?_map]
        have hjl : j < (h.vtx v).ins.length := (List.getElem?_eq_some_iff.1 hj).1
        by_cases hij : j = i
        · subst hij
          rw [if_pos rfl, if_pos hjl, hj]
          show some _ = some _
          rw [Function.update_self]
        · rw [if_neg hij]
          cases hx : (h.vtx v).ins[i]? with
          | none => rfl
          | some x =>
            have : x ≠ p := by
              intro hc
              rw [hc, ← hj] at hx
              exact hij ((List.getElem?_inj hjl (g.hins v hv)).1 hx.symm)
            show some x = some _
            rw [Function.update_of_ne this]
            rfl
      · rw [if_neg hvw, map_update_notin _ _ (h.vtx v).ins]
        · rfl
        · exact fun hc => hvw (g.hshareIn v hv w hw p hc hpi)
  refine ⟨hiso.good g g.hvinv g.hpm fun v hv => ?_, hiso⟩
  simpa using g.hlt v hv

end
end Rpwa.Dec
