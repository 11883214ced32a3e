import Verif.Props.DecayGraphSubMain
import Mathlib.Data.List.ProdSigma
/-! # Joining graphs (C74) -/
namespace Rpwa.Dec
variable {M : Type}

theorem tryEdge_noop {i j : ℕ} {g : Graph} {x : ℕ × ℕ} (hx : x.1 = x.2 → g.isEdge x.1 = true) : tryEdge i j g x = g := by
  unfold tryEdge
  rw [if_neg]
  rintro ⟨h1, h2⟩
  rw [hx h1] at h2
  cases h2

theorem tryEdges_noop {i j : ℕ} {g : Graph} (xs : List (ℕ × ℕ)) (hx : ∀ x ∈ xs, x.1 = x.2 → g.isEdge x.1 = true) : xs.foldl (tryEdge i j) g = g := by
  induction xs with
  | nil => rfl
  | cons x xs ih =>
    rw [List.foldl_cons, tryEdge_noop (hx x List.mem_cons_self)]
    exact ih fun y hy => hx y (List.mem_cons_of_mem _ hy)

theorem isEdge_add (g : Graph) (e : Edge) (q : ℕ) : (g.addEdges [e]).isEdge q = (decide (q = e.part) || g.isEdge q) := by
  unfold Graph.isEdge Graph.addEdges
  simp only [List.foldl_cons, List.foldl_nil]
  by_cases h : q = e.part
  · subst h
    simp
  · simp [Function.update_of_ne h, h]

theorem tryEdges_one {i j q : ℕ} {g : Graph} (xs : List (ℕ × ℕ)) (hq : (q, q) ∈ xs) (hne : g.isEdge q = false) (hx : ∀ x ∈ xs, x.1 = x.2 → x.1 = q ∨ g.isEdge x.1 = true) :
    xs.foldl (tryEdge i j) g = g.addEdges [⟨i, j, q⟩] := by
  induction xs with
  | nil => cases hq
  | cons x xs ih =>
    rw [List.foldl_cons]
    by_cases hxq : x = (q, q)
    · subst hxq
      have h1 : tryEdge i j g (q, q) = g.addEdges [⟨i, j, q⟩] := by
        unfold tryEdge
        rw [if_pos ⟨rfl, hne⟩]
      rw [h1]
      refine tryEdges_noop xs fun y hy hyy => ?_
      rw [isEdge_add]
      rcases hx y (List.mem_cons_of_mem _ hy) hyy with h | h
      · simp [h]
      · simp [h]
    · rw [tryEdge_noop]
      · refine ih ?_ fun y hy => hx y (List.mem_cons_of_mem _ hy)
        rcases List.mem_cons.1 hq with h | h
        · exact absurd h.symm hxq
        · exact h
      · intro hxx
        rcases hx x List.mem_cons_self hxx with h | h
        · exfalso
          refine hxq ?_
          cases x
          simp only at hxx h
          rw [← hxx, h]
        · exact h

theorem connect_noop {h : Heap M} {g : Graph} {x : ℕ × ℕ} (hx : ∀ q ∈ (h.vtx (g.vertex x.1)).outs, q ∈ (h.vtx (g.vertex x.2)).ins → g.isEdge q = true) :
    connectPair h g x = g := by
  unfold connectPair
  split_ifs
  · rfl
  · refine tryEdges_noop _ fun y hy hyy => ?_
    obtain ⟨h1, h2⟩ := List.mem_product.1 hy
    exact hx y.1 h1 (hyy ▸ h2)

theorem connects_noop {h : Heap M} {g : Graph} (xs : List (ℕ × ℕ)) (hx : ∀ x ∈ xs, ∀ q ∈ (h.vtx (g.vertex x.1)).outs, q ∈ (h.vtx (g.vertex x.2)).ins → g.isEdge q = true) :
    xs.foldl (connectPair h) g = g := by
  induction xs with
  | nil => rfl
  | cons x xs ih =>
    rw [List.foldl_cons, connect_noop (hx x List.mem_cons_self)]
    exact ih fun y hy => hx y (List.mem_cons_of_mem _ hy)

/-- if one edge is missing it is the one that is added. -/
theorem connects_one {h : Heap M} {g : Graph} {a b q : ℕ} (xs : List (ℕ × ℕ)) (hab : (a, b) ∈ xs) (hne : g.isEdge q = false)
    (hno : ∀ e ∈ g.edges, ¬ (e.src = a ∧ e.dst = b)) (hqa : q ∈ (h.vtx (g.vertex a)).outs) (hqb : q ∈ (h.vtx (g.vertex b)).ins)
    (hx : ∀ x ∈ xs, ∀ y ∈ (h.vtx (g.vertex x.1)).outs, y ∈ (h.vtx (g.vertex x.2)).ins → (x = (a, b) ∧ y = q) ∨ g.isEdge y = true) :
    xs.foldl (connectPair h) g = g.addEdges [⟨a, b, q⟩] := by
  induction xs with
  | nil => cases hab
  | cons x xs ih =>
    rw [List.foldl_cons]
    by_cases hxa : x = (a, b)
    · subst hxa
      have h1 : connectPair h g (a, b) = g.addEdges [⟨a, b, q⟩] := by
        unfold connectPair
        rw [if_neg]
        · refine tryEdges_one _ (List.mem_product.2 ⟨hqa, hqb⟩) hne fun y hy hyy => ?_
          obtain ⟨h1, h2⟩ := List.mem_product.1 hy
          rcases hx _ List.mem_cons_self y.1 h1 (hyy ▸ h2) with ⟨_, h⟩ | h
          · exact .inl h
          · exact .inr h
        · rw [List.any_eq_true]
          rintro ⟨e, he, hc⟩
          exact hno e he (of_decide_eq_true hc)
      rw [h1]
      refine connects_noop xs fun y hy z hz1 hz2 => ?_
      have hz1 : z ∈ (h.vtx (g.vertex y.1)).outs := hz1
      have hz2 : z ∈ (h.vtx (g.vertex y.2)).ins := hz2
      rw [isEdge_add]
      rcases hx y (List.mem_cons_of_mem _ hy) z hz1 hz2 with ⟨_, h⟩ | h
      · simp [h]
      · simp [h]
    · rw [connect_noop]
      · refine ih ?_ fun y hy => hx y (List.mem_cons_of_mem _ hy)
        rcases List.mem_cons.1 hab with h | h
        · exact absurd h.symm hxa
        · exact h
      · intro y hy1 hy2
        rcases hx x List.mem_cons_self y hy1 hy2 with ⟨h, _⟩ | h
        · exact absurd h hxa
        · exact h

/-- the two graphs beside each other, with the maps built anew. -/
def beside (g d : Graph) : Graph := ({ g with
    nodes := g.nodes ++ d.nodes
    edges := g.edges ++ d.edges.map fun e => ⟨e.src + g.nodes.length, e.dst + g.nodes.length, e.part⟩ } : Graph).reverseMaps

theorem addGraph_eq (h : Heap M) (g d : Graph) : addGraph h g d = createEdges h (beside g d) := rfl

section
variable {h : Heap M} {g d : Graph}

theorem beside_nodes : (beside g d).nodes = g.nodes ++ d.nodes := rfl

theorem beside_edges : (beside g d).edges = g.edges ++ d.edges.map fun e => ⟨e.src + g.nodes.length, e.dst + g.nodes.length, e.part⟩ := rfl

theorem beside_left {i : ℕ} (hi : i < g.nodes.length) : (beside g d).vertex i = g.vertex i := by
  unfold Graph.vertex
  rw [beside_nodes]
  simp [List.getD, List.getElem?_append_left hi]

theorem beside_right (i : ℕ) : (beside g d).vertex (i + g.nodes.length) = d.vertex i := by
  unfold Graph.vertex
  rw [beside_nodes]
  simp [List.getD, List.getElem?_append_right]

theorem beside_pmap : (beside g d).pmap = (beside g d).edges.foldl setPart fun _ => none := rfl

theorem beside_isEdge (q : ℕ) : (beside g d).isEdge q = true ↔ (∃ e ∈ g.edges, e.part = q) ∨ ∃ e ∈ d.edges, e.part = q := by
  unfold Graph.isEdge
  rw [beside_pmap]
  constructor
  · intro hs
    obtain ⟨⟨a, b⟩, hab⟩ := Option.isSome_iff_exists.1 hs
    rcases setParts_some _ _ _ _ _ hab with h | h
    · cases h
    · rw [beside_edges] at h
      rcases List.mem_append.1 h with h | h
      · exact .inl ⟨_, h, rfl⟩
      · obtain ⟨e, he, heq⟩ := List.mem_map.1 h
        exact .inr ⟨e, he, (Edge.mk.inj heq).2.2⟩
  · rintro (⟨e, he, rfl⟩ | ⟨e, he, rfl⟩)
    · exact setParts_isSome _ _ _ (.inr ⟨e, by rw [beside_edges]; exact List.mem_append_left _ he, rfl⟩)
    · exact setParts_isSome _ _ _ (.inr ⟨⟨e.src + g.nodes.length, e.dst + g.nodes.length, e.part⟩, by rw [beside_edges]; exact List.mem_append_right _ (List.mem_map_of_mem he), rfl⟩)

theorem vmap_fold (l : List ℕ) (hn : l.Nodup) : ∀ v i : ℕ, (l.zipIdx.foldl (fun (m : ℕ → Option ℕ) (x : ℕ × ℕ) => Function.update m x.1 (some x.2)) (fun _ => none) : ℕ → Option ℕ) v = some i ↔ l[i]? = some v := by
  have gen : ∀ (l : List ℕ) (k : ℕ) (m : ℕ → Option ℕ), l.Nodup → ∀ v i : ℕ, (l.zipIdx k).foldl (fun (m : ℕ → Option ℕ) (x : ℕ × ℕ) => Function.update m x.1 (some x.2)) m v = some i ↔
      (v ∉ l ∧ m v = some i) ∨ (k ≤ i ∧ l[i - k]? = some v) := by
    intro l
    induction l with
    | nil => intro k m _ v i; simp
    | cons a l ih =>
      intro k m hn v i
      rw [List.nodup_cons] at hn
      rw [List.zipIdx_cons, List.foldl_cons, ih (k + 1) _ hn.2]
      by_cases hva : v = a
      · subst hva
        simp only [Function.update_self, List.mem_cons, true_or, not_true_eq_false, false_and, false_or]
        constructor
        · rintro (⟨_, h⟩ | ⟨h1, h2⟩)
          · cases h
            simp
          · exact absurd (List.mem_of_getElem? h2) hn.1
        · rintro ⟨h1, h2⟩
          left
          refine ⟨hn.1, ?_⟩
          rcases Nat.eq_or_lt_of_le h1 with h | h
          · rw [h]
          · exfalso
            have : i - k = (i - k - 1) + 1 := by omega
            rw [this, List.getElem?_cons_succ] at h2
            exact hn.1 (List.mem_of_getElem? h2)
      · rw [Function.update_of_ne hva]
        simp only [List.mem_cons, hva, false_or]
        constructor
        · rintro (h | ⟨h1, h2⟩)
          · exact .inl h
          · right
            refine ⟨by omega, ?_⟩
            have : i - k = (i - (k + 1)) + 1 := by omega
            rw [this, List.getElem?_cons_succ]
            exact h2
        · rintro (h | ⟨h1, h2⟩)
          · exact .inl h
          · right
            rcases Nat.eq_or_lt_of_le h1 with h | h
            · exfalso
              rw [h] at h2
              simp at h2
              exact hva h2.symm
            · refine ⟨by omega, ?_⟩
              have : i - k = (i - (k + 1)) + 1 := by omega
              rw [this, List.getElem?_cons_succ] at h2
              exact h2
  intro v i
  have := gen l 0 (fun _ => none) hn v i
  simpa using this

theorem beside_vinv (hn : (g.nodes ++ d.nodes).Nodup) : VInv (beside g d) := fun v i => vmap_fold _ hn v i

/-- what is needed to connect the graph `d` of the tree with top particle `q` to node `a` of `g`; `b` is the node of `d` in which `q` decays or ends. -/
structure Fits (h : Heap M) (g d : Graph) (a b q : ℕ) : Prop where
  hg : GInv h g
  hd : GInv h d
  hgn : g.edges.Nodup
  hdn : d.edges.Nodup
  hnd : (g.nodes ++ d.nodes).Nodup
  ha : a < g.nodes.length
  hb : b < d.nodes.length
  hqa : q ∈ (h.vtx (g.vertex a)).outs
  hqb : q ∈ (h.vtx (d.vertex b)).ins
  hout : ∀ i j p, i < g.nodes.length → j < d.nodes.length → p ∈ (h.vtx (g.vertex i)).outs → p ∈ (h.vtx (d.vertex j)).ins → i = a ∧ j = b ∧ p = q
  hin : ∀ i j p, i < g.nodes.length → j < d.nodes.length → p ∈ (h.vtx (d.vertex j)).outs → p ∉ (h.vtx (g.vertex i)).ins
  hqg : ∀ e ∈ g.edges, e.part ≠ q
  hqd : ∀ e ∈ d.edges, e.part ≠ q
  hselfg : ∀ i, i < g.nodes.length → ∀ p ∈ (h.vtx (g.vertex i)).outs, p ∉ (h.vtx (g.vertex i)).ins
  hselfd : ∀ i, i < d.nodes.length → ∀ p ∈ (h.vtx (d.vertex i)).outs, p ∉ (h.vtx (d.vertex i)).ins

variable {a b q : ℕ}

theorem Fits.eq (f : Fits h g d a b q) : addGraph h g d = (beside g d).addEdges [⟨a, b + g.nodes.length, q⟩] := by
  have hlen : (beside g d).nodes.length = g.nodes.length + d.nodes.length := by rw [beside_nodes, List.length_append]
  have ha := f.ha
  have hb := f.hb
  rw [addGraph_eq]
  unfold createEdges
  refine connects_one _ ?_ ?_ ?_ ?_ ?_ ?_
  · refine List.mem_product.2 ⟨List.mem_range.2 ?_, List.mem_range.2 ?_⟩ <;> omega
  · rw [Bool.eq_false_iff]
    intro hc
    rcases (beside_isEdge q).1 hc with ⟨e, he, hq⟩ | ⟨e, he, hq⟩
    · exact f.hqg e he hq
    · exact f.hqd e he hq
  · intro e he
    rw [beside_edges] at he
    rcases List.mem_append.1 he with he | he
    · have := ((f.hg.hedges e).1 he).2.1
      omega
    · obtain ⟨x, hx, rfl⟩ := List.mem_map.1 he
      dsimp only
      omega
  · rw [beside_left ha]
    exact f.hqa
  · rw [beside_right]
    exact f.hqb
  · rintro ⟨i, j⟩ hx y hy1 hy2
    obtain ⟨h1, h2⟩ := List.mem_product.1 hx
    rw [List.mem_range, hlen] at h1 h2
    dsimp only at h1 h2 hy1 hy2
    by_cases hi : i < g.nodes.length <;> by_cases hj : j < g.nodes.length
    · rw [beside_left hi] at hy1
      rw [beside_left hj] at hy2
      right
      have hij : i ≠ j := by
        rintro rfl
        exact f.hselfg i hi y hy1 hy2
      exact (beside_isEdge y).2 (.inl ⟨⟨i, j, y⟩, (f.hg.hedges _).2 ⟨hi, hj, hij, hy1, hy2⟩, rfl⟩)
    · obtain ⟨k, rfl⟩ : ∃ k, j = k + g.nodes.length := ⟨j - g.nodes.length, by omega⟩
      rw [beside_left hi] at hy1
      rw [beside_right] at hy2
      left
      obtain ⟨e1, e2, e3⟩ := f.hout i k y hi (by omega) hy1 hy2
      rw [e1, e2]
      exact ⟨rfl, e3⟩
    · obtain ⟨k, rfl⟩ : ∃ k, i = k + g.nodes.length := ⟨i - g.nodes.length, by omega⟩
      rw [beside_right] at hy1
      rw [beside_left hj] at hy2
      exact absurd hy2 (f.hin j k y hj (by omega) hy1)
    · obtain ⟨k, rfl⟩ : ∃ k, i = k + g.nodes.length := ⟨i - g.nodes.length, by omega⟩
      obtain ⟨l, rfl⟩ : ∃ l, j = l + g.nodes.length := ⟨j - g.nodes.length, by omega⟩
      rw [beside_right] at hy1 hy2
      right
      have hij : k ≠ l := by
        rintro rfl
        exact f.hselfd k (by omega) y hy1 hy2
      exact (beside_isEdge y).2 (.inr ⟨⟨k, l, y⟩, (f.hd.hedges ⟨k, l, y⟩).2 ⟨(by omega : k < _), (by omega : l < _), hij, hy1, hy2⟩, rfl⟩)

theorem Fits.nodes (f : Fits h g d a b q) : (addGraph h g d).nodes = g.nodes ++ d.nodes := by rw [f.eq]; rfl

theorem Fits.edges (f : Fits h g d a b q) : (addGraph h g d).edges =
    g.edges ++ (d.edges.map fun e => ⟨e.src + g.nodes.length, e.dst + g.nodes.length, e.part⟩) ++ [⟨a, b + g.nodes.length, q⟩] := by rw [f.eq]; rfl

theorem Fits.left (f : Fits h g d a b q) {i : ℕ} (hi : i < g.nodes.length) : (addGraph h g d).vertex i = g.vertex i := by rw [f.eq]; exact beside_left hi

theorem Fits.right (f : Fits h g d a b q) (i : ℕ) : (addGraph h g d).vertex (i + g.nodes.length) = d.vertex i := by rw [f.eq]; exact beside_right i

theorem Fits.vinv (f : Fits h g d a b q) : VInv (addGraph h g d) := by
  rw [f.eq]
  exact beside_vinv f.hnd

theorem Fits.ginv (f : Fits h g d a b q) : GInv h (addGraph h g d) := by
  have hlen : (addGraph h g d).nodes.length = g.nodes.length + d.nodes.length := by rw [f.nodes, List.length_append]
  have ha := f.ha
  have hb := f.hb
  constructor
  · intro e
    rw [hlen, f.edges, List.mem_append, List.mem_append, List.mem_singleton, List.mem_map]
    constructor
    · rintro ((he | ⟨x, he, rfl⟩) | rfl)
      · obtain ⟨h1, h2, h3, h4, h5⟩ := (f.hg.hedges e).1 he
        rw [f.left h1, f.left h2]
        exact ⟨by omega, by omega, h3, h4, h5⟩
      · obtain ⟨h1, h2, h3, h4, h5⟩ := (f.hd.hedges x).1 he
        dsimp only
        rw [f.right, f.right]
        exact ⟨by omega, by omega, by omega, h4, h5⟩
      · dsimp only
        rw [f.left ha, f.right]
        exact ⟨by omega, by omega, by omega, f.hqa, f.hqb⟩
    · rintro ⟨h1, h2, h3, h4, h5⟩
      obtain ⟨i, j, y⟩ := e
      dsimp only at h1 h2 h3 h4 h5
      by_cases hi : i < g.nodes.length <;> by_cases hj : j < g.nodes.length
      · rw [f.left hi] at h4
        rw [f.left hj] at h5
        exact .inl (.inl ((f.hg.hedges _).2 ⟨hi, hj, h3, h4, h5⟩))
      · obtain ⟨k, rfl⟩ : ∃ k, j = k + g.nodes.length := ⟨j - g.nodes.length, by omega⟩
        rw [f.left hi] at h4
        rw [f.right] at h5
        right
        obtain ⟨e1, e2, e3⟩ := f.hout i k y hi (by omega) h4 h5
        rw [e1, e2, e3]
      · obtain ⟨k, rfl⟩ : ∃ k, i = k + g.nodes.length := ⟨i - g.nodes.length, by omega⟩
        rw [f.right] at h4
        rw [f.left hj] at h5
        exact absurd h5 (f.hin j k y hj (by omega) h4)
      · obtain ⟨k, rfl⟩ : ∃ k, i = k + g.nodes.length := ⟨i - g.nodes.length, by omega⟩
        obtain ⟨l, rfl⟩ : ∃ l, j = l + g.nodes.length := ⟨j - g.nodes.length, by omega⟩
        rw [f.right] at h4 h5
        exact .inl (.inr ⟨⟨k, l, y⟩, (f.hd.hedges ⟨k, l, y⟩).2 ⟨(by omega : k < _), (by omega : l < _), (by omega : k ≠ l), h4, h5⟩, rfl⟩)
  · intro p x y hp
    rw [f.eq] at hp ⊢
    have hp : ([(⟨a, b + g.nodes.length, q⟩ : Edge)]).foldl setPart (beside g d).pmap p = some (x, y) := hp
    show _ ∈ (beside g d).edges ++ [_]
    rcases setParts_some _ _ _ _ _ hp with h | h
    · rw [beside_pmap] at h
      rcases setParts_some _ _ _ _ _ h with h | h
      · cases h
      · exact List.mem_append_left _ h
    · exact List.mem_append_right _ h
  · intro e he
    rw [f.eq] at he ⊢
    have he : e ∈ (beside g d).edges ++ [_] := he
    show (([(⟨a, b + g.nodes.length, q⟩ : Edge)]).foldl setPart (beside g d).pmap e.part).isSome
    rcases List.mem_append.1 he with he | he
    · refine setParts_isSome _ _ _ (.inl ?_)
      rw [beside_pmap]
      exact setParts_isSome _ _ _ (.inr ⟨e, he, rfl⟩)
    · exact setParts_isSome _ _ _ (.inr ⟨e, he, rfl⟩)

theorem Fits.nodup (f : Fits h g d a b q) : (addGraph h g d).edges.Nodup := by
  have ha := f.ha
  rw [f.edges]
  refine List.nodup_append.2 ⟨List.nodup_append.2 ⟨f.hgn, ?_, ?_⟩, by simp, ?_⟩
  · refine List.Nodup.map_on ?_ f.hdn
    rintro ⟨x1, x2, x3⟩ _ ⟨y1, y2, y3⟩ _ hxy
    obtain ⟨h1, h2, h3⟩ := Edge.mk.inj hxy
    dsimp only at h1 h2 h3
    rw [h3, show x1 = y1 by omega, show x2 = y2 by omega]
  · intro x hx y hy hxy
    obtain ⟨z, hz, rfl⟩ := List.mem_map.1 hy
    have := ((f.hg.hedges x).1 hx).1
    rw [hxy] at this
    dsimp only at this
    omega
  · intro x hx y hy hxy
    rw [List.mem_singleton] at hy
    rcases List.mem_append.1 hx with hx | hx
    · exact f.hqg x hx (by rw [hxy, hy])
    · obtain ⟨z, hz, rfl⟩ := List.mem_map.1 hx
      refine f.hqd z hz ?_
      have : z.part = y.part := by rw [← hxy]
      rw [this, hy]

theorem Fits.succ_left (f : Fits h g d a b q) {i : ℕ} (hi : i < g.nodes.length) :
    (addGraph h g d).succ i = g.succ i ++ if i = a then [b + g.nodes.length] else [] := by
  unfold Graph.succ
  rw [f.edges, List.filter_append, List.filter_append, List.map_append, List.map_append]
  have h1 : ((d.edges.map fun e => (⟨e.src + g.nodes.length, e.dst + g.nodes.length, e.part⟩ : Edge)).filter fun e => decide (e.src = i)) = [] := by
    rw [List.filter_eq_nil_iff]
    intro e he hc
    obtain ⟨x, _, rfl⟩ := List.mem_map.1 he
    have := of_decide_eq_true hc
    dsimp only at this
    omega
  rw [h1]
  by_cases hia : i = a
  · subst hia
    simp
  · have : ¬ a = i := fun hc => hia hc.symm
    simp [hia, this]

theorem Fits.succ_right (f : Fits h g d a b q) (i : ℕ) : (addGraph h g d).succ (i + g.nodes.length) = (d.succ i).map (· + g.nodes.length) := by
  have ha := f.ha
  unfold Graph.succ
  rw [f.edges, List.filter_append, List.filter_append, List.map_append, List.map_append]
  have h1 : (g.edges.filter fun e => decide (e.src = i + g.nodes.length)) = [] := by
    rw [List.filter_eq_nil_iff]
    intro e he hc
    have h2 := ((f.hg.hedges e).1 he).1
    have := of_decide_eq_true hc
    omega
  have h2 : ([(⟨a, b + g.nodes.length, q⟩ : Edge)].filter fun e => decide (e.src = i + g.nodes.length)) = [] := by
    rw [List.filter_eq_nil_iff]
    intro e he hc
    rw [List.mem_singleton.1 he] at hc
    have := of_decide_eq_true hc
    dsimp only at this
    omega
  rw [h1, h2, List.filter_map, List.map_map, List.map_map]
  simp only [List.map_nil, List.nil_append, List.append_nil]
  have : (fun e : Edge => decide (e.src = i)) = ((fun e : Edge => decide (e.src = i + g.nodes.length)) ∘ fun e => (⟨e.src + g.nodes.length, e.dst + g.nodes.length, e.part⟩ : Edge)) := by
    funext e
    show decide _ = decide _
    refine decide_eq_decide.2 ?_
    show _ ↔ e.src + g.nodes.length = i + g.nodes.length
    omega
  rw [this]
  rfl

end
end Rpwa.Dec
