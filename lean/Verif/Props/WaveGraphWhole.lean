import Verif.Props.DecayGraphHolds
import Verif.Props.DecayGraphCloneTree
import Verif.Spec.WaveGraph
/-! # Topologies without production vertex, and their clones (C74) -/
namespace Rpwa.Dec
variable {M : Type}

/-- a topology without production vertex that holds the tree `S`; all pointers are valid. -/
structure Whole (h : Heap M) (t : Topo) (S : Tree) : Prop where
  ord : InOrder h t.toGraph S
  hprod : t.prod = none
  hdecays : t.decays = S.verts
  hfs : t.fsParts = S.leaves
  hlt : ∀ v ∈ t.nodes, v < h.verts.length
  hplt : ∀ p ∈ S.parts, p < h.parts.length

theorem Ext.refl [Inhabited M] (h : Heap M) : Ext h h := ⟨Nat.le_refl _, Nat.le_refl _, fun _ _ => rfl, fun _ _ => rfl⟩

theorem Ext.trans [Inhabited M] {h k m : Heap M} (a : Ext h k) (b : Ext k m) : Ext h m :=
  ⟨Nat.le_trans a.hv b.hv, Nat.le_trans a.hp b.hp, fun v hv => (b.hvtx v (Nat.lt_of_lt_of_le hv a.hv)).trans (a.hvtx v hv),
    fun p hp => (b.hpart p (Nat.lt_of_lt_of_le hp a.hp)).trans (a.hpart p hp)⟩

theorem Like.trans {Q S R : Tree} (a : Like Q S) (b : Like S R) : Like Q R := by
  induction a generalizing R with
  | leaf p => exact b
  | node v p v' p' l r l' r' _ _ ihl ihr =>
    cases b with
    | node _ _ v2 p2 _ _ l2 r2 c d => exact .node _ _ _ _ _ _ _ _ (ihl c) (ihr d)

theorem Like.leaves {Q S : Tree} (a : Like Q S) : S.leaves = Q.leaves := by
  induction a with
  | leaf p => rfl
  | node v p v' p' l r l' r' _ _ ihl ihr => show l'.leaves ++ r'.leaves = _; rw [ihl, ihr]; rfl

theorem Filled.like [Inhabited M] {C : ℕ → ℕ → Part M → Prop} {h : Heap M} {Q S : Tree} (a : Filled C h Q S) : Like Q S := by
  induction a with
  | leaf p => exact .leaf p
  | node v p v' p' l r l' r' _ _ _ ihl ihr => exact .node _ _ _ _ _ _ _ _ ihl ihr

theorem Filled.rename [Inhabited M] {C : ℕ → ℕ → Part M → Prop} {h k : Heap M} {Q S : Tree} (a : Filled C h Q S) {σ τ : ℕ → ℕ} (hp : ∀ q ∈ S.parts, k.part (τ q) = h.part q)
    (hτ : ∀ q ∈ S.leaves, τ q = q) : Filled C k Q (S.rename σ τ) := by
  induction a with
  | leaf p =>
    have := hτ p (by simp [Tree.leaves])
    show Filled C k _ (.leaf (τ p))
    rw [this]
    exact .leaf p
  | node v p v' p' l r l' r' hC _ _ ihl ihr =>
    refine .node _ _ _ _ _ _ _ _ ?_ (ihl (fun q hq => hp q (List.mem_cons_of_mem _ (List.mem_append_left _ hq))) fun q hq => hτ q (List.mem_append_left _ hq))
      (ihr (fun q hq => hp q (List.mem_cons_of_mem _ (List.mem_append_right _ hq))) fun q hq => hτ q (List.mem_append_right _ hq))
    rw [hp p' List.mem_cons_self]
    exact hC

theorem Filled.congr [Inhabited M] {C : ℕ → ℕ → Part M → Prop} {h k : Heap M} {Q S : Tree} (a : Filled C h Q S) (hp : ∀ q ∈ S.parts, k.part q = h.part q) : Filled C k Q S := by
  induction a with
  | leaf p => exact .leaf p
  | node v p v' p' l r l' r' hC _ _ ihl ihr =>
    refine .node _ _ _ _ _ _ _ _ ?_ (ihl fun q hq => hp q (List.mem_cons_of_mem _ (List.mem_append_left _ hq))) (ihr fun q hq => hp q (List.mem_cons_of_mem _ (List.mem_append_right _ hq)))
    rw [hp p' List.mem_cons_self]
    exact hC

theorem like_rename (σ τ : ℕ → ℕ) (S : Tree) (hτ : ∀ p ∈ S.leaves, τ p = p) : Like S (S.rename σ τ) := by
  induction S with
  | leaf p =>
    have := hτ p (by simp [Tree.leaves])
    show Like _ (.leaf (τ p))
    rw [this]
    exact .leaf p
  | node v p l r ihl ihr =>
    exact .node _ _ _ _ _ _ _ _ (ihl fun q hq => hτ q (List.mem_append_left _ hq)) (ihr fun q hq => hτ q (List.mem_append_right _ hq))

theorem sub_vert (S : Tree) {v p : ℕ} {l r : Tree} (hN : Tree.node v p l r ∈ S.subs) : v ∈ S.verts := by
  induction S with
  | leaf q => cases List.mem_singleton.1 hN
  | node w q a b iha ihb =>
    rcases List.mem_cons.1 hN with hc | hN
    · cases hc; exact List.mem_cons_self
    · rcases List.mem_append.1 hN with hN | hN
      · exact List.mem_cons_of_mem _ (List.mem_append_left _ (iha hN))
      · exact List.mem_cons_of_mem _ (List.mem_append_right _ (ihb hN))

/-! ### cloning only adds objects -/

/-- there are at least as many objects as before. -/
def Grows (h : Heap M) (r : Heap M × Topo) : Prop := h.verts.length ≤ r.1.verts.length ∧ h.parts.length ≤ r.1.parts.length

theorem foldlM_keeps {α β : Type} (I : β → Prop) (f : β → α → Outcome β) (l : List α) (hf : ∀ x ∈ l, ∀ a b, I a → f a x = .ok b → I b) (a b : β) (ha : I a)
    (hr : l.foldlM f a = .ok b) : I b := by
  induction l generalizing a with
  | nil => rw [List.foldlM_nil] at hr; cases hr; exact ha
  | cons x l ih =>
    rw [List.foldlM_cons] at hr
    cases hx : f a x with
    | ok c =>
      rw [hx] at hr
      exact ih (fun y hy => hf y (List.mem_cons_of_mem _ hy)) c (hf x List.mem_cons_self a c ha hx) hr
    | terminate => rw [hx] at hr; cases hr
    | ub => rw [hx] at hr; cases hr

theorem cloneEdge_grows [Inhabited M] {h : Heap M} {ht r : Heap M × Topo} {k : ℕ} (hg : Grows h ht) (hr : cloneEdge ht k = .ok r) : Grows h r := by
  unfold cloneEdge at hr
  dsimp only at hr
  split at hr
  · cases hr
  · cases hr
    obtain ⟨a, b⟩ := hg
    refine ⟨?_, ?_⟩
    · simpa using a
    · simpa using Nat.le_succ_of_le b

theorem cloneIn_grows [Inhabited M] {h : Heap M} {ht r : Heap M × Topo} {cf : Bool} {w j : ℕ} (hg : Grows h ht) (hr : cloneIn cf w ht j = .ok r) : Grows h r := by
  unfold cloneIn at hr
  dsimp only at hr
  split_ifs at hr
  · cases hr; exact hg
  · cases he : Graph.edge ht.2.toGraph ((ht.1.vtx w).ins.getD j 0) with
    | ok k => rw [he] at hr; exact cloneEdge_grows hg hr
    | terminate => rw [he] at hr; cases hr
    | ub => rw [he] at hr; cases hr
  · cases hr
    obtain ⟨a, b⟩ := hg
    refine ⟨?_, ?_⟩
    · simpa using a
    · simpa using Nat.le_succ_of_le b

theorem clone_grows [Inhabited M] {h : Heap M} {t : Topo} {cf cp : Bool} {r : Heap M × Topo} (hr : clone h t cf cp = .ok r) : Grows h r := by
  unfold clone at hr
  dsimp only at hr
  refine foldlM_keeps (Grows h) (cloneIns cf cp) _ ?_ _ _ ?_ hr
  · intro w _ a b ha hb
    unfold cloneIns at hb
    split_ifs at hb
    · exact foldlM_keeps (Grows h) (cloneIn cf w) _ (fun j _ x y hx hy => cloneIn_grows hx hy) _ _ ha hb
    · cases hb; exact ha
  · unfold cloneNodes
    have gen : ∀ (l : List ℕ) (r : Heap M × Topo × List ℕ), Grows h (r.1, r.2.1) →
        Grows h ((l.foldl (fun r n =>
          let v := r.2.1.vertex n
          if isDecayVertex h t v ∨ t.isProd v ∨ (cf = true ∧ isFsVertex h t.toGraph v) then
            let c := cloneNode (r.1, r.2.1) n
            (c.1, c.2.1, r.2.2 ++ [c.2.2])
          else r) r).1, (l.foldl (fun r n =>
          let v := r.2.1.vertex n
          if isDecayVertex h t v ∨ t.isProd v ∨ (cf = true ∧ isFsVertex h t.toGraph v) then
            let c := cloneNode (r.1, r.2.1) n
            (c.1, c.2.1, r.2.2 ++ [c.2.2])
          else r) r).2.1) := by
      intro l
      induction l with
      | nil => intro r hr; exact hr
      | cons n l ih =>
        intro r hr
        rw [List.foldl_cons]
        refine ih _ ?_
        dsimp only
        split_ifs
        · obtain ⟨a, b⟩ := hr
          unfold cloneNode
          refine ⟨?_, b⟩
          simpa using Nat.le_succ_of_le a
        · exact hr
    exact gen _ _ ⟨Nat.le_refl _, Nat.le_refl _⟩

section
variable {h : Heap M} {t : Topo} {S : Tree}

theorem Whole.decay (w : Whole h t S) : IsDecay h.vtx S := by
  have : ∀ R ∈ S.subs, IsDecay h.vtx R := by
    intro R
    induction R with
    | leaf q => intro _; exact .leaf q
    | node v' p' l' r' ihl ihr =>
      intro hR
      obtain ⟨_, outs, h2, h3⟩ := w.ord.hends.hnode v' p' l' r' hR
      exact .node _ _ _ _ outs h2 h3 (ihl (node_subs hR).1) (ihr (node_subs hR).2)
  exact this S (self_sub S)

theorem Whole.at (w : Whole h t S) {v : ℕ} (hv : v ∈ t.nodes) : ∃ q ∈ S.parts, v = endOf t.toGraph S q := by
  rw [w.ord.nodes] at hv
  obtain ⟨q, hq, rfl⟩ := List.mem_map.1 hv
  exact ⟨q, hq, rfl⟩

/-- an isobar is no final-state particle. -/
theorem Whole.leaf_node (w : Whole h t S) {v p : ℕ} {l r : Tree} (hN : Tree.node v p l r ∈ S.subs) : p ∉ S.leaves := by
  intro hp
  have h1 := w.ord.hends.hleaf p (leaf_sub S p hp)
  obtain ⟨h2, outs, h3, _⟩ := w.ord.hends.hnode v p l r hN
  rw [h2, h3] at h1
  cases h1

variable [Inhabited M]

theorem Whole.good (w : Whole h t S) : Good h t := by
  have c := w.ord
  have hin : ∀ q ∈ S.parts, (h.vtx (endOf t.toGraph S q)).ins = [q] := fun q hq => c.hends.ins hq
  refine ⟨?_, c.hend, w.hlt, c.hv, c.hg.hedges, ?_, ?_, ?_, ?_, ?_, ?_, ?_, ?_, ?_, ?_, ?_⟩
  · rw [c.nodes]
    exact List.Nodup.map_on (fun _ hx _ hy hxy => c.hends.inj hx hy hxy) c.hnd
  · intro p a b
    constructor
    · exact c.hg.hpmap p a b
    · intro he
      obtain ⟨⟨a', b'⟩, hab⟩ := Option.isSome_iff_exists.1 (c.hg.hpart _ he)
      have h2 := c.part_unique (c.hg.hpmap _ _ _ hab) he rfl
      obtain ⟨h3, h4, _⟩ := Edge.mk.inj h2
      rw [hab, h3, h4]
  · intro v hv p hp
    obtain ⟨n, hn, rfl⟩ := mem_vertex hv
    rcases hp with hp | hp
    · obtain ⟨q, hq, _, hqi⟩ := c.ins_mem hn
      rw [hqi, List.mem_singleton] at hp
      exact hp ▸ w.hplt q hq
    · exact w.hplt p (c.outs_mem hn hp).1
  · intro v hv u hu p hpv hpu
    obtain ⟨q, hq, rfl⟩ := w.at hv
    obtain ⟨q', hq', rfl⟩ := w.at hu
    obtain ⟨v1, l1, r1, hN1, b1⟩ := (c.hends.outs hq).1 hpv
    obtain ⟨v2, l2, r2, hN2, b2⟩ := (c.hends.outs hq').1 hpu
    rw [mother_unique S c.hnd hN1 hN2 b1 b2]
  · intro v hv u hu p hpv hpu
    obtain ⟨q, hq, rfl⟩ := w.at hv
    obtain ⟨q', hq', rfl⟩ := w.at hu
    rw [hin q hq, List.mem_singleton] at hpv
    rw [hin q' hq', List.mem_singleton] at hpu
    rw [← hpv, hpu]
  · intro v hv
    obtain ⟨q, hq, rfl⟩ := w.at hv
    rw [hin q hq]
    simp
  · intro v hv p hp hc
    obtain ⟨n, hn, rfl⟩ := mem_vertex hv
    exact Joinable.self1 c hn hc hp
  · intro v hv
    rw [w.hprod] at hv
    cases hv
  · intro v hv
    rw [w.hdecays] at hv
    obtain ⟨p, l, r, hN, hu⟩ := c.hends.verts hv
    obtain ⟨_, outs, h2, _⟩ := c.hends.hnode v p l r hN
    exact ⟨hu ▸ c.mem (sub_top_mem S _ hN), p, outs, h2⟩
  · intro v hv
    obtain ⟨q, hq, rfl⟩ := w.at hv
    obtain ⟨R, hR, rfl⟩ := top_of S q hq
    cases R with
    | leaf p =>
      refine .inr (.inr ⟨p, ?_, c.hends.hleaf p hR⟩)
      rw [w.hfs]
      have : ∀ S : Tree, Tree.leaf p ∈ S.subs → p ∈ S.leaves := by
        intro S
        induction S with
        | leaf q => intro hc; cases List.mem_singleton.1 hc; simp [Tree.leaves]
        | node v q l r ihl ihr =>
          intro hc
          rcases List.mem_cons.1 hc with hc | hc
          · cases hc
          · rcases List.mem_append.1 hc with hc | hc
            · exact List.mem_append_left _ (ihl hc)
            · exact List.mem_append_right _ (ihr hc)
      exact this S hR
    | node v p l r =>
      refine .inr (.inl ?_)
      rw [w.hdecays, show endOf t.toGraph S (Tree.node v p l r).top = v from (c.hends.hnode v p l r hR).1]
      exact sub_vert S hR
  · intro p hp
    rw [w.hfs] at hp
    refine ⟨w.hplt p ((leaves_sub S).subset hp), fun v hv hc => ?_, fun v hv => by rw [w.hprod] at hv; cases hv⟩
    rw [w.hdecays] at hv
    obtain ⟨q, l, r, hN, _⟩ := c.hends.verts hv
    obtain ⟨_, outs, h2, _⟩ := c.hends.hnode v q l r hN
    rw [h2, List.mem_singleton] at hc
    exact w.leaf_node hN (hc ▸ hp)
  · intro e he hc
    rw [w.hprod] at hc
    cases hc

theorem endOf_mem {g : Graph} (c : InOrder h g S) {q : ℕ} (hq : q ∈ S.parts) : endOf g S q ∈ g.nodes := c.mem hq

/-- **clones**: the clone holds a tree like the old one with vertices and isobars of its own. -/
theorem Whole.cloned (w : Whole h t S) : ∃ h2 t2 σ τ, clone h t false false = .ok (h2, t2) ∧ Ext h h2 ∧ Whole h2 t2 (S.rename σ τ) ∧ Like S (S.rename σ τ) ∧
    Own h (S.rename σ τ) ∧ (∀ q ∈ S.parts, h2.part (τ q) = h.part q) ∧ ∀ q ∈ S.leaves, τ q = q := by
  obtain ⟨h2, t2, σ, τ, hc, iso, g2, hov, hop, hσ, hτ⟩ := clone_spec w.good false
  have c := w.ord
  obtain ⟨rv, rl, rp, rt⟩ := rename_lists σ τ S
  obtain ⟨hlenv, hlenp⟩ := clone_grows hc
  have hinj : ∀ p ∈ S.parts, ∀ q ∈ S.parts, τ p = τ q → p = q := fun p hp q hq => iso.hτ p (w.hplt p hp) q (w.hplt q hq)
  have hidx : ∀ q ∈ S.parts, (S.rename σ τ).parts.idxOf (τ q) = S.parts.idxOf q := by
    intro q hq
    rw [rp]
    have gen : ∀ l : List ℕ, (∀ p ∈ l, τ p = τ q → p = q) → (l.map τ).idxOf (τ q) = l.idxOf q := by
      intro l
      induction l with
      | nil => intro _; rfl
      | cons a l ih =>
        intro hl
        rw [List.forall_mem_cons] at hl
        by_cases ha : a = q
        · subst ha
          simp
        · rw [List.map_cons, List.idxOf_cons_ne _ (fun hc => ha (hl.1 hc)), List.idxOf_cons_ne _ ha, ih hl.2]
    exact gen _ fun p hp => hinj p hp q hq
  have hend : ∀ q ∈ S.parts, endOf t2.toGraph (S.rename σ τ) (τ q) = σ (endOf t.toGraph S q) := by
    intro q hq
    unfold endOf
    rw [hidx q hq]
    exact iso.vertex (by rw [c.hlen]; exact List.idxOf_lt_length_iff.2 hq)
  have hτleaf : ∀ p ∈ S.leaves, τ p = p := by
    intro p hp
    have h1 := hτ p
    rw [if_neg] at h1
    · exact h1
    · rintro (⟨v, hv, hc⟩ | ⟨hc, _⟩)
      · exact (w.good.hfs p (w.hfs ▸ hp)).2.1 v hv hc
      · cases hc
  have hsubs : ∀ R, R ∈ (S.rename σ τ).subs ↔ ∃ Q ∈ S.subs, Q.rename σ τ = R := by
    intro R
    rw [rename_subs, List.mem_map]
  refine ⟨h2, t2, σ, τ, hc, ⟨hlenv, hlenp, hov, hop⟩, ⟨⟨g2.hvinv, ⟨g2.hedges, fun p a b hp => (g2.hpm p a b).1 hp, fun e he => ?_⟩, g2.hend, ?_, ?_, ⟨?_, ?_⟩, ?_⟩, ?_, ?_, ?_, ?_, ?_⟩,
    like_rename σ τ S hτleaf, ⟨?_, ?_⟩, fun q hq => (iso.hpart q (w.hplt q hq)).2, hτleaf⟩
  · have := (g2.hpm e.part e.src e.dst).2 he
    rw [this]
    rfl
  · rw [rp]
    exact List.Nodup.map_on hinj c.hnd
  · rw [iso.len, c.hlen, rp, List.length_map]
  · intro p hp
    obtain ⟨Q, hQ, hQp⟩ := (hsubs _).1 hp
    cases Q with
    | leaf q =>
      have hq : q ∈ S.parts := sub_top_mem S _ hQ
      cases hQp
      rw [hend q hq, iso.hvtx _ (c.mem hq), c.hends.hleaf q hQ]
      rfl
    | node v q l r => cases hQp
  · intro v' p' l' r' hN
    obtain ⟨Q, hQ, hQp⟩ := (hsubs _).1 hN
    cases Q with
    | leaf q => cases hQp
    | node v p l r =>
      have hp : p ∈ S.parts := sub_top_mem S _ hQ
      cases hQp
      obtain ⟨e1, outs, e2, e3⟩ := c.hends.hnode v p l r hQ
      rw [hend p hp, e1]
      refine ⟨rfl, outs.map τ, ?_, ?_⟩
      · have := iso.hvtx _ (c.mem hp)
        rw [e1, e2] at this
        exact this
      · rw [(rename_lists σ τ l).2.2.2, (rename_lists σ τ r).2.2.2]
        rcases e3 with rfl | rfl
        · exact .inl rfl
        · exact .inr rfl
  · intro R hR
    obtain ⟨Q, hQ, rfl⟩ := (hsubs _).1 hR
    rw [(rename_lists σ τ Q).2.2.2, hidx _ (sub_top_mem S _ hQ), iso.succ, c.hsucc Q hQ]
    cases Q with
    | leaf q => rfl
    | node v p l r =>
      show _ = [_, _]
      rw [(rename_lists σ τ l).2.2.2, (rename_lists σ τ r).2.2.2, hidx _ (sub_top_mem S _ (node_subs hQ).1), hidx _ (sub_top_mem S _ (node_subs hQ).2)]
  · rw [iso.hprod, w.hprod]
    rfl
  · rw [iso.hdecays, w.hdecays, rv]
  · rw [iso.hfs, w.hfs, rl]
  · exact g2.hlt
  · intro p hp
    rw [rp] at hp
    obtain ⟨q, hq, rfl⟩ := List.mem_map.1 hp
    exact (iso.hpart q (w.hplt q hq)).1
  · intro v hv
    rw [rv] at hv
    obtain ⟨u, hu, rfl⟩ := List.mem_map.1 hv
    have hg := w.good.hdec u (w.hdecays ▸ hu)
    obtain ⟨hm, p, outs, h1⟩ := hg
    have := hσ u hm
    rw [if_neg (by rw [h1]; simp)] at this
    exact this
  · intro p hp hl
    rw [rp] at hp
    rw [rl] at hl
    obtain ⟨q, hq, rfl⟩ := List.mem_map.1 hp
    have hql : q ∉ S.leaves := fun hc => hl (List.mem_map_of_mem hc)
    obtain ⟨v, hv, hqv⟩ := inner_part w.decay q hq hql
    have := hτ q
    rw [if_pos (.inl ⟨v, w.hdecays ▸ hv, hqv⟩)] at this
    exact this

end
end Rpwa.Dec
