import Verif.Props.WaveGraphStep
import Mathlib.Tactic.Ring
/-! # From the final state to the X (C74) -/
namespace Rpwa.Dec
variable {M : Type} [Inhabited M]

/-- the template: graph `g` with tree `T`; `f q` is the node at which the particle `q` ends. -/
structure Tmpl (H : Heap M) (g : Graph) (f : ℕ → ℕ) (T : Tree) : Prop where
  hinj : ∀ p ∈ T.parts, ∀ q ∈ T.parts, f p = f q → p = q
  hnd : T.parts.Nodup
  hlt : ∀ p ∈ T.parts, p < H.parts.length
  hvlt : ∀ p ∈ T.parts, g.vertex (f p) < H.verts.length
  hmem : ∀ p ∈ T.parts, g.vertex (f p) ∈ g.nodes
  hends : Ends H.vtx (fun q => g.vertex (f q)) T
  hsucc : ∀ R ∈ T.subs, g.succ (f R.top) = match R with | .leaf _ => [] | .node _ _ l r => [f l.top, f r.top]

omit [Inhabited M] in
theorem Tmpl.sub {H : Heap M} {g : Graph} {f : ℕ → ℕ} {T S : Tree} (c : Tmpl H g f T) (hS : S ∈ T.subs) : Tmpl H g f S := by
  have hs := (sub_sublist T S hS).subset
  exact ⟨fun p hp q hq => c.hinj p (hs hp) q (hs hq), (sub_sublist T S hS).nodup c.hnd, fun p hp => c.hlt p (hs hp), fun p hp => c.hvlt p (hs hp), fun p hp => c.hmem p (hs hp),
    c.hends.sub hS, fun R hR => c.hsucc R (sub_trans T S hS R hR)⟩

omit [Inhabited M] in
theorem foldlM_exists {α β : Type} (I : β → Prop) (f : β → α → Outcome β) (l : List α) (hf : ∀ x ∈ l, ∀ a, I a → ∃ b, f a x = .ok b ∧ I b) (a : β) (ha : I a) :
    ∃ b, l.foldlM f a = .ok b ∧ I b := by
  induction l generalizing a with
  | nil => exact ⟨a, rfl, ha⟩
  | cons x l ih =>
    obtain ⟨b, h1, h2⟩ := hf x List.mem_cons_self a ha
    obtain ⟨c, h3, h4⟩ := ih (fun y hy => hf y (List.mem_cons_of_mem _ hy)) b h2
    exact ⟨c, by rw [List.foldlM_cons, h1]; exact h3, h4⟩

omit [Inhabited M] in
theorem isFs_iff {h : Heap M} {g : Graph} {v : ℕ} (hv : v ∈ g.nodes) : isFsVertex h g v = true ↔ (h.vtx v).kind = .fs := by
  unfold isFsVertex
  rw [decide_eq_true_iff]
  exact ⟨fun a => a.1, fun a => ⟨a, hv⟩⟩

variable {H : Heap M} {g : Graph} {f : ℕ → ℕ} {choose : Choose M} {sub : ℕ → Topo} {C : ℕ → ℕ → Part M → Prop}

/-- all pairs of daughter decays at a node. -/
theorem pairs_spec {n vq P o1 o2 : ℕ} {ql qr : Tree} {h2 : Heap M} (e2 : Ext H h2) (hvx : H.vtx (g.vertex n) = ⟨.decay, [P], [o1, o2]⟩) (hvlt : g.vertex n < H.verts.length)
    (hP : P < H.parts.length) (hC : ∀ k a b, ∀ c ∈ choose k n a b, C vq P (c.change (H.part P))) (xs : List (Topo × Topo))
    (hx : ∀ x ∈ xs, ∃ SL SR, Whole h2 x.1 SL ∧ Whole h2 x.2 SR ∧ Filled C h2 ql SL ∧ Filled C h2 qr SR ∧ P ∉ SL.parts ∧ P ∉ SR.parts ∧ ∀ q ∈ SL.parts, q ∉ SR.parts) :
    ∀ (h : Heap M) (W : List Topo), Ext h2 h → Poss C h2 h (.node vq P ql qr) W → ∃ h3 W3, xs.foldlM (combine choose g n) (h, W) = .ok (h3, W3) ∧ Ext h h3 ∧
      Poss C h2 h3 (.node vq P ql qr) W3 ∧ ∀ k : ℕ → ℕ, (∀ (h : Heap M) (n : ℕ) (a b : Topo), ((choose h n a b).map Choice.size).sum = k (g.vertex n)) → W3.length = W.length + xs.length * k (g.vertex n) := by
  induction xs with
  | nil => intro h W _ p; exact ⟨h, W, rfl, Ext.refl h, p, fun k _ => by simp⟩
  | cons x xs ih =>
    intro h W e p
    rw [List.forall_mem_cons] at hx
    obtain ⟨⟨SL, SR, w1, w2, l1, l2, n1, n2, n3⟩, hxs⟩ := hx
    have eh := e2.trans e
    obtain ⟨h3, W3, a1, a2, a3, h', a4⟩ := combine_spec (choose := choose) (g := g) (n := n) (vq := vq) (by rw [eh.hvtx _ hvlt, hvx]) (Nat.lt_of_lt_of_le hP eh.hp) p e
      (w1.mono e) (w2.mono e) (l1.congr fun q hq => e.hpart q (w1.hplt q hq)) (l2.congr fun q hq => e.hpart q (w2.hplt q hq))
      (fun k c hc => by rw [eh.hpart P hP]; exact hC k _ _ c hc) n1 n2 n3
    obtain ⟨h4, W4, b1, b2, b3, b4⟩ := ih hxs h3 W3 (e.trans a2) a3
    refine ⟨h4, W4, ?_, a2.trans b2, b3, fun k hk => ?_⟩
    · rw [List.foldlM_cons, a1]
      exact b1
    · rw [b4 k hk, a4, hk, List.length_cons]
      ring

theorem grow (Q : Tree) : Tmpl H g f Q → (∀ v p l r, Tree.node v p l r ∈ Q.subs → ∀ k a b, ∀ c ∈ choose k (f p) a b, C v p (c.change (H.part p))) → (∀ p, Tree.leaf p ∈ Q.subs → Whole H (sub (f p)) (.leaf p)) → ∀ (h : Heap M) (D : ℕ → List Topo), Ext H h → (∀ q ∈ Q.parts, D (f q) = []) →
    ∃ h2 D2, (Q.parts.map fun q => (f q, sub (f q))).reverse.foldlM (atNode choose g) (h, D) = .ok (h2, D2) ∧ Ext h h2 ∧
      (∀ n, (∀ q ∈ Q.parts, n ≠ f q) → D2 n = D n) ∧ Poss C h h2 Q (D2 (f Q.top)) ∧
      ∀ k : ℕ → ℕ, (∀ (h : Heap M) (n : ℕ) (a b : Topo), ((choose h n a b).map Choice.size).sum = k (g.vertex n)) → (D2 (f Q.top)).length = Q.count k := by
  induction Q with
  | leaf p =>
    intro c hC hs h D e hD
    have hp : p ∈ (Tree.leaf p).parts := by simp [Tree.parts]
    have hD0 : D (f p) = [] := hD p hp
    have w := (hs p (self_sub _)).mono e
    have hfs : isFsVertex h g (g.vertex (f p)) = true := by
      rw [isFs_iff (c.hmem p hp), e.hvtx _ (c.hvlt p hp), c.hends.hleaf p (self_sub _)]
    refine ⟨h, Function.update D (f p) (D (f p) ++ [sub (f p)]), ?_, Ext.refl h, ?_, ?_, ?_⟩
    · show List.foldlM (atNode choose g) (h, D) [(f p, sub (f p))] = _
      rw [List.foldlM_cons]
      unfold atNode
      rw [if_pos hfs]
      rfl
    · intro n hn
      rw [Function.update_of_ne (hn p hp)]
    · show Poss C h h _ (Function.update D (f p) (D (f p) ++ [sub (f p)]) (f p))
      rw [Function.update_self, hD0, List.nil_append]
      refine ⟨fun x hx => ?_, by simp⟩
      rw [List.mem_singleton.1 hx]
      refine ⟨.leaf p, w, .leaf p, ⟨fun v hv => (List.not_mem_nil hv).elim, fun q hq hql => absurd hq hql⟩⟩
    · intro k _
      show (Function.update D (f p) (D (f p) ++ [sub (f p)]) (f p)).length = _
      rw [Function.update_self, hD0]
      rfl
  | node v p l r ihl ihr =>
    intro c hC hs h D e hD
    obtain ⟨hls, hrs⟩ := node_subs (self_sub (Tree.node v p l r))
    have hsl : ∀ q ∈ l.parts, q ∈ (Tree.node v p l r).parts := fun q hq => List.mem_cons_of_mem _ (List.mem_append_left _ hq)
    have hsr : ∀ q ∈ r.parts, q ∈ (Tree.node v p l r).parts := fun q hq => List.mem_cons_of_mem _ (List.mem_append_right _ hq)
    have hpp : p ∈ (Tree.node v p l r).parts := List.mem_cons_self
    obtain ⟨hpn, hnd⟩ := List.nodup_cons.1 c.hnd
    obtain ⟨_, _, hdisj⟩ := List.nodup_append.1 hnd
    have hpl : p ∉ l.parts := fun hc => hpn (List.mem_append_left _ hc)
    have hpr : p ∉ r.parts := fun hc => hpn (List.mem_append_right _ hc)
    obtain ⟨h1, D1, a1, a2, a3, a4, a5⟩ := ihr (c.sub hrs) (fun v p l r hN => hC v p l r (sub_trans _ _ hrs _ hN)) (fun q hq => hs q (sub_trans _ _ hrs _ hq)) h D e fun q hq => hD q (hsr q hq)
    have hD1 : ∀ q ∈ l.parts, D1 (f q) = [] := by
      intro q hq
      rw [a3 (f q) fun q' hq' hc => ?_]
      · exact hD q (hsl q hq)
      · exact hdisj q hq q' hq' (c.hinj q (hsl q hq) q' (hsr q' hq') hc)
    obtain ⟨h2, D2, b1, b2, b3, b4, b5⟩ := ihl (c.sub hls) (fun v p l r hN => hC v p l r (sub_trans _ _ hls _ hN)) (fun q hq => hs q (sub_trans _ _ hls _ hq)) h1 D1 (e.trans a2) hD1
    have hDr : D2 (f r.top) = D1 (f r.top) := by
      refine b3 _ fun q hq hc => ?_
      exact hdisj q hq r.top (top_mem r) (c.hinj q (hsl q hq) r.top (hsr _ (top_mem r)) hc.symm)
    have hDp : D2 (f p) = [] := by
      rw [b3 (f p) fun q hq hc => ?_, a3 (f p) fun q hq hc => ?_]
      · exact hD p hpp
      · exact hpr (c.hinj p hpp q (hsr q hq) hc ▸ hq)
      · exact hpl (c.hinj p hpp q (hsl q hq) hc ▸ hq)
    have e2 : Ext H h2 := (e.trans a2).trans b2
    -- the vertex of the template
    obtain ⟨k1, outs, k2, k3⟩ := c.hends.hnode v p l r (self_sub _)
    have k1 : g.vertex (f p) = v := k1
    have houts : ∃ o1 o2, outs = [o1, o2] := by
      rcases k3 with rfl | rfl
      · exact ⟨_, _, rfl⟩
      · exact ⟨_, _, rfl⟩
    obtain ⟨o1, o2, ho⟩ := houts
    have hvx : H.vtx (g.vertex (f p)) = ⟨.decay, [p], [o1, o2]⟩ := by rw [k1, k2, ho]
    have hfs : ¬ isFsVertex h2 g (g.vertex (f p)) = true := by
      rw [isFs_iff (c.hmem p hpp), e2.hvtx _ (c.hvlt p hpp), hvx]
      simp
    have hsucc : g.succ (f p) = [f l.top, f r.top] := c.hsucc _ (self_sub _)
    -- all pairs
    have hpairs : ∀ x ∈ (D2 (f l.top)).product (D2 (f r.top)), ∃ SL SR, Whole h2 x.1 SL ∧ Whole h2 x.2 SR ∧ Filled C h2 l SL ∧ Filled C h2 r SR ∧ p ∉ SL.parts ∧ p ∉ SR.parts ∧
        ∀ q ∈ SL.parts, q ∉ SR.parts := by
      rintro ⟨x1, x2⟩ hx
      obtain ⟨hx1, hx2⟩ := List.mem_product.1 hx
      obtain ⟨SL, w1, l1, o1'⟩ := b4.hall x1 hx1
      rw [hDr] at hx2
      obtain ⟨SR, w2, l2, o2'⟩ := a4.hall x2 hx2
      have hll := l1.like.leaves
      have hlr := l2.like.leaves
      have hP := c.hlt p hpp
      have e1 := (e.trans a2).hp
      have ep := e.hp
      refine ⟨SL, SR, w1, w2.mono b2, l1, l2.congr (fun q hq => b2.hpart q (w2.hplt q hq)), fun hc => ?_, fun hc => ?_, fun q hq hq' => ?_⟩
      · by_cases hcl : p ∈ SL.leaves
        · rw [hll] at hcl
          exact hpl ((leaves_sub l).subset hcl)
        · have := o1'.hp p hc hcl
          omega
      · by_cases hcl : p ∈ SR.leaves
        · rw [hlr] at hcl
          exact hpr ((leaves_sub r).subset hcl)
        · have := o2'.hp p hc hcl
          omega
      · have hqr := w2.hplt q hq'
        by_cases hql : q ∈ SL.leaves
        · rw [hll] at hql
          have hqH := c.hlt q (hsl q ((leaves_sub l).subset hql))
          by_cases hqr' : q ∈ SR.leaves
          · rw [hlr] at hqr'
            exact hdisj q ((leaves_sub l).subset hql) q ((leaves_sub r).subset hqr') rfl
          · have := o2'.hp q hq' hqr'
            omega
        · have := o1'.hp q hq hql
          omega
    obtain ⟨h3, W3, d1, d2, d3, d4⟩ := pairs_spec (choose := choose) (n := f p) (vq := v) (ql := l) (qr := r) e2 hvx (c.hvlt p hpp) (c.hlt p hpp) (hC v p l r (self_sub _)) _ hpairs h2 (D2 (f p)) (Ext.refl h2) (by rw [hDp]; exact Poss.nil _ _ _ _)
    refine ⟨h3, Function.update D2 (f p) W3, ?_, (a2.trans b2).trans d2, ?_, ?_, ?_⟩
    · show List.foldlM (atNode choose g) (h, D) (List.map _ (p :: (l.parts ++ r.parts))).reverse = _
      rw [List.map_cons, List.map_append, List.reverse_cons, List.reverse_append, List.foldlM_append, List.foldlM_append, a1]
      show ((List.foldlM (atNode choose g) (h1, D1) _ >>= _) : Outcome _) = _
      rw [b1]
      show List.foldlM (atNode choose g) (h2, D2) [(f p, sub (f p))] = _
      rw [List.foldlM_cons]
      have : atNode choose g (h2, D2) (f p, sub (f p)) = .ok (h3, Function.update D2 (f p) W3) := by
        unfold atNode
        dsimp only
        rw [if_neg hfs, hsucc]
        dsimp only
        rw [d1]
        rfl
      rw [this]
      rfl
    · intro n hn
      rw [Function.update_of_ne (hn p hpp), b3 n fun q hq => hn q (hsl q hq), a3 n fun q hq => hn q (hsr q hq)]
    · show Poss C h h3 _ (Function.update D2 (f p) W3 (f p))
      rw [Function.update_self]
      exact d3.base (a2.trans b2)
    · intro k hk
      show (Function.update D2 (f p) W3 (f p)).length = l.count k * r.count k * k v
      rw [Function.update_self, d4 k hk, k1, hDp, show ((D2 (f l.top)).product (D2 (f r.top))).length = (D2 (f l.top)).length * (D2 (f r.top)).length from List.length_product _ _, b5 k hk, hDr, a5 k hk]
      simp

end Rpwa.Dec
