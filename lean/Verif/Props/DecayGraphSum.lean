import Verif.Props.DecayGraph
import Mathlib.Algebra.Group.Defs
/-! # C70: momenta of the isobars, and what the check does not see -/
namespace Rpwa.Dec
variable {M : Type} [Inhabited M]

theorem sum_congr [Add M] {f g : ℕ → M} (T : Tree) (hfg : ∀ p ∈ T.parts, f p = g p) : T.sum f = T.sum g := by
  induction T with
  | leaf p => exact hfg p (by simp [Tree.parts])
  | node v p l r ihl ihr =>
    show l.sum f + r.sum f = l.sum g + r.sum g
    rw [ihl fun q hq => hfg q (by simp [Tree.parts, hq]), ihr fun q hq => hfg q (by simp [Tree.parts, hq])]

theorem modify_part (ps : List (Part M)) (p q : ℕ) (f : Part M → Part M) (hp : p < ps.length) :
    (ps.modify p f).getD q ⟨"", -1, default⟩ = if q = p then f (ps.getD q ⟨"", -1, default⟩) else ps.getD q ⟨"", -1, default⟩ := by
  simp only [List.getD, List.getElem?_modify]
  by_cases h : p = q
  · subst h
    simp [List.getElem?_eq_getElem hp]
  · rw [if_neg fun hc => h hc.symm]
    simp [h]

/-- the state of the particles in the middle of the calculation. -/
structure Same (h k : Heap M) : Prop where
  hv : k.verts = h.verts
  hl : k.parts.length = h.parts.length
  hname : ∀ q, (k.part q).name = (h.part q).name ∧ (k.part q).index = (h.part q).index

theorem sub_top (T : Tree) : ∀ S ∈ T.subs, ∀ p ∈ S.parts, p ∈ T.parts := by
  induction T with
  | leaf p =>
    intro S hS
    rw [List.mem_singleton.1 hS]
    exact fun _ h => h
  | node v p l r ihl ihr =>
    intro S hS q hq
    rcases List.mem_cons.1 hS with rfl | hS
    · exact hq
    · rcases List.mem_append.1 hS with hS | hS
      · simp [Tree.parts, ihl S hS q hq]
      · simp [Tree.parts, ihr S hS q hq]

theorem calc_tree [AddCommMagma M] {vtx : ℕ → Vtx} {T : Tree} (hT : IsDecay vtx T) : ∀ (k : Heap M), k.vtx = vtx → T.parts.Nodup →
    (∀ v ∈ T.verts, ∀ p ∈ (vtx v).ins, p < k.parts.length) → Same k (T.verts.reverse.foldl calcStep k) ∧
    (∀ q, q ∉ T.parts → (T.verts.reverse.foldl calcStep k).part q = k.part q) ∧
    ∀ S ∈ T.subs, ((T.verts.reverse.foldl calcStep k).part S.top).mom = S.sum fun p => (k.part p).mom := by
  induction hT with
  | leaf p =>
    intro k _ _ _
    refine ⟨⟨rfl, rfl, fun _ => ⟨rfl, rfl⟩⟩, fun _ _ => rfl, fun S hS => ?_⟩
    rw [List.mem_singleton.1 hS]
    rfl
  | node v p l r outs hv ho _ _ ihl ihr =>
    intro k hk hn hp
    have hn1 := List.nodup_cons.1 hn
    have hn2 := List.nodup_append.1 hn1.2
    obtain ⟨⟨rv, rl, rn⟩, r2, r3⟩ := ihr k hk hn2.2.1 fun u hu => hp u (by simp [Tree.verts, hu])
    obtain ⟨kr, hkr⟩ : ∃ kr, kr = r.verts.reverse.foldl calcStep k := ⟨_, rfl⟩
    rw [← hkr] at rv rl rn r2 r3
    have hkv : kr.vtx = vtx := by rw [← hk]; unfold Heap.vtx; rw [rv]
    obtain ⟨⟨lv, ll, ln⟩, l2, l3⟩ := ihl kr hkv hn2.1 fun u hu q hq => by rw [rl]; exact hp u (by simp [Tree.verts, hu]) q hq
    obtain ⟨kl, hkl⟩ : ∃ kl, kl = l.verts.reverse.foldl calcStep kr := ⟨_, rfl⟩
    rw [← hkl] at lv ll ln l2 l3
    have hlv : kl.vtx v = ⟨.decay, [p], outs⟩ := by
      unfold Heap.vtx
      rw [lv, rv]
      have := congrFun hk v
      unfold Heap.vtx at this
      rw [this, hv]
    have hfold : (Tree.node v p l r).verts.reverse.foldl calcStep k = calcStep kl v := by
      show (v :: (l.verts ++ r.verts)).reverse.foldl calcStep k = _
      rw [List.reverse_cons, List.reverse_append, List.foldl_append, List.foldl_append, ← hkr, ← hkl]
      rfl
    have hpl : p < kl.parts.length := by
      rw [ll, rl]
      exact hp v (by simp [Tree.verts]) p (by rw [hv]; simp)
    have hlr : ∀ q ∈ l.parts, q ∉ r.parts := fun q h1 h2 => hn2.2.2 q h1 q h2 rfl
    have hpL : p ∉ l.parts := fun hc => hn1.1 (List.mem_append_left _ hc)
    have hpR : p ∉ r.parts := fun hc => hn1.1 (List.mem_append_right _ hc)
    have suml : ∀ S ∈ l.subs, (kl.part S.top).mom = S.sum fun q => (k.part q).mom := by
      intro S hS
      rw [l3 S hS]
      refine sum_congr S fun q hq => ?_
      rw [r2 q (hlr q (sub_top l S hS q hq))]
    have sumr : ∀ S ∈ r.subs, (kl.part S.top).mom = S.sum fun q => (k.part q).mom := by
      intro S hS
      have hin := sub_top r S hS S.top (top_mem S)
      rw [l2 S.top (fun hc => hlr _ hc hin), r3 S hS]
    have topsub : ∀ S : Tree, S ∈ S.subs := by intro S; cases S <;> simp [Tree.subs]
    have hstep : ∀ q, (calcStep kl v).part q = if q = p then { kl.part q with mom := (Tree.node v p l r).sum fun q => (k.part q).mom } else kl.part q := by
      intro q
      have hs : calcStep kl v = { kl with parts := kl.parts.modify p fun x => { x with mom := (Tree.node v p l r).sum fun q => (k.part q).mom } } := by
        unfold calcStep
        rw [hlv]
        rcases ho with rfl | rfl
        · show ({ kl with parts := kl.parts.modify p fun x => { x with mom := (kl.part l.top).mom + (kl.part r.top).mom } } : Heap M) = _
          rw [suml l (topsub l), sumr r (topsub r)]
          rfl
        · show ({ kl with parts := kl.parts.modify p fun x => { x with mom := (kl.part r.top).mom + (kl.part l.top).mom } } : Heap M) = _
          rw [suml l (topsub l), sumr r (topsub r), add_comm]
          rfl
      rw [hs]
      exact modify_part _ _ _ _ hpl
    have hsv : (calcStep kl v).verts = kl.verts ∧ (calcStep kl v).parts.length = kl.parts.length := by
      unfold calcStep
      rw [hlv]
      rcases ho with rfl | rfl <;> exact ⟨rfl, by simp⟩
    rw [hfold]
    refine ⟨⟨hsv.1.trans (lv.trans rv), hsv.2.trans (ll.trans rl), fun q => ?_⟩, fun q hq => ?_, fun S hS => ?_⟩
    · rw [hstep]
      have a := ln q
      have b := rn q
      by_cases hqp : q = p
      · rw [if_pos hqp]
        exact ⟨a.1.trans b.1, a.2.trans b.2⟩
      · rw [if_neg hqp]
        exact ⟨a.1.trans b.1, a.2.trans b.2⟩
    · have hq1 : q ≠ p := fun hc => hq (by rw [hc]; simp [Tree.parts])
      rw [hstep, if_neg hq1, l2 q (fun hc => hq (by simp [Tree.parts, hc])), r2 q (fun hc => hq (by simp [Tree.parts, hc]))]
    · rcases List.mem_cons.1 hS with rfl | hS
      · rw [hstep, if_pos (show (Tree.node v p l r).top = p from rfl)]
      · rcases List.mem_append.1 hS with hS | hS
        · rw [hstep, if_neg (fun hc : S.top = p => hpL (hc ▸ sub_top l S hS S.top (top_mem S)))]
          exact suml S hS
        · rw [hstep, if_neg (fun hc : S.top = p => hpR (hc ▸ sub_top r S hS S.top (top_mem S)))]
          exact sumr S hS

/-- **in a valid topology the momentum of every isobar is the sum over the final-state particles it decays into**; final-state particles and particles outside
the decay keep theirs. -/
theorem momenta_add_up [AddCommMagma M] {h : Heap M} {prod : ℕ} {decays fs : List ℕ} (hi : Input h prod decays) (hs : NoSharing h prod decays)
    (hp : ∀ v ∈ decays, ∀ p ∈ (h.vtx v).ins, p < h.parts.length) {h' : Heap M} {t : Topo} (hc : constructIsobarDecay h prod decays fs true = .ok (h', t))
    (hk : isobarCheck h' t = .ok true) :
    ∃ T, IsTree h prod decays fs T ∧ (∀ S ∈ T.subs, ((calcIsobarLzVec h' t).part S.top).mom = S.sum fun p => (h.part p).mom) ∧
      ∀ q, q ∉ T.parts → (calcIsobarLzVec h' t).part q = h.part q := by
  obtain ⟨T, hT, hd, _⟩ := accepted_is_tree hi hs hc hk
  obtain ⟨_, _, hr, _, _⟩ := (construct_iff hi hs _).1 hc
  cases hr
  have hdec : IsDecay (withFs h fs).vtx T := hT.hdecay.congr fun v hv => (withFs_old h fs (hi.hdecays v (hT.hverts.subset hv))).symm
  obtain ⟨_, h2, h3⟩ := calc_tree hdec (withFs h fs) rfl hT.hparts fun v hv p hpv => by
    rw [withFs_old h fs (hi.hdecays v (hT.hverts.subset hv))] at hpv
    exact hp v (hT.hverts.subset hv) p hpv
  unfold calcIsobarLzVec
  rw [hd]
  exact ⟨T, hT, h3, h2⟩

/-! ### a case, and what the check does not see -/

theorem leaves_length (T : Tree) : T.leaves.length = T.verts.length + 1 := by
  induction T with
  | leaf p => rfl
  | node v p l r ihl ihr =>
    simp only [Tree.leaves, Tree.verts, List.length_append, List.length_cons, ihl, ihr]
    omega

/-- X⁻ → ρ⁰ π⁻, ρ⁰ → π⁺ π⁻; the vertices are given from the bottom to the top. Particles: X, ρ, π₂⁻, π⁺, π₁⁻, beam, target, recoil. -/
def exHeap : Heap ℤ :=
  { verts := [⟨.prod, [5, 6], [0, 7]⟩, ⟨.decay, [1], [3, 4]⟩, ⟨.decay, [0], [1, 2]⟩]
    parts := [⟨"X-", -1, 0⟩, ⟨"rho(770)0", -1, 0⟩, ⟨"pi-", 1, 5⟩, ⟨"pi+", 0, 3⟩, ⟨"pi-", 0, 2⟩, ⟨"pi-", -1, 9⟩, ⟨"p+", -1, 1⟩, ⟨"p+", -1, 0⟩] }

def exTree : Tree := .node 2 0 (.node 1 1 (.leaf 3) (.leaf 4)) (.leaf 2)

theorem ex_input : Input exHeap 0 [1, 2] ∧ NoSharing exHeap 0 [1, 2] := by
  refine ⟨⟨by decide, by decide, rfl, ?_, by decide, by decide, by decide⟩, by unfold NoSharing; decide⟩
  intro v hv
  simp at hv
  rcases hv with rfl | rfl
  · exact ⟨1, 3, 4, rfl⟩
  · exact ⟨0, 1, 2, rfl⟩

theorem ex_tree : IsTree exHeap 0 [1, 2] [2, 3, 4] exTree := by
  refine ⟨.node _ _ _ _ _ rfl (.inl rfl) (.node _ _ _ _ _ rfl (.inl rfl) (.leaf _) (.leaf _)) (.leaf _), rfl, by decide, by decide, by decide, by decide⟩

theorem ex_good : GoodIndices exHeap [2, 3, 4] := by
  right
  intro p hp
  simp at hp
  rcases hp with rfl | rfl | rfl <;> decide

theorem ex_accepted : ∃ h' t, constructIsobarDecay exHeap 0 [1, 2] [2, 3, 4] true = .ok (h', t) ∧ isobarCheck h' t = .ok true :=
  tree_is_accepted ex_input.1 ex_input.2 (by decide) ex_tree ex_good

/-- X → A B, A → π₁ π₂, B → π₂ π₃ with one and the same object π₂. -/
def sharedHeap : Heap ℤ :=
  { verts := [⟨.prod, [], [0]⟩, ⟨.decay, [0], [1, 2]⟩, ⟨.decay, [1], [3, 4]⟩, ⟨.decay, [2], [4, 5]⟩]
    parts := [⟨"X", -1, 0⟩, ⟨"A", -1, 0⟩, ⟨"B", -1, 0⟩, ⟨"pi1", -1, 1⟩, ⟨"pi2", -1, 10⟩, ⟨"pi3", -1, 100⟩] }

/-- **the check does not see that a particle is shared by two vertices**: the topology is accepted although it is no tree, and X gets the momentum of π₂ twice. -/
theorem shared_accepted : Input sharedHeap 0 [1, 2, 3] ∧ (¬ ∃ T, IsTree sharedHeap 0 [1, 2, 3] [3, 4, 5] T) ∧
    ∃ h' t, constructIsobarDecay sharedHeap 0 [1, 2, 3] [3, 4, 5] true = .ok (h', t) ∧ isobarCheck h' t = .ok true ∧
      ((calcIsobarLzVec h' t).part 0).mom = 1 + 10 + 10 + 100 := by
  refine ⟨⟨by decide, by decide, rfl, ?_, by decide, by decide, by decide⟩, ?_, ?_⟩
  · intro v hv
    simp at hv
    rcases hv with rfl | rfl | rfl
    · exact ⟨0, 1, 2, rfl⟩
    · exact ⟨1, 3, 4, rfl⟩
    · exact ⟨2, 4, 5, rfl⟩
  · rintro ⟨T, hT⟩
    have h1 := leaves_length T
    rw [hT.hleaves.length_eq, hT.hverts.length_eq] at h1
    simp at h1
  · refine ⟨_, _, rfl, rfl, rfl⟩

end Rpwa.Dec
