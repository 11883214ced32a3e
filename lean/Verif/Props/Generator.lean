import Verif.Model.Generator
import Verif.Spec.Generator
import Verif.Props.PhaseSpaceAll
import Mathlib.Tactic.IntervalCases

/-!
# C45: maximum weights of the event generator; complete events
-/

namespace Rpwa.Gen

open Spec

/-- the phase-space generator is set up for the given masses -/
structure Ready (ps : PS) (masses : List ℝ) : Prop where
  conf : Configured ps
  n : ps.n = masses.length
  m : ps.m = fun i => masses.getD i 0
  wt : ps.weightType = .chung
  norm : ps.norm = PS.normOf .chung masses.length
  kin : ps.kinType = .block

theorem sums_eq_sum (masses : List ℝ) : ∀ k, k < masses.length →
    PS.sums (fun i => masses.getD i 0) k = (masses.take (k + 1)).sum := by
  intro k
  induction k with
  | zero =>
    intro h
    cases masses with
    | nil => simp at h
    | cons a l => simp [PS.sums]
  | succ k ih =>
    intro h
    show PS.sums _ k + masses.getD (k + 1) 0 = _
    rw [ih (by omega), List.take_add_one (l := masses) (i := k + 1), List.getElem?_eq_getElem h, List.sum_append]
    rw [List.getD_eq_getElem _ _ h]
    simp

theorem sums_total {masses : List ℝ} (h : 1 ≤ masses.length) :
    PS.sums (fun i => masses.getD i 0) (masses.length - 1) = masses.sum := by
  rw [sums_eq_sum masses _ (by omega), Nat.sub_add_cancel h, List.take_length]

theorem Ready.mSum {ps : PS} {masses : List ℝ} (h : Ready ps masses) : ps.mSum (ps.n - 1) = masses.sum := by
  have h2 := h.conf.two
  rw [h.n] at h2
  rw [h.conf.sums, h.m, h.n]
  exact sums_total (by omega)

/-- one event of the estimate -/
theorem weigh_ready {ps : PS} {masses : List ℝ} (hr : Ready ps masses) {W : ℝ} (hW : masses.sum ≤ W)
    (hp : 0 < masses.getD 0 0 + masses.getD 1 0 ∨ masses.sum < W) {rnd : PS.Randoms}
    (hrnd : Rnd masses.length rnd) :
    ∃ ps', (ps.pickMasses W rnd.draws rnd.r).calcWeight = some ps' ∧ Ready ps' masses ∧
      Possible masses W ps'.M ∧ ps'.weight = psWeight masses ps'.M ∧ 0 ≤ ps'.weight ∧
      ps'.maxWeight = ps.maxWeight ∧ Momenta ps'.n ps'.m ps'.M ps'.q := by
  have hc := hr.conf
  obtain ⟨M, e, hv, hM⟩ := pickMasses_valid ps hc (W := W) (by rw [hr.mSum]; exact hW)
    (by rw [hr.mSum, hr.m]; exact hp) (rnd := rnd) (by rw [hr.n]; exact hrnd)
  obtain ⟨q, e2, hq, _⟩ := calcWeight_eq { ps with M := M } hc.two hc.sums hv
  obtain ⟨g', e3, hw⟩ := weight_chung { ps with M := M } hc.two hc.sums hv hr.wt (by
    show ps.norm = _
    rw [hr.norm]
    show _ = PS.normOf .chung ps.n
    rw [hr.n])
  obtain ⟨g'', e4, hw0⟩ := weight_chung_nonneg { ps with M := M } hc.two hc.sums hv hr.wt (by
    show ps.norm = _
    rw [hr.norm]
    show _ = PS.normOf .chung ps.n
    rw [hr.n])
  have he := e3.symm.trans e2
  have he4 := e4.symm.trans e2
  cases he4
  cases he
  rw [e]
  refine ⟨_, e2, ⟨⟨hc.two, hc.nonneg, hc.sums, hv.first⟩, hr.n, hr.m, hr.wt, hr.norm, hr.kin⟩, ⟨?_, ?_⟩, ?_,
    hw0, rfl, hq⟩
  · show ValidMasses _ _ M
    have h := hv
    rw [hr.m, hr.n] at h
    exact h
  · show M _ = W
    rw [← hr.n]
    exact hM
  · rw [hw]
    unfold psWeight
    dsimp only
    rw [hr.mSum, hr.n, hr.m]

/-- `estimateMaxWeight` gives the largest weight of a sample -/
theorem estimate_ready {masses : List ℝ} {W : ℝ} (hW : masses.sum ≤ W)
    (hp : 0 < masses.getD 0 0 + masses.getD 1 0 ∨ masses.sum < W) (rnds : List PS.Randoms)
    (hrnd : ∀ rnd ∈ rnds, Rnd masses.length rnd) {ps : PS} (hr : Ready ps masses) :
    ∃ ps' w, ps.estimateMaxWeight W rnds = some (ps', w) ∧ Ready ps' masses ∧
      ∃ sample : List (ℕ → ℝ), sample.length = rnds.length ∧
        (∀ M ∈ sample, Possible masses W M ∧ psWeight masses M ≤ w ∧ 0 ≤ psWeight masses M) ∧
        (w = 0 ∨ ∃ M ∈ sample, w = psWeight masses M) := by
  induction rnds using List.reverseRecOn with
  | nil => exact ⟨ps, 0, rfl, hr, [], rfl, fun M h => by simp at h, Or.inl rfl⟩
  | append_singleton rnds rnd ih =>
    obtain ⟨ps1, w1, e1, hr1, sample, hl, hs, hw⟩ := ih (fun r h => hrnd r (by simp [h]))
    obtain ⟨ps2, e2, hr2, hpo, hwt, h0, _, _⟩ := weigh_ready hr1 hW hp (hrnd rnd (by simp))
    refine ⟨ps2, max ps2.weight w1, ?_, hr2, sample ++ [ps2.M], by simp [hl], ?_, ?_⟩
    · unfold PS.estimateMaxWeight at e1 ⊢
      rw [List.foldlM_append, e1]
      show (((ps1.pickMasses W rnd.draws rnd.r).calcWeight).bind fun g =>
        some (g, max g.weight w1)).bind some = _
      rw [e2]
      rfl
    · intro M hM
      rcases List.mem_append.mp hM with h | h
      · obtain ⟨h1, h2, h3⟩ := hs M h
        exact ⟨h1, h2.trans (le_max_right _ _), h3⟩
      · rw [List.mem_singleton.mp h, ← hwt]
        exact ⟨hpo, le_max_left _ _, h0⟩
    · rcases le_total w1 ps2.weight with h | h
      · right
        exact ⟨ps2.M, by simp, by rw [max_eq_left h, hwt]⟩
      · rw [max_eq_right h]
        rcases hw with h3 | ⟨M, hM, h3⟩
        · exact Or.inl h3
        · exact Or.inr ⟨M, by simp [hM], h3⟩

theorem estimate_ready' {masses : List ℝ} {W : ℝ} (hW : masses.sum ≤ W)
    (hp : 0 < masses.getD 0 0 + masses.getD 1 0 ∨ masses.sum < W) {rnds : List PS.Randoms} (hne : rnds ≠ [])
    (hrnd : ∀ rnd ∈ rnds, Rnd masses.length rnd) {ps : PS} (hr : Ready ps masses) :
    ∃ ps' w, ps.estimateMaxWeight W rnds = some (ps', w) ∧ Ready ps' masses ∧
      Estimate masses W (101 / 100 * w) := by
  obtain ⟨ps', w, e, hr', sample, hl, hs, hw⟩ := estimate_ready hW hp rnds hrnd hr
  refine ⟨ps', w, e, hr', sample, fun M hM => ⟨(hs M hM).1, by have := (hs M hM).2.1; linarith⟩, ?_⟩
  rcases hw with h | ⟨M, hM, h⟩
  · have hlen : 0 < sample.length := by
      rw [hl]; exact List.length_pos_of_ne_nil hne
    have hm := List.getElem_mem hlen
    refine ⟨_, hm, ?_⟩
    have h1 := hs _ hm
    have : psWeight masses sample[0] = 0 := le_antisymm (by rw [← h]; exact h1.2.1) h1.2.2
    rw [this, h]
  · exact ⟨M, hM, by rw [h]⟩

/-- random numbers for one configuration call -/
def RndsOk (n : ℕ) (rnds : ℕ → List PS.Randoms) : Prop :=
  ∀ i, rnds i ≠ [] ∧ ∀ rnd ∈ rnds i, Rnd n rnd

/-- the loop over the slices: one estimate for each -/
theorem estimateLoop {masses : List ℝ} {rnds : ℕ → List PS.Randoms} (hrnds : RndsOk masses.length rnds) :
    ∀ (slices : List ℝ) (k : ℕ) (ps : PS) (ws : List ℝ), Ready ps masses →
      (∀ W ∈ slices, masses.sum ≤ W ∧ (0 < masses.getD 0 0 + masses.getD 1 0 ∨ masses.sum < W)) →
      ∃ ps' new, (slices.zipIdx k).foldlM (Diff.estimateStep rnds) (ps, ws) = some (ps', ws ++ new) ∧
        Ready ps' masses ∧ List.Forall₂ (Estimate masses) slices new := by
  intro slices
  induction slices with
  | nil => exact fun k ps ws hr _ => ⟨ps, [], by simp, hr, List.Forall₂.nil⟩
  | cons W rest ih =>
    intro k ps ws hr hth
    obtain ⟨h1, h2⟩ := hth W (by simp)
    obtain ⟨ps1, w, e1, hr1, hE⟩ := estimate_ready' h1 h2 (hrnds k).1 (hrnds k).2 hr
    obtain ⟨ps', new, e2, hr', hF⟩ := ih (k + 1) { ps1 with maxWeight := 101 / 100 * w }
      (ws ++ [101 / 100 * w]) ⟨⟨hr1.conf.two, hr1.conf.nonneg, hr1.conf.sums, hr1.conf.first⟩, hr1.n, hr1.m, hr1.wt, hr1.norm, hr1.kin⟩
      (fun V hV => hth V (by simp [hV]))
    refine ⟨ps', 101 / 100 * w :: new, ?_, hr', List.Forall₂.cons hE hF⟩
    rw [List.zipIdx_cons, List.foldlM_cons]
    have : Diff.estimateStep rnds (ps, ws) (W, k) = some ({ ps1 with maxWeight := 101 / 100 * w }, ws ++ [101 / 100 * w]) := by
      unfold Diff.estimateStep
      dsimp only
      rw [e1]
      rfl
    rw [this]
    change (Option.bind (some _) _) = _
    rw [Option.bind_some, e2]
    simp

/-! ## slices -/

theorem findWeight_spec {x : ℝ} {R : ℝ → ℝ → Prop} : ∀ {ss ws : List ℝ} (_ : List.Forall₂ R ss ws)
    (ss' ws' : List ℝ), (∃ S ∈ ss, x ≤ S) →
    ∃ (i : ℕ) (S w : ℝ), ss[i]? = some S ∧ ws[i]? = some w ∧ R S w ∧ x ≤ S ∧ (∀ j < i, ∀ S', ss[j]? = some S' → S' < x) ∧
      Diff.findWeight x (ss ++ ss') (ws ++ ws') = some w := by
  intro ss ws h
  induction h with
  | nil => exact fun _ _ h => by simp at h
  | @cons S w ss ws hR hF ih =>
    intro ss' ws' hex
    by_cases hx : x > S
    · obtain ⟨i, S1, w1, h1, h2, h3, h4, h5, h6⟩ := ih ss' ws' (by
        obtain ⟨S', hS', hle⟩ := hex
        rcases List.mem_cons.mp hS' with h | h
        · rw [h] at hle; linarith
        · exact ⟨S', h, hle⟩)
      refine ⟨i + 1, S1, w1, h1, h2, h3, h4, ?_, ?_⟩
      · intro j hj S' hS'
        rcases j with _ | j
        · cases hS'
          exact hx
        · exact h5 j (by omega) S' hS'
      · show (if x > S then _ else _) = _
        rw [if_pos hx]
        exact h6
    · exact ⟨0, S, w, rfl, rfl, hR, not_lt.mp hx, fun j hj => absurd hj (Nat.not_lt_zero j), if_neg hx⟩

/-- number of slices -/
noncomputable def nSlices (lo hi : ℝ) : ℕ := if hi - lo < 1 / 2 then 1 else 10

theorem nSlices_pos (lo hi : ℝ) : 0 < nSlices lo hi := by
  unfold nSlices
  split <;> norm_num

theorem slice_get (lo hi : ℝ) (i : ℕ) (h : i < nSlices lo hi) :
    (Diff.sliceList lo hi)[i]? = some (lo + (hi - lo) / nSlices lo hi * (i + 1)) := by
  unfold Diff.sliceList
  dsimp only
  show (List.map _ (List.range (nSlices lo hi)))[i]? = _
  rw [List.getElem?_map, List.getElem?_range h]
  rfl

theorem slice_length (lo hi : ℝ) : (Diff.sliceList lo hi).length = nSlices lo hi := by
  unfold Diff.sliceList nSlices
  simp

theorem slice_last (lo hi : ℝ) : hi ∈ Diff.sliceList lo hi := by
  have hn := nSlices_pos lo hi
  have h := slice_get lo hi (nSlices lo hi - 1) (by omega)
  have e : lo + (hi - lo) / nSlices lo hi * (((nSlices lo hi - 1 : ℕ) : ℝ) + 1) = hi := by
    have : (((nSlices lo hi - 1 : ℕ) : ℝ) + 1) = nSlices lo hi := by
      rw [Nat.cast_sub hn]; push_cast; ring
    rw [this]
    have : (nSlices lo hi : ℝ) ≠ 0 := by exact_mod_cast hn.ne'
    field_simp
    ring
  rw [e] at h
  exact List.mem_of_getElem? h

/-- the slice of a mass reaches from at most the mass to less than one width above it -/
theorem slice_tight {lo hi x : ℝ} (hlo : lo < x) (hlohi : lo ≤ hi) {i : ℕ} {S : ℝ}
    (hS : (Diff.sliceList lo hi)[i]? = some S)
    (hlow : ∀ j < i, ∀ S', (Diff.sliceList lo hi)[j]? = some S' → S' < x) :
    S - x < (hi - lo) / nSlices lo hi ∨ S = x ∧ lo = hi := by
  have hi' : i < nSlices lo hi := by
    rw [← slice_length]
    exact (List.getElem?_eq_some_iff.mp hS).1
  rw [slice_get lo hi i hi'] at hS
  cases hS
  have hw : 0 ≤ (hi - lo) / nSlices lo hi := div_nonneg (by linarith) (Nat.cast_nonneg _)
  rcases i with _ | i
  · left
    push_cast
    linarith
  · have h := hlow i (by omega) _ (slice_get lo hi i (by omega))
    left
    push_cast at h ⊢
    linarith

/-! ## configuration histories -/

/-- configuration calls -/
inductive Cfg
  | set (masses : List ℝ) (rnds : ℕ → List PS.Randoms)
  | add (mass : ℝ) (rnds : ℕ → List PS.Randoms)
  | range (lo hi : ℝ)

/-- one call -/
noncomputable def Cfg.run (g : Diff) : Cfg → Option Diff
  | .set masses rnds => g.setDecayProducts masses rnds
  | .add mass rnds => g.addDecayProduct mass rnds
  | .range lo hi => some (g.setRange lo hi)

theorem estimateLoop_append (rnds : ℕ → List PS.Randoms) : ∀ (l : List (ℝ × ℕ)) (s s' : PS × List ℝ),
    l.foldlM (Diff.estimateStep rnds) s = some s' → ∃ new, s'.2 = s.2 ++ new := by
  intro l
  induction l with
  | nil =>
    intro s s' h
    cases h
    exact ⟨[], by simp⟩
  | cons p l ih =>
    intro s s' h
    rw [List.foldlM_cons] at h
    cases h1 : Diff.estimateStep rnds s p with
    | none => rw [h1] at h; cases h
    | some s1 =>
      rw [h1] at h
      obtain ⟨new, hn⟩ := ih s1 s' h
      unfold Diff.estimateStep at h1
      cases h2 : s.1.estimateMaxWeight p.1 (rnds p.2) with
      | none => rw [h2] at h1; cases h1
      | some r =>
        rw [h2] at h1
        cases h1
        exact ⟨_, by rw [hn, List.append_assoc]⟩

theorem build_append (g g' : Diff) (rnds : ℕ → List PS.Randoms) (h : g.build rnds = some g') :
    ∃ a b, g'.slices = g.slices ++ a ∧ g'.weights = g.weights ++ b := by
  unfold Diff.build at h
  by_cases h1 : g.products.length ≤ 1
  · rw [if_pos h1] at h
    cases h
    exact ⟨[], [], by simp⟩
  · rw [if_neg h1] at h
    cases hr : g.range with
    | none => rw [hr] at h; cases h
    | some p =>
      obtain ⟨lo, hi⟩ := p
      rw [hr] at h
      dsimp only at h
      by_cases h2 : hi < lo ∨ hi ≤ 0
      · rw [if_pos h2] at h; cases h
      · rw [if_neg h2] at h
        cases h3 : (g.slices ++ Diff.sliceList lo hi).zipIdx.foldlM (Diff.estimateStep rnds)
            ((g.ps.setDecay g.products).1, g.weights) with
        | none => rw [h3] at h; cases h
        | some s =>
          rw [h3] at h
          cases h
          obtain ⟨new, hn⟩ := estimateLoop_append rnds _ _ _ h3
          exact ⟨_, new, rfl, hn⟩

/-- every configuration call only appends to the slices and to the weights -/
theorem run_append (g g' : Diff) (c : Cfg) (h : c.run g = some g') :
    ∃ a b, g'.slices = g.slices ++ a ∧ g'.weights = g.weights ++ b := by
  cases c with
  | set masses rnds => exact build_append { g with products := masses } g' rnds h
  | add mass rnds => exact build_append { g with products := g.products ++ [mass] } g' rnds h
  | range lo hi =>
    cases h
    exact ⟨[], [], by simp [Diff.setRange]⟩

theorem runs_append : ∀ (cs : List Cfg) (g g' : Diff), cs.foldlM Cfg.run g = some g' →
    ∃ a b, g'.slices = g.slices ++ a ∧ g'.weights = g.weights ++ b := by
  intro cs
  induction cs with
  | nil =>
    intro g g' h
    cases h
    exact ⟨[], [], by simp⟩
  | cons c cs ih =>
    intro g g' h
    rw [List.foldlM_cons] at h
    cases h1 : c.run g with
    | none => rw [h1] at h; cases h
    | some g1 =>
      rw [h1] at h
      obtain ⟨a, b, h2, h3⟩ := ih g1 g' h
      obtain ⟨a', b', h4, h5⟩ := run_append g g1 c h1
      exact ⟨a' ++ a, b' ++ b, by rw [h2, h4, List.append_assoc], by rw [h3, h5, List.append_assoc]⟩

/-- a final state that can be configured for a mass range: at least two particles, and the lowest slice is
not below their threshold -/
structure FinalState (masses : List ℝ) (lo hi : ℝ) : Prop where
  two : 2 ≤ masses.length
  nonneg : ∀ x ∈ masses, 0 ≤ x
  massive : 0 < masses.getD 0 0 + masses.getD 1 0
  hi_pos : 0 < hi
  ordered : lo ≤ hi
  threshold : masses.sum ≤ lo + (hi - lo) / nSlices lo hi

theorem FinalState.slices {masses : List ℝ} {lo hi : ℝ} (h : FinalState masses lo hi) :
    ∀ W ∈ Diff.sliceList lo hi, masses.sum ≤ W ∧ (0 < masses.getD 0 0 + masses.getD 1 0 ∨ masses.sum < W) := by
  intro W hW
  obtain ⟨i, hi'⟩ := List.mem_iff_getElem?.mp hW
  have hlt : i < nSlices lo hi := by
    rw [← slice_length]
    exact (List.getElem?_eq_some_iff.mp hi').1
  rw [slice_get lo hi i hlt] at hi'
  cases hi'
  refine ⟨h.threshold.trans ?_, Or.inl h.massive⟩
  have hw : 0 ≤ (hi - lo) / nSlices lo hi := div_nonneg (by linarith [h.ordered]) (Nat.cast_nonneg _)
  have : (0 : ℝ) ≤ i := Nat.cast_nonneg i
  nlinarith

/-- a configuration: every slice gets a new estimate, the old ones stay in front -/
theorem build_spec (g : Diff) (masses : List ℝ) {lo hi : ℝ}
    (hr : g.range = some (lo, hi)) (hwt : g.ps.weightType = .chung) (hk : g.ps.kinType = .block)
    (hf : FinalState masses lo hi) (hold : ∀ W ∈ g.slices, masses.sum ≤ W)
    {rnds : ℕ → List PS.Randoms} (hrnds : RndsOk masses.length rnds) :
    ∃ g' new, g.setDecayProducts masses rnds = some g' ∧ g'.products = masses ∧ g'.range = some (lo, hi) ∧
      Ready g'.ps masses ∧ g'.slices = g.slices ++ Diff.sliceList lo hi ∧ g'.weights = g.weights ++ new ∧
      List.Forall₂ (Estimate masses) g'.slices new := by
  have hn := hf.two
  obtain ⟨c1, _, c3, c4⟩ := setDecay_configured g.ps masses hn hf.nonneg
  have hR : Ready (g.ps.setDecay masses).1 masses := by
    refine ⟨c1, c3, c4, ?_, ?_, ?_⟩ <;> unfold PS.setDecay <;> rw [if_neg (by omega)]
    · exact hwt
    · dsimp only
      rw [hwt]
    · exact hk
  obtain ⟨ps', new, e, hR', hF⟩ := estimateLoop hrnds (g.slices ++ Diff.sliceList lo hi) 0 _ g.weights hR
    (fun W hW => by
      rcases List.mem_append.mp hW with h | h
      · exact ⟨hold W h, Or.inl hf.massive⟩
      · exact hf.slices W h)
  have e' : g.setDecayProducts masses rnds = some { g with
      products := masses, ps := ps', slices := g.slices ++ Diff.sliceList lo hi, weights := g.weights ++ new } := by
    unfold Diff.setDecayProducts Diff.build
    dsimp only
    rw [if_neg (by omega), hr]
    dsimp only
    rw [if_neg (by
      rintro (h | h)
      · linarith [hf.ordered]
      · linarith [hf.hi_pos]), e]
    rfl
  exact ⟨_, new, e', rfl, hr, hR', rfl, rfl, hF⟩

/-- the first configuration -/
theorem build_first (g : Diff) (masses : List ℝ) {lo hi : ℝ} (hs : g.slices = []) (hw : g.weights = [])
    (hr : g.range = some (lo, hi)) (hwt : g.ps.weightType = .chung) (hk : g.ps.kinType = .block)
    (hf : FinalState masses lo hi) {rnds : ℕ → List PS.Randoms} (hrnds : RndsOk masses.length rnds) :
    ∃ g', g.setDecayProducts masses rnds = some g' ∧ g'.products = masses ∧ g'.range = some (lo, hi) ∧
      Ready g'.ps masses ∧ g'.slices = Diff.sliceList lo hi ∧
      List.Forall₂ (Estimate masses) g'.slices g'.weights := by
  obtain ⟨g', new, h1, h2, h3, h4, h5, h6, h7⟩ := build_spec g masses hr hwt hk hf
    (fun W hW => by rw [hs] at hW; simp at hW) hrnds
  rw [hs, List.nil_append] at h5
  rw [hw, List.nil_append] at h6
  exact ⟨g', h1, h2, h3, h4, h5, by rw [h6]; exact h7⟩

/-- **C45, all histories.** After the first final state with at least two particles was configured, for
every further sequence of configuration calls: the maximum weight that is used for a mass in the range
is an estimate for the *first* final state, at the slice the mass is in. -/
theorem weights_first (g : Diff) (masses : List ℝ) {lo hi : ℝ} (hs : g.slices = []) (hw : g.weights = [])
    (hr : g.range = some (lo, hi)) (hwt : g.ps.weightType = .chung) (hk : g.ps.kinType = .block)
    (hf : FinalState masses lo hi) {rnds : ℕ → List PS.Randoms} (hrnds : RndsOk masses.length rnds)
    (cs : List Cfg) (g2 : Diff)
    (hrun : (Cfg.set masses rnds :: cs).foldlM Cfg.run g = some g2) {x : ℝ} (hlo : lo < x ∨ lo = hi ∧ x = hi)
    (hx : x ≤ hi) :
    ∃ S w, Diff.findWeight x g2.slices g2.weights = some w ∧ Estimate masses S w ∧ x ≤ S ∧
      S - x ≤ (hi - lo) / nSlices lo hi := by
  obtain ⟨g1, e1, _, _, _, hsl, hF⟩ := build_first g masses hs hw hr hwt hk hf hrnds
  rw [List.foldlM_cons, show (Cfg.set masses rnds).run g = some g1 from e1] at hrun
  obtain ⟨a, b, h2, h3⟩ := runs_append cs g1 g2 hrun
  obtain ⟨i, S, w, h4, h5, h6, h7, h8, h9⟩ := findWeight_spec (x := x) hF a b
    ⟨hi, by rw [hsl]; exact slice_last lo hi, hx⟩
  refine ⟨S, w, by rw [h2, h3]; exact h9, h6, h7, ?_⟩
  rw [hsl] at h4 h8
  rcases hlo with hlo | ⟨hlo, hxx⟩
  · rcases slice_tight hlo hf.ordered h4 h8 with h | ⟨h, h'⟩
    · exact h.le
    · rw [h, h']; simp
  · have hlt : i < nSlices lo hi := by
      rw [← slice_length]
      exact (List.getElem?_eq_some_iff.mp h4).1
    rw [slice_get lo hi i hlt, hlo] at h4
    cases h4
    rw [hlo, hxx]
    simp

/-- **C45 (partial: the final state is configured once).** The maximum weight that is used for a mass in the
range is an estimate for the configured final state at the slice the mass is in. -/
theorem weights_current_partial (masses : List ℝ) {lo hi : ℝ} (hf : FinalState masses lo hi)
    {rnds : ℕ → List PS.Randoms} (hrnds : RndsOk masses.length rnds) :
    ∃ g, (Diff.new.setRange lo hi).setDecayProducts masses rnds = some g ∧ g.products = masses ∧
      ∀ x, lo < x → x ≤ hi → ∃ S w, Diff.findWeight x g.slices g.weights = some w ∧ Estimate masses S w ∧
        x ≤ S ∧ S - x ≤ (hi - lo) / nSlices lo hi := by
  obtain ⟨g1, e1, h1, _⟩ := build_first (Diff.new.setRange lo hi) masses rfl rfl rfl rfl rfl hf hrnds
  refine ⟨g1, e1, h1, fun x hlo hx => ?_⟩
  refine weights_first (Diff.new.setRange lo hi) masses rfl rfl rfl rfl rfl hf hrnds [] g1 ?_ (Or.inl hlo) hx
  rw [List.foldlM_cons, show (Cfg.set masses rnds).run (Diff.new.setRange lo hi) = some g1 from e1]
  rfl

/-! ## the weights of an earlier final state -/

/-- two-body weights do not depend on random numbers -/
theorem estimate_two {m W w : ℝ} (h : Estimate [m, m] W w) :
    w = 101 / 100 * twoBody W m m := by
  obtain ⟨sample, _, M, hM, hw⟩ := h
  rename_i h1
  obtain ⟨⟨hv, hMW⟩, _⟩ := h1 M hM
  rw [hw]
  unfold psWeight
  have e1 : M 1 = W := hMW
  have e0 : M 0 = m := hv.first
  have e2 : density (fun i => [m, m].getD i 0) M ([m, m].length - 1) = twoBody W m m := by
    show twoBody (M 1) (M 0) m = _
    rw [e1, e0]
  rw [e2]
  simp

/-- random numbers for two-body decays -/
noncomputable def exRnds : ℕ → List PS.Randoms := fun _ => [{ exRnd with r := [] }]

theorem exRnds_ok : RndsOk 2 exRnds := by
  intro i
  refine ⟨by simp [exRnds], fun rnd h => ?_⟩
  have : rnd = { exRnd with r := [] } := by simpa [exRnds] using h
  subst this
  exact ⟨exRnd_ok.draws, rfl, fun x hx => by simp at hx, exRnd_ok.u⟩

theorem exFinal (m : ℝ) (h0 : 0 < m) (h2 : m ≤ 2) : FinalState [m, m] 5 5 := by
  refine ⟨by simp, fun x hx => ?_, ?_, by norm_num, le_refl _, ?_⟩
  · have : x = m := by simpa using hx
    rw [this]; exact h0.le
  · show 0 < m + m
    linarith
  · simp only [List.sum_cons, List.sum_nil]
    have : ((5 : ℝ) - 5) / nSlices 5 5 = 0 := by simp
    rw [this]
    linarith

/-- **C45, false.** When a second final state is configured (here two particles of mass 2 after two particles
of mass 1), the maximum weight that is used belongs to the first one. -/
theorem weights_stale : ∃ g1 g2, (Diff.new.setRange 5 5).setDecayProducts [1, 1] exRnds = some g1 ∧
    g1.setDecayProducts [2, 2] exRnds = some g2 ∧ g2.products = [2, 2] ∧
    ∃ w, Diff.findWeight 5 g2.slices g2.weights = some w ∧ Estimate [1, 1] 5 w ∧ ¬ Estimate [2, 2] 5 w := by
  obtain ⟨g1, new1, a1, a2, a3, a4, a5, a6, a7⟩ := build_spec (Diff.new.setRange 5 5) [1, 1] (lo := 5) (hi := 5)
    rfl rfl rfl (exFinal 1 (by norm_num) (by norm_num)) (fun W hW => by simp [Diff.new, Diff.setRange] at hW)
    exRnds_ok
  have hsl : ∀ W ∈ Diff.sliceList 5 5, W = 5 := by
    intro W hW
    obtain ⟨i, hi⟩ := List.mem_iff_getElem?.mp hW
    have hlt : i < nSlices 5 5 := by
      rw [← slice_length]
      exact (List.getElem?_eq_some_iff.mp hi).1
    rw [slice_get 5 5 i hlt] at hi
    cases hi
    simp
  obtain ⟨g2, new2, b1, b2, b3, b4, b5, b6, b7⟩ := build_spec g1 [2, 2] a3 a4.wt a4.kin
    (exFinal 2 (by norm_num) (by norm_num)) (fun W hW => by
      rw [a5] at hW
      have : W = 5 := hsl W (by simpa [Diff.new, Diff.setRange] using hW)
      rw [this]; norm_num [List.sum_cons]) exRnds_ok
  obtain ⟨i, S, w, h4, h5, h6, h7, h8, h9⟩ := findWeight_spec (x := 5) a7 (Diff.sliceList 5 5) new2
    ⟨5, by rw [a5]; exact List.mem_append_right _ (slice_last 5 5), le_refl _⟩
  have hS : S = 5 := by
    refine hsl S ?_
    have := List.mem_of_getElem? h4
    rw [a5] at this
    simpa [Diff.new, Diff.setRange] using this
  rw [hS] at h6
  refine ⟨g1, g2, a1, b1, b2, w, ?_, h6, fun hc => ?_⟩
  · rw [b5, b6, a6]
    exact h9
  · have e1 := estimate_two h6
    have e2 := estimate_two hc
    rw [e1] at e2
    have e3 : twoBody 5 1 1 = twoBody 5 2 2 := by linarith
    unfold twoBody at e3
    have hpi := Real.pi_pos
    have e4 := (div_left_inj' (by positivity)).mp e3
    have e5 := (Real.sqrt_inj (by norm_num) (by norm_num)).mp e4
    norm_num at e5

/-! ## reading behind the last slice, masses below threshold -/

/-- a mass above all slices (for example after the range was enlarged) makes the program read outside of the
vectors; so does every mass for a final state of one particle, which has no slices -/
theorem findWeight_outside {x : ℝ} : ∀ {ss : List ℝ} (ws : List ℝ), (∀ S ∈ ss, S < x) →
    Diff.findWeight x ss ws = none
  | [], _, _ => by unfold Diff.findWeight; rfl
  | _ :: _, [], _ => by unfold Diff.findWeight; rfl
  | S :: ss, w :: ws, h => by
    unfold Diff.findWeight
    rw [if_pos (h S (by simp))]
    exact findWeight_outside ws (fun T hT => h T (by simp [hT]))

theorem event_one_particle (lo hi m : ℝ) (rnds : ℕ → List PS.Randoms) :
    ∃ g, (Diff.new.setRange lo hi).setDecayProducts [m] rnds = some g ∧
      ∀ x, Diff.findWeight x g.slices g.weights = none := by
  refine ⟨_, rfl, fun x => ?_⟩
  exact findWeight_outside _ (by simp [Diff.new, Diff.setRange])

/-- picking masses below threshold ends the program -/
theorem weigh_below {ps : PS} {masses : List ℝ} (hr : Ready ps masses) {W : ℝ} (hW : W < masses.sum)
    {rnd : PS.Randoms} (hrnd : Rnd masses.length rnd) :
    (ps.pickMasses W rnd.draws rnd.r).calcWeight = none := by
  have hn := hr.conf.two
  have e : ps.pickMasses W rnd.draws rnd.r = { ps with M := (fun i => if 1 ≤ i ∧ i < ps.n - 1 then
      ps.mSum i + (rnd.r.insertionSort (· ≤ ·)).getD (i - 1) 0 * (W - ps.mSum (ps.n - 1))
      else Function.update ps.M (ps.n - 1) W i) } := by
    unfold PS.pickMasses
    dsimp only
    rw [hr.wt]
  have hnone : (ps.pickMasses W rnd.draws rnd.r).calcBreakupMomenta = none := by
    rw [e]
    refine kinematics_impossible _ (i := ps.n - 2) (by show ps.n - 2 + 1 < ps.n; omega) ?_
    dsimp only
    rw [show ps.n - 2 + 1 = ps.n - 1 by omega, if_neg (by omega), Function.update_self]
    have hs : ps.mSum (ps.n - 1) = ps.mSum (ps.n - 2) + ps.m (ps.n - 1) := by
      rw [hr.conf.sums]
      obtain ⟨k, hk⟩ : ∃ k, ps.n = k + 2 := ⟨ps.n - 2, by omega⟩
      rw [hk]
      rfl
    have hsum := hr.mSum
    by_cases h2 : ps.n = 2
    · rw [if_neg (by omega), Function.update_of_ne (by omega)]
      rw [h2] at hs hsum ⊢
      have h0 : ps.mSum 0 = ps.m 0 := by rw [hr.conf.sums]; rfl
      show W < ps.M 0 + ps.m 1
      rw [hr.conf.first, ← h0]
      have : ps.mSum 1 = ps.mSum 0 + ps.m 1 := hs
      have h3 : ps.mSum 1 = masses.sum := hsum
      linarith
    · rw [if_pos (by omega)]
      have hlen : (rnd.r.insertionSort (· ≤ ·)).length = ps.n - 2 := by
        rw [List.length_insertionSort, hrnd.len, hr.n]
      rw [List.getD_eq_getElem _ _ (by rw [hlen]; omega)]
      have hmem := List.getElem_mem (l := rnd.r.insertionSort (· ≤ ·)) (n := ps.n - 2 - 1) (by rw [hlen]; omega)
      have hx := hrnd.r _ ((List.mem_insertionSort _).mp hmem)
      generalize (rnd.r.insertionSort (· ≤ ·))[ps.n - 2 - 1] = x at hx
      rw [hsum] at hs ⊢
      nlinarith
  unfold PS.calcWeight
  rw [hnone]
  rfl

/-- **finding.** A mass range whose lowest slice ends below the threshold of the final state cannot be
configured: the program ends. -/
theorem build_below (g : Diff) (masses : List ℝ) {lo hi : ℝ} (hs : g.slices = [])
    (hr : g.range = some (lo, hi)) (hwt : g.ps.weightType = .chung) (hk : g.ps.kinType = .block)
    (h2 : 2 ≤ masses.length) (h0 : ∀ x ∈ masses, 0 ≤ x)
    (hth : lo + (hi - lo) / nSlices lo hi < masses.sum)
    {rnds : ℕ → List PS.Randoms} (hrnds : RndsOk masses.length rnds) :
    g.setDecayProducts masses rnds = none := by
  obtain ⟨c1, _, c3, c4⟩ := setDecay_configured g.ps masses h2 h0
  have hR : Ready (g.ps.setDecay masses).1 masses := by
    refine ⟨c1, c3, c4, ?_, ?_, ?_⟩ <;> unfold PS.setDecay <;> rw [if_neg (by omega)]
    · exact hwt
    · dsimp only
      rw [hwt]
    · exact hk
  unfold Diff.setDecayProducts Diff.build
  dsimp only
  rw [if_neg (by omega), hr]
  dsimp only
  by_cases hb : hi < lo ∨ hi ≤ 0
  · rw [if_pos hb]
  · rw [if_neg hb, hs, List.nil_append]
    have hg := slice_get lo hi 0 (nSlices_pos lo hi)
    cases hl : Diff.sliceList lo hi with
    | nil => rw [hl] at hg; simp at hg
    | cons W rest =>
      rw [hl] at hg
      have hW : W = lo + (hi - lo) / nSlices lo hi := by
        have := Option.some.inj hg
        rw [this]; push_cast; ring
      have hst : Diff.estimateStep rnds ((g.ps.setDecay masses).1, g.weights) (W, 0) = none := by
        unfold Diff.estimateStep PS.estimateMaxWeight
        dsimp only
        cases hrn : rnds 0 with
        | nil => exact absurd hrn (hrnds 0).1
        | cons r rs =>
          rw [List.foldlM_cons]
          have hw := weigh_below hR (W := W) (by rw [hW]; exact hth) (rnd := r)
            ((hrnds 0).2 r (by rw [hrn]; simp))
          dsimp only
          rw [hw]
          rfl
      rw [List.zipIdx_cons, List.foldlM_cons, hst]
      rfl

end Rpwa.Gen
