import Verif.Props.Generator

/-!
# C45: complete events and acceptance
-/

namespace Rpwa.Gen

open Spec

/-- what a pass of the inner loop does when it does not end the program -/
theorem attempts_cons {x xMax mt sqrtS : ℝ} {X : LV} {r : PS.Randoms} {rs : List PS.Randoms} {ps ps' : PS} {k : ℕ}
    (h : Diff.attempts x xMax mt sqrtS X (r :: rs) ps = some (ps', k)) :
    ∃ qMax q ps1, Phys.breakupMomentum sqrtS xMax mt = some qMax ∧ Phys.breakupMomentum sqrtS x mt = some q ∧
      (ps.pickMasses x r.draws r.r).calcWeight = some ps1 ∧
      ((Diff.rejects (ps1.weight * x * (q / sqrtS))
          ((ps.pickMasses x r.draws r.r).maxWeight * xMax * (qMax / sqrtS)) r.accept ∧
        ∃ k', Diff.attempts x xMax mt sqrtS X rs ps1 = some (ps', k') ∧ k = k' + 1) ∨
       ¬ Diff.rejects (ps1.weight * x * (q / sqrtS))
          ((ps.pickMasses x r.draws r.r).maxWeight * xMax * (qMax / sqrtS)) r.accept ∧
        ps' = (ps1.pickAngles r.u r.v).calcEventKinematics X ∧ k = 1) := by
  unfold Diff.attempts at h
  cases h1 : Phys.breakupMomentum sqrtS xMax mt with
  | none => rw [h1] at h; cases h
  | some qMax =>
  cases h2 : Phys.breakupMomentum sqrtS x mt with
  | none => rw [h1, h2] at h; cases h
  | some q =>
  cases h3 : (ps.pickMasses x r.draws r.r).calcWeight with
  | none =>
    rw [h1, h2] at h
    change (Option.bind (some _) _) = _ at h
    rw [Option.bind_some] at h
    change (Option.bind (some _) _) = _ at h
    rw [Option.bind_some, h3] at h
    cases h
  | some ps1 =>
    rw [h1, h2] at h
    change (Option.bind (some _) _) = _ at h
    rw [Option.bind_some] at h
    change (Option.bind (some _) _) = _ at h
    rw [Option.bind_some, h3] at h
    change (Option.bind (some _) _) = _ at h
    rw [Option.bind_some] at h
    refine ⟨qMax, q, ps1, rfl, rfl, rfl, ?_⟩
    by_cases hc : Diff.rejects (ps1.weight * x * (q / sqrtS))
        ((ps.pickMasses x r.draws r.r).maxWeight * xMax * (qMax / sqrtS)) r.accept
    · rw [if_pos hc] at h
      left
      refine ⟨hc, ?_⟩
      cases h4 : Diff.attempts x xMax mt sqrtS X rs ps1 with
      | none => rw [h4] at h; cases h
      | some p =>
        obtain ⟨ps2, k2⟩ := p
        rw [h4] at h
        cases h
        exact ⟨k2, rfl, rfl⟩
    · rw [if_neg hc] at h
      cases h
      exact Or.inr ⟨hc, rfl, rfl⟩

theorem pickMasses_ready {ps : PS} {masses : List ℝ} (hr : Ready ps masses) {x : ℝ} {rnd : PS.Randoms}
    (hrnd : Rnd masses.length rnd) {ps1 : PS} (h : (ps.pickMasses x rnd.draws rnd.r).calcWeight = some ps1) :
    masses.sum ≤ x := by
  by_contra hc
  rw [weigh_below hr (not_le.mp hc) hrnd] at h
  cases h

/-- the inner loop: whatever is accepted is a decay of the X system -/
theorem attempts_spec {masses : List ℝ} (hmass : 0 < masses.getD 0 0 + masses.getD 1 0) {x xMax mt sqrtS : ℝ}
    {X : LV} (hX : X.m2 = x ^ 2) (hE : 0 ≤ X.t) :
    ∀ (tries : List PS.Randoms) (ps ps' : PS) (k : ℕ), (∀ r ∈ tries, Rnd masses.length r) → Ready ps masses →
      Diff.attempts x xMax mt sqrtS X tries ps = some (ps', k) →
      Ready ps' masses ∧ masses.sum ≤ x ∧ 1 ≤ k ∧ k ≤ tries.length ∧
        IsDecay masses.length (fun i => masses.getD i 0) X ps'.daughters := by
  intro tries
  induction tries with
  | nil =>
    intro ps ps' k _ _ h
    cases h
  | cons r rs ih =>
    intro ps ps' k hrnd hr h
    obtain ⟨qMax, q, ps1, _, _, e1, hcase⟩ := attempts_cons h
    have hx := pickMasses_ready hr (hrnd r (by simp)) e1
    obtain ⟨ps2, e2, hr2, hpo, _, _, _, hq⟩ := weigh_ready hr hx (Or.inl hmass) (hrnd r (by simp))
    rw [e1] at e2
    cases e2
    rcases hcase with ⟨_, k', h', hk⟩ | ⟨_, h', hk⟩
    · obtain ⟨i1, i2, i3, i4, i5⟩ := ih ps1 ps' k' (fun r hr => hrnd r (by simp [hr])) hr2 h'
      exact ⟨i1, i2, by omega, by simp; omega, i5⟩
    · have hu := (hrnd r (by simp)).u
      have hpM : ps1.M (ps1.n - 1) = x := by rw [hr2.n]; exact hpo.2
      have hvm : ValidMasses ps1.n ps1.m ps1.M := by rw [hr2.n, hr2.m]; exact hpo.1
      have hd := (calcEventKinematics_spec (ps1.pickAngles r.u r.v) X hvm hq hr2.conf.two
        (fun i hi => by
          unfold PS.pickAngles
          dsimp only
          rw [if_pos (show 1 ≤ i + 1 ∧ i + 1 < ps1.n from ⟨by omega, hi⟩)]
          have := hu (i + 1)
          nlinarith) (by rw [hX]; show x ^ 2 = ps1.M (ps1.n - 1) ^ 2; rw [hpM]) hE).1
      subst h'
      have hfr : ∀ g : PS, (g.calcEventKinematics X).n = g.n ∧ (g.calcEventKinematics X).m = g.m ∧
          (g.calcEventKinematics X).mSum = g.mSum ∧ (g.calcEventKinematics X).M = g.M ∧
          (g.calcEventKinematics X).weightType = g.weightType ∧ (g.calcEventKinematics X).norm = g.norm ∧
          (g.calcEventKinematics X).kinType = g.kinType := by
        intro g
        unfold PS.calcEventKinematics
        cases g.kinType <;> exact ⟨rfl, rfl, rfl, rfl, rfl, rfl, rfl⟩
      obtain ⟨f1, f2, f3, f4, f5, f6, f7⟩ := hfr (ps1.pickAngles r.u r.v)
      refine ⟨⟨⟨?_, ?_, ?_, ?_⟩, ?_, ?_, ?_, ?_, ?_⟩, hx, by omega, by simp; omega, ?_⟩
      · rw [f1]; exact hr2.conf.two
      · rw [f1, f2]; exact hr2.conf.nonneg
      · rw [f2, f3]; exact hr2.conf.sums
      · rw [f2, f4]; exact hr2.conf.first
      · rw [f1]; exact hr2.n
      · rw [f2]; exact hr2.m
      · rw [f5]; exact hr2.wt
      · rw [f6]; exact hr2.norm
      · rw [f7]; exact hr2.kin
      · have h3 : IsDecay ps1.n ps1.m X _ := hd
        rw [hr2.n, hr2.m] at h3
        exact h3

theorem pick_spec {mr sqrtS : ℝ} : ∀ {picks : List (ℝ × ℝ)} {p : ℝ × ℝ}, Diff.pick mr sqrtS picks = some p →
    p ∈ picks ∧ p.1 + mr ≤ sqrtS ∧ 0 ≤ p.2
  | [], _, h => by cases h
  | (x, t') :: rest, p, h => by
    unfold Diff.pick at h
    by_cases hc : x + mr > sqrtS ∨ t' < 0
    · rw [if_pos hc] at h
      obtain ⟨h1, h2, h3⟩ := pick_spec h
      exact ⟨by simp [h1], h2, h3⟩
    · rw [if_neg hc] at h
      cases h
      push Not at hc
      exact ⟨by simp, hc.1, hc.2⟩

/-- **C45, events.** Every event that is generated, whatever the beam, the picked masses and `t'` and the random
numbers: X has the picked mass and `t'`, the recoil particle has its mass and a non-negative energy, the
decay products have their masses, and energy and momentum are conserved in the whole reaction. -/
theorem event_spec (g : Diff) (masses : List ℝ) (hr : Ready g.ps masses)
    (hmass : 0 < masses.getD 0 0 + masses.getD 1 0) {beam : LV} {mt mr : ℝ} (hmt : 0 < mt) (hmr : 0 ≤ mr)
    (hbE : 0 < beam.t) (hbm : 0 ≤ beam.m2) (hbP : 0 < beam.P) {picks : List (ℝ × ℝ)}
    (hpk : ∀ p ∈ picks, 0 ≤ p.1) {phi : ℝ} {tries : List PS.Randoms}
    (htr : ∀ r ∈ tries, Rnd masses.length r) {ev : Diff.Event}
    (h : g.event beam mt mr picks phi tries = some ev) :
    (ev.xMass, ev.tPrime) ∈ picks ∧ masses.sum ≤ ev.xMass ∧
    Allowed beam mt ev.xMass mr ev.X ∧ IsTPrime beam mt ev.xMass mr ev.X ev.tPrime ∧
    ev.recoil.m2 = mr ^ 2 ∧ 0 ≤ ev.recoil.t ∧
    IsDecay masses.length (fun i => masses.getD i 0) ev.X ev.daughters ∧
    total ev.daughters (masses.length - 1) + ev.recoil = beam + target mt ∧
    Ready ev.gen.ps masses ∧ ev.gen.slices = g.slices ∧ ev.gen.weights = g.weights ∧ ev.gen.range = g.range := by
  unfold Diff.event at h
  cases hrg : g.range with
  | none => rw [hrg] at h; cases h
  | some p =>
  obtain ⟨lo, xMax⟩ := p
  rw [hrg] at h
  dsimp only at h
  split at h
  · cases h
  rename_i hlim
  change (Diff.pick mr (Real.sqrt (beam + target mt).m2) picks).bind _ = _ at h
  cases hp : Diff.pick mr (Real.sqrt (beam + target mt).m2) picks with
  | none => rw [hp] at h; cases h
  | some p =>
  obtain ⟨x, t'⟩ := p
  rw [hp, Option.bind_some] at h
  dsimp only at h
  cases hw : Diff.findWeight x g.slices g.weights with
  | none => rw [hw] at h; cases h
  | some w =>
  rw [hw] at h
  change (Option.bind (some _) _) = _ at h
  rw [Option.bind_some] at h
  change (calculateXSystemLab beam mt x mr (beam + target mt).m2 t' phi).bind _ = _ at h
  cases hX : calculateXSystemLab beam mt x mr (beam + target mt).m2 t' phi with
  | none => rw [hX] at h; cases h
  | some X =>
  rw [hX, Option.bind_some] at h
  change (Diff.attempts x xMax mt (Real.sqrt (beam + target mt).m2) X tries { g.ps with maxWeight := w }).bind _
    = _ at h
  cases ha : Diff.attempts x xMax mt (Real.sqrt (beam + target mt).m2) X tries { g.ps with maxWeight := w } with
  | none => rw [ha] at h; cases h
  | some q =>
  obtain ⟨ps', k⟩ := q
  rw [ha, Option.bind_some] at h
  dsimp only at h
  split at h
  · cases h
  cases h
  obtain ⟨p1, p2, p3⟩ := pick_spec hp
  dsimp only at p2 p3 ⊢
  have hx0 := hpk _ p1
  dsimp only at hx0
  have hs0 : 0 ≤ (beam + target mt).m2 := by
    by_contra hc
    have : Real.sqrt (beam + target mt).m2 = 0 := Real.sqrt_eq_zero_of_nonpos (not_le.mp hc).le
    have h2 : (beam + target mt).m2 = beam.m2 + mt ^ 2 + 2 * (beam.t * mt) := by
      unfold LV.m2 target
      simp only [add_x, add_y, add_z, add_t]
      ring
    rw [h2] at hc
    have : 0 < beam.t * mt := mul_pos hbE hmt
    nlinarith
  have hP : Physical beam mt x mr := by
    refine ⟨hmt, hx0, hmr, hbE, hbm, hbP, ?_⟩
    have := pow_le_pow_left₀ (add_nonneg hx0 hmr) p2 2
    rwa [Real.sq_sqrt hs0] at this
  obtain ⟨hA, hT⟩ := xSystem_complete hP p3 hX
  have hr' : Ready { g.ps with maxWeight := w } masses :=
    ⟨⟨hr.conf.two, hr.conf.nonneg, hr.conf.sums, hr.conf.first⟩, hr.n, hr.m, hr.wt, hr.norm, hr.kin⟩
  obtain ⟨a1, a2, _, _, a5⟩ := attempts_spec hmass hA.1 hA.2.1 tries _ _ _ htr hr' ha
  refine ⟨p1, a2, hA, hT, hA.2.2.1, hA.2.2.2, a5, ?_, a1, rfl, rfl, rfl⟩
  rw [a5.conserved]
  show X + (beam + target mt - X) = beam + target mt
  ext <;> simp

/-! ## acceptance -/

/-- **C45, acceptance.** At a given mass of X every try is accepted exactly if its random number is not above
a constant times its phase-space weight. -/
theorem accept_iff {wMax x xMax q qMax sqrtS r w : ℝ} (hw : 0 < wMax) (hx : 0 < x) (hxM : 0 < xMax) (hq : 0 < q)
    (hqM : 0 < qMax) (hs : 0 < sqrtS) :
    ¬ Diff.rejects (w * x * (q / sqrtS)) (wMax * xMax * (qMax / sqrtS)) r ↔
      r ≤ w / wMax * (x * q / (xMax * qMax)) := by
  have hpos : 0 < wMax * xMax * (qMax / sqrtS) := by positivity
  unfold Diff.rejects
  rw [not_and_or]
  have e : w * x * (q / sqrtS) / (wMax * xMax * (qMax / sqrtS)) = w / wMax * (x * q / (xMax * qMax)) := by
    field_simp
  rw [e, not_lt]
  exact ⟨fun h => h.resolve_left (not_not.mpr hpos.ne'), Or.inr⟩

/-- **finding.** If the mass range reaches up to the kinematic limit `√s - m_target`, every try is accepted:
the events are not distributed according to phase space. -/
theorem accept_all {x xMax mt sqrtS : ℝ} (hlim : xMax + mt = sqrtS) (hx : 0 ≤ x) (hmt : 0 < mt) (hxM : x ≤ xMax)
    (X : LV) (r : PS.Randoms) (rs : List PS.Randoms) (ps ps1 : PS)
    (h : (ps.pickMasses x r.draws r.r).calcWeight = some ps1) :
    Diff.attempts x xMax mt sqrtS X (r :: rs) ps = some ((ps1.pickAngles r.u r.v).calcEventKinematics X, 1) := by
  have hqM : Phys.breakupMomentum sqrtS xMax mt = some 0 := by
    unfold Phys.breakupMomentum Phys.breakupMomentumSquared
    dsimp only
    rw [if_neg (by rintro ⟨_, h⟩; linarith)]
    have : (sqrtS - (xMax + mt)) * (sqrtS + (xMax + mt)) * (sqrtS - (xMax - mt)) * (sqrtS + (xMax - mt))
        / (4 * sqrtS * sqrtS) = 0 := by
      rw [hlim]; ring
    rw [this, if_neg (by rintro ⟨_, h⟩; linarith)]
    simp
  obtain ⟨q, hq, _⟩ := breakup_spec (M := sqrtS) (m1 := x) (m2 := mt) (by linarith) hx hmt.le (by linarith)
  unfold Diff.attempts
  rw [hqM, hq]
  change (Option.bind (some _) _) = _
  rw [Option.bind_some]
  change (Option.bind (some _) _) = _
  rw [Option.bind_some, h]
  change (Option.bind (some _) _) = _
  rw [Option.bind_some]
  rw [if_neg]
  rintro ⟨hc, _⟩
  exact hc (by ring)

/-! ## a concrete event -/

/-- `event` succeeds when mass and `t'` are possible and the first try is accepted -/
theorem event_some (g : Diff) {beam : LV} {mt mr x t' phi lo xMax w : ℝ} {X : LV} {r : PS.Randoms} {ps' : PS}
    (hrg : g.range = some (lo, xMax)) (hlim : xMax + mt ≤ Real.sqrt (beam + target mt).m2)
    (hx : x + mr ≤ Real.sqrt (beam + target mt).m2) (ht : 0 ≤ t')
    (hw : Diff.findWeight x g.slices g.weights = some w)
    (hX : calculateXSystemLab beam mt x mr (beam + target mt).m2 t' phi = some X)
    (ha : Diff.attempts x xMax mt (Real.sqrt (beam + target mt).m2) X [r] { g.ps with maxWeight := w } = some (ps', 1))
    (hn : ps'.n = g.products.length) :
    g.event beam mt mr [(x, t')] phi [r] = some ⟨{ g with ps := ps' }, x, t', X, beam + target mt - X, ps'.daughters, 1⟩ := by
  unfold Diff.event
  rw [hrg]
  dsimp only
  have hp : Diff.pick mr (Real.sqrt (beam + target mt).m2) [(x, t')] = some (x, t') := by
    unfold Diff.pick
    rw [if_neg]
    rintro (h | h) <;> linarith
  change (if xMax + mt > Real.sqrt (beam + target mt).m2 then _ else _) = _
  rw [if_neg (not_lt.mpr hlim)]
  change (Diff.pick mr (Real.sqrt (beam + target mt).m2) [(x, t')]).bind _ = _
  rw [hp, Option.bind_some]
  dsimp only
  rw [hw]
  change (Option.bind (some _) _) = _
  rw [Option.bind_some]
  change (calculateXSystemLab beam mt x mr (beam + target mt).m2 t' phi).bind _ = _
  rw [hX, Option.bind_some]
  change (Diff.attempts x xMax mt (Real.sqrt (beam + target mt).m2) X [r] { g.ps with maxWeight := w }).bind _
    = _
  rw [ha, Option.bind_some]
  dsimp only
  rw [if_neg (not_not.mpr hn)]
  rfl

/-- a beam of mass 3 and energy 13 on a target of mass 1: X of mass 5 and a recoil particle of mass 1 -/
theorem exEvent : ∃ (g : Diff) (ev : Diff.Event) (t' : ℝ), (Diff.new.setRange 5 5).setDecayProducts [1, 1] exRnds = some g ∧ 0 ≤ t' ∧
    Ready g.ps [1, 1] ∧ g.range = some (5, 5) ∧ g.event ⟨0, 0, Real.sqrt 160, 13⟩ 1 1 [(5, t')] 0 [{ exRnd with r := [] }] = some ev := by
  obtain ⟨g, a1, a2, a3, a4, a5, a7⟩ := build_first (Diff.new.setRange 5 5) [1, 1] (lo := 5) (hi := 5)
    rfl rfl rfl rfl rfl (exFinal 1 (by norm_num) (by norm_num)) exRnds_ok
  obtain ⟨beam, hb⟩ : ∃ b : LV, b = ⟨0, 0, Real.sqrt 160, 13⟩ := ⟨_, rfl⟩
  have h160 := Real.mul_self_sqrt (show (0 : ℝ) ≤ 160 by norm_num)
  have h160p : 0 < Real.sqrt 160 := Real.sqrt_pos.mpr (by norm_num)
  have hbm : beam.m2 = 9 := by
    rw [hb]; unfold LV.m2; dsimp only; rw [h160]; norm_num
  have hcm : (beam + target 1).m2 = 6 ^ 2 := by
    rw [hb]
    unfold LV.m2 target
    simp only [add_x, add_y, add_z, add_t]
    linear_combination -h160
  have hs : Real.sqrt (beam + target 1).m2 = 6 := by rw [hcm]; exact Real.sqrt_sq (by norm_num)
  have hbP : 0 < beam.P := by
    rcases lt_or_eq_of_le (P_nonneg beam) with h | h
    · exact h
    · exfalso
      have := P_sq beam
      rw [← h, hbm, hb] at this
      norm_num at this
  have hP : Physical beam 1 5 1 := by
    refine ⟨by norm_num, by norm_num, by norm_num, by rw [hb]; norm_num, by rw [hbm]; norm_num, hbP, ?_⟩
    rw [hcm]; norm_num
  obtain ⟨X', hX'⟩ : ∃ X : LV, X = ⟨0, 0, 5 / 6 * Real.sqrt 160, 5 / 6 * 14⟩ := ⟨_, rfl⟩
  have hA : Allowed beam 1 5 1 X' := by
    rw [hX', hb]
    refine ⟨?_, by norm_num, ?_, ?_⟩
    · unfold LV.m2
      dsimp only
      linear_combination -(5 / 6) ^ 2 * h160
    · unfold LV.m2 target
      simp only [add_x, add_y, add_z, add_t, sub_x, sub_y, sub_z, sub_t]
      linear_combination -(1 / 6) ^ 2 * h160
    · unfold target
      simp only [add_t, sub_t]
      norm_num
  have hT := tPrime_spec hP hA
  have hXP : X'.P ≠ 0 := by
    intro h
    have := P_sq X'
    rw [h, hA.1, hX'] at this
    norm_num at this
  obtain ⟨X, hX, hAX, _⟩ := xSystem_spec hP X' hA hT (Or.inr hXP) 0
  have ht0 : 0 ≤ tPrime beam (target 1) X' := by
    obtain ⟨t0, hg, he⟩ := hT
    have := hg.2 ⟨X', hA, rfl⟩
    linarith
  obtain ⟨i, S, w, _, _, _, _, _, hw⟩ := findWeight_spec (x := 5) a7 [] []
    ⟨5, by rw [a5]; exact slice_last 5 5, le_refl _⟩
  rw [List.append_nil, List.append_nil] at hw
  have hr' : Ready { g.ps with maxWeight := w } [1, 1] :=
    ⟨⟨a4.conf.two, a4.conf.nonneg, a4.conf.sums, a4.conf.first⟩, a4.n, a4.m, a4.wt, a4.norm, a4.kin⟩
  obtain ⟨ps1, e1, hr1, _⟩ := weigh_ready hr' (W := 5) (by norm_num [List.sum_cons])
    (Or.inl (by norm_num [List.getD])) (rnd := { exRnd with r := [] }) (exRnds_ok 0 |>.2 _ (by simp [exRnds]))
  have ha := accept_all (x := 5) (xMax := 5) (mt := 1) (sqrtS := 6) (by norm_num) (by norm_num) (by norm_num)
    (le_refl _) X { exRnd with r := [] } [] { g.ps with maxWeight := w } ps1 e1
  have hn : ∀ p : PS, (p.calcEventKinematics X).n = p.n := by
    intro p
    unfold PS.calcEventKinematics
    cases p.kinType <;> rfl
  have hev := event_some g a3 (beam := beam) (mt := 1) (mr := 1) (by rw [hs]; norm_num) (by rw [hs]; norm_num) ht0 hw hX
    (by rw [hs]; exact ha) (by
      rw [a2, hn]
      exact hr1.n)
  rw [hb] at hev ht0
  exact ⟨g, _, _, a1, ht0, a4, a3, hev⟩

end Rpwa.Gen
