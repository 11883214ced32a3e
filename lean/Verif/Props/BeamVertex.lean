import Verif.Spec.BeamVertex
import Verif.Props.PickersOther
import Verif.Props.VariedAmps
/-! Beam and vertex: single events -/
namespace Rpwa.BeamGen
open Rpwa.Gen (V3 LV)
open MeasureTheory Set

/-- the loop returns the value of the first random number that is not beyond the target. -/
theorem expLoop_iff (tau len z : ℝ) (us : List ℝ) : expLoop tau len us = some z ↔
    ∃ pre u post, us = pre ++ u :: post ∧ (∀ x ∈ pre, len < -tau * Real.log x) ∧ z = -tau * Real.log u ∧ z ≤ len := by
  induction us with
  | nil =>
    constructor
    · intro h; cases h
    · rintro ⟨pre, r, post, h, _⟩; simp at h
  | cons x us ih =>
    unfold expLoop
    dsimp only
    by_cases h : len < -tau * Real.log x
    · rw [if_pos h]
      refine ih.trans ?_
      constructor
      · rintro ⟨pre, r, post, h1, h2, h3⟩
        refine ⟨x :: pre, r, post, by rw [h1]; rfl, fun y hy => ?_, h3⟩
        rcases List.mem_cons.1 hy with hy | hy
        · rw [hy]; exact h
        · exact h2 y hy
      · rintro ⟨pre, r, post, h1, h2, h3, h4⟩
        cases pre with
        | nil =>
          rw [(List.cons.inj h1).1, ← h3] at h
          exact absurd h (not_lt.2 h4)
        | cons y pre => exact ⟨pre, r, post, (List.cons.inj h1).2, fun z hz => h2 z (List.mem_cons_of_mem _ hz), h3, h4⟩
    · rw [if_neg h]
      constructor
      · intro e
        have e := Option.some.inj e
        exact ⟨[], x, us, rfl, fun y hy => (by cases hy), e.symm, e ▸ not_lt.1 h⟩
      · rintro ⟨pre, r, post, h1, h2, h3, h4⟩
        cases pre with
        | nil => rw [(List.cons.inj h1).1, h3]
        | cons y pre =>
          rw [(List.cons.inj h1).1] at h
          exact absurd (h2 y List.mem_cons_self) h

/-- the vertex along the beam: with a positive interaction length the probability that a random number is accepted and gives a depth of at most `x` is the
integral of `exp(-s / λ) / λ` up to `x`; so accepted depths fall exponentially with the interaction length inside the target. -/
theorem depth_law (tau len x : ℝ) (ht : 0 < tau) (hx' : x ≤ len) :
    volume {u | (0 < u ∧ u < 1) ∧ ∃ z, expLoop tau len [u] = some z ∧ z ≤ x} = ENNReal.ofReal (∫ s in (0 : ℝ)..x, 1 / tau * Real.exp (-(1 / tau) * s)) := by
  rw [← Pick.poly_law (1 / tau) 0 x (one_div_pos.2 ht) le_rfl]
  congr 1
  ext u
  refine and_congr_right fun hu => ?_
  have he : Pick.expT (1 / tau) u = -tau * Real.log u := by
    unfold Pick.expT
    rw [div_div_eq_mul_div, div_one]
    ring
  rw [he]
  have h0 : 0 ≤ -tau * Real.log u := by nlinarith [mul_pos ht (neg_pos.2 (Real.log_neg hu.1 hu.2))]
  constructor
  · rintro ⟨z, hz, hzx⟩
    obtain ⟨pre, r, post, h1, _, h3, _⟩ := (expLoop_iff _ _ _ _).1 hz
    cases pre with
    | nil =>
      have := (List.cons.inj h1).1
      subst this
      rw [h3] at hzx
      exact ⟨h0, hzx⟩
    | cons y pre => have := (List.cons.inj h1).2; simp at this
  · rintro ⟨_, h⟩
    exact ⟨_, (expLoop_iff _ _ _ _).2 ⟨[], u, [], rfl, fun y hy => (by cases hy), rfl, h.trans hx'⟩, h⟩

/-- an interaction length of 0 (documented as "disabled") puts every vertex on the front face of the target. -/
theorem depth_disabled (s : Gen) (tg : Target) (u : ℝ) (us : List ℝ) (h0 : tg.interactionLength = 0) (hl : 0 ≤ tg.length) (hz : s.takeZ = false) :
    s.vertexZ tg (u :: us) = some (tg.posZ - tg.length / 2) := by
  unfold Gen.vertexZ
  rw [if_neg (by rw [hz]; decide)]
  have : expLoop tg.interactionLength tg.length (u :: us) = some 0 :=
    (expLoop_iff _ _ _ _).2 ⟨[], u, us, rfl, fun y hy => (by cases hy), by rw [h0]; ring, hl⟩
  rw [this]
  show some (_ + (0 : ℝ)) = _
  congr 1
  ring

/-- the vertex across the beam: the probability to be within `ρ` of the axis is the fraction of the area. -/
theorem radius_law (R ρ : ℝ) (hR : 0 < R) (h0 : 0 ≤ ρ) (h1 : ρ ≤ R) :
    volume {u | (0 < u ∧ u < 1) ∧ Real.sqrt (0 + (R * R - 0) * u) ≤ ρ} = ENNReal.ofReal (ρ ^ 2 / R ^ 2) := by
  have hR2 : 0 < R ^ 2 := pow_pos hR 2
  have hset : {u | (0 < u ∧ u < 1) ∧ Real.sqrt (0 + (R * R - 0) * u) ≤ ρ} = {u | (0 < u ∧ u < 1) ∧ u ≤ ρ ^ 2 / R ^ 2} := by
    ext u
    refine and_congr_right fun hu => ?_
    rw [Real.sqrt_le_left h0, le_div_iff₀ hR2]
    constructor <;> intro h <;> nlinarith
  have hq1 : ρ ^ 2 / R ^ 2 ≤ 1 := by
    rw [div_le_one hR2]
    exact pow_le_pow_left₀ h0 h1 2
  rw [hset]
  have g1 : Ioo 0 (ρ ^ 2 / R ^ 2) ⊆ {u | (0 < u ∧ u < 1) ∧ u ≤ ρ ^ 2 / R ^ 2} := fun r hr => ⟨⟨hr.1, lt_of_lt_of_le hr.2 hq1⟩, hr.2.le⟩
  have g2 : {u | (0 < u ∧ u < 1) ∧ u ≤ ρ ^ 2 / R ^ 2} ⊆ Ioc 0 (ρ ^ 2 / R ^ 2) := fun r hr => ⟨hr.1.1, hr.2⟩
  refine le_antisymm ((measure_mono g2).trans ?_) (le_trans ?_ (measure_mono g1))
  · rw [Real.volume_Ioc, sub_zero]
  · rw [Real.volume_Ioo, sub_zero]

/-- **simple simulation**: the vertex is in the target, the beam particle has the mass of the beam, the magnitude of its momentum is the thrown one and its
direction has the thrown slopes. -/
theorem eventSimple_spec (s s' : Gen) (tg : Target) (b : Beam) (r : Randoms) (hz : s.takeZ = false) (htau : 0 ≤ tg.interactionLength)
    (hu : ∀ u ∈ r.z, 0 < u ∧ u < 1) (hr : 0 ≤ r.rad ∧ r.rad ≤ 1) (h : s.eventSimple tg b r = some s') :
    InTarget tg s'.vertex ∧ OnShell b.mass s'.beam ∧
    s'.beam.x ^ 2 + s'.beam.y ^ 2 + s'.beam.z ^ 2 = (b.momentum + b.momentumSigma * r.g 0) ^ 2 ∧
    s'.beam.x = (b.dxdz + b.dxdzSigma * r.g 1) * s'.beam.z ∧ s'.beam.y = (b.dydz + b.dydzSigma * r.g 2) * s'.beam.z ∧
    (0 < b.momentum + b.momentumSigma * r.g 0 → 0 < s'.beam.z) := by
  unfold Gen.eventSimple at h
  obtain ⟨z, hz', h⟩ := Option.map_eq_some_iff.1 h
  unfold Gen.vertexZ at hz'
  rw [if_neg (by rw [hz]; decide)] at hz'
  obtain ⟨d, hd, rfl⟩ := Option.map_eq_some_iff.1 hz'
  obtain ⟨pre, u, post, e1, _, e3, e4⟩ := (expLoop_iff _ _ _ _).1 hd
  have hu' := hu u (by rw [e1]; simp)
  have hd0 : 0 ≤ d := by
    rw [e3, neg_mul, ← mul_neg]
    exact mul_nonneg htau (neg_nonneg.2 (Real.log_neg hu'.1 hu'.2).le)
  subst h
  dsimp only
  obtain ⟨q, hq⟩ : ∃ q, q = Real.sqrt (1 + (b.dxdz + b.dxdzSigma * r.g 1) * (b.dxdz + b.dxdzSigma * r.g 1) +
    (b.dydz + b.dydzSigma * r.g 2) * (b.dydz + b.dydzSigma * r.g 2)) := ⟨_, rfl⟩
  have hpos : 0 < 1 + (b.dxdz + b.dxdzSigma * r.g 1) * (b.dxdz + b.dxdzSigma * r.g 1) +
    (b.dydz + b.dydzSigma * r.g 2) * (b.dydz + b.dydzSigma * r.g 2) := by
    nlinarith [mul_self_nonneg (b.dxdz + b.dxdzSigma * r.g 1), mul_self_nonneg (b.dydz + b.dydzSigma * r.g 2)]
  have hq0 : 0 < q := by rw [hq]; exact Real.sqrt_pos.2 hpos
  have hq2 : q * q = 1 + (b.dxdz + b.dxdzSigma * r.g 1) * (b.dxdz + b.dxdzSigma * r.g 1) +
    (b.dydz + b.dydzSigma * r.g 2) * (b.dydz + b.dydzSigma * r.g 2) := by rw [hq]; exact Real.mul_self_sqrt hpos.le
  rw [← hq]
  generalize b.momentum + b.momentumSigma * r.g 0 = P at *
  generalize b.dxdz + b.dxdzSigma * r.g 1 = dx at *
  generalize b.dydz + b.dydzSigma * r.g 2 = dy at *
  obtain ⟨w, hw⟩ : ∃ w, w = P / q := ⟨_, rfl⟩
  have hP : P = w * q := by rw [hw, div_mul_cancel₀ _ hq0.ne']
  have hmag : (dx * w) ^ 2 + (dy * w) ^ 2 + w ^ 2 = P ^ 2 := by
    rw [hP]
    linear_combination -(w ^ 2) * hq2
  rw [← hw]
  refine ⟨⟨?_, ?_, ?_⟩, ⟨?_, Real.sqrt_nonneg _⟩, hmag, rfl, rfl, fun hp => ?_⟩
  · dsimp only
    have hs : 0 ≤ 0 + (tg.radius * tg.radius - 0) * r.rad := by nlinarith [mul_nonneg (mul_self_nonneg tg.radius) hr.1]
    have := Real.mul_self_sqrt hs
    have ht := Real.sin_sq_add_cos_sq (2 * Real.pi * r.phi)
    have e : (tg.posX + Real.sqrt (0 + (tg.radius * tg.radius - 0) * r.rad) * Real.cos (2 * Real.pi * r.phi) - tg.posX) ^ 2 +
        (tg.posY + Real.sqrt (0 + (tg.radius * tg.radius - 0) * r.rad) * Real.sin (2 * Real.pi * r.phi) - tg.posY) ^ 2 = tg.radius * tg.radius * r.rad := by
      linear_combination (Real.sqrt (0 + (tg.radius * tg.radius - 0) * r.rad) ^ 2) * ht + this
    rw [e]
    nlinarith [mul_nonneg (mul_self_nonneg tg.radius) (sub_nonneg.2 hr.2)]
  · dsimp only; linarith
  · dsimp only; linarith
  · unfold LV.m2
    dsimp only
    rw [Real.mul_self_sqrt (add_nonneg (mul_self_nonneg _) (mul_self_nonneg _))]
    linear_combination -hmag
  · rw [hw]
    exact div_pos hp hq0

theorem setXYZM_spec (x y z m : ℝ) (hm : 0 ≤ m) : OnShell m (setXYZM x y z m) ∧ (setXYZM x y z m).x = x ∧ (setXYZM x y z m).y = y ∧ (setXYZM x y z m).z = z := by
  refine ⟨⟨?_, ?_⟩, rfl, rfl, rfl⟩
  · unfold LV.m2 setXYZM
    dsimp only
    rw [if_pos hm, Real.mul_self_sqrt (by nlinarith [mul_self_nonneg x, mul_self_nonneg y, mul_self_nonneg z, mul_self_nonneg m])]
    ring
  · unfold setXYZM
    dsimp only
    rw [if_pos hm]
    exact Real.sqrt_nonneg _

/-- **momenta from the file without smearing**: the beam particle has the momentum of the file and the vertex lies on its line. -/
theorem fromMomenta_exact (s : Gen) (b : Beam) (z : ℝ) (g : ℕ → ℝ) (hm : 0 ≤ b.mass) (h : s.sigmasPresent = false ∨ s.scale = 0) :
    OnShell b.mass (s.fromMomenta b z g).beam ∧ (s.fromMomenta b z g).beam.x = s.row.px ∧ (s.fromMomenta b z g).beam.y = s.row.py ∧
    (s.fromMomenta b z g).beam.z = s.row.pz ∧ (s.fromMomenta b z g).vertex.z = z ∧
    OnLine s.row.vx s.row.vy s.row.vz (s.row.px / s.row.pz) (s.row.py / s.row.pz) (s.fromMomenta b z g).vertex := by
  have h' : ¬ (s.sigmasPresent = true ∧ s.scale ≠ 0) := by
    rintro ⟨h1, h2⟩
    rcases h with h | h
    · rw [h] at h1; cases h1
    · exact h2 h
  unfold Gen.fromMomenta
  dsimp only
  rw [if_neg h']
  obtain ⟨a, b1, b2, b3⟩ := setXYZM_spec s.row.px s.row.py s.row.pz b.mass hm
  exact ⟨a, b1, b2, b3, rfl, by dsimp only; ring, by dsimp only; ring⟩

/-- **with smearing**: every component deviates from that value by its uncertainty, times the scaling factor, times an own Gaussian random number. -/
theorem fromMomenta_smeared (s : Gen) (b : Beam) (z : ℝ) (g : ℕ → ℝ) (hm : 0 ≤ b.mass) (h : s.sigmasPresent = true ∧ s.scale ≠ 0) :
    OnShell b.mass (s.fromMomenta b z g).beam ∧ (s.fromMomenta b z g).beam.x - s.row.px = s.scale * s.row.pxSigma * g 2 ∧
    (s.fromMomenta b z g).beam.y - s.row.py = s.scale * s.row.pySigma * g 3 ∧ (s.fromMomenta b z g).beam.z - s.row.pz = s.scale * s.row.pzSigma * g 4 ∧
    (s.fromMomenta b z g).vertex.z = z ∧
    OnLine (s.row.vx + s.scale * s.row.vxSigma * g 0) (s.row.vy + s.scale * s.row.vySigma * g 1) s.row.vz (s.row.px / s.row.pz) (s.row.py / s.row.pz)
      (s.fromMomenta b z g).vertex := by
  unfold Gen.fromMomenta
  dsimp only
  rw [if_pos h]
  dsimp only
  obtain ⟨a, b1, b2, b3⟩ := setXYZM_spec (s.row.px + s.scale * s.row.pxSigma * g 2) (s.row.py + s.scale * s.row.pySigma * g 3)
    (s.row.pz + s.scale * s.row.pzSigma * g 4) b.mass hm
  refine ⟨a, by rw [b1]; ring, by rw [b2]; ring, by rw [b3]; ring, rfl, ?_, ?_⟩
  · dsimp only; ring
  · dsimp only; ring

/-- **correction for the momentum resolution**: the Gaussian from which the true momentum is drawn is the product of the assumed momentum distribution and of
the resolution around the measured momentum (up to a factor that does not depend on the true momentum). -/
theorem truth_posterior (s : Gen) (p : ℝ) (h1 : s.resolution ≠ 0) (h2 : s.pdfSigma ≠ 0) : ∃ c > 0, ∀ x,
    gauss s.pdfMean s.pdfSigma x * gauss x s.resolution p = c * gauss (s.truthMean p) s.truthSigma x := by
  have r2 : 0 < s.resolution ^ 2 := by positivity
  have g2 : 0 < s.pdfSigma ^ 2 := by positivity
  have hT : s.truthSigma ^ 2 = 1 / (1 / s.resolution ^ 2 + 1 / s.pdfSigma ^ 2) := by
    unfold Gen.truthSigma
    rw [← pow_two, ← pow_two, div_pow, one_pow, Real.sq_sqrt (by positivity)]
  have hT' : s.truthSigma ^ 2 = s.resolution ^ 2 * s.pdfSigma ^ 2 / (s.resolution ^ 2 + s.pdfSigma ^ 2) := by
    rw [hT]
    field_simp
    ring
  have hM : s.truthMean p = (p * s.pdfSigma ^ 2 + s.pdfMean * s.resolution ^ 2) / (s.resolution ^ 2 + s.pdfSigma ^ 2) := by
    unfold Gen.truthMean
    rw [← pow_two, hT', ← pow_two, ← pow_two]
    field_simp
  refine ⟨Real.exp (-(p - s.pdfMean) ^ 2 / (2 * (s.resolution ^ 2 + s.pdfSigma ^ 2))), Real.exp_pos _, fun x => ?_⟩
  unfold gauss
  rw [← Real.exp_add, ← Real.exp_add, hT', hM]
  congr 1
  field_simp
  ring

/-- direction and magnitude with this correction: the magnitude of the momentum is the drawn one, along (or, for a particle moving backwards in the file,
against) the momentum of the file. -/
theorem fromMomentaCorrected_spec (s : Gen) (b : Beam) (z : ℝ) (g : ℕ → ℝ) (hm : 0 ≤ b.mass) (hpz : s.row.pz ≠ 0) :
    OnShell b.mass (s.fromMomentaCorrected b z g).beam ∧
    (s.fromMomentaCorrected b z g).beam.x ^ 2 + (s.fromMomentaCorrected b z g).beam.y ^ 2 + (s.fromMomentaCorrected b z g).beam.z ^ 2 =
      (s.truthMean (Real.sqrt (s.row.px * s.row.px + s.row.py * s.row.py + s.row.pz * s.row.pz)) + s.truthSigma * g 0) ^ 2 ∧
    (s.fromMomentaCorrected b z g).beam.x * s.row.pz = (s.fromMomentaCorrected b z g).beam.z * s.row.px ∧
    (s.fromMomentaCorrected b z g).beam.y * s.row.pz = (s.fromMomentaCorrected b z g).beam.z * s.row.py ∧
    (s.fromMomentaCorrected b z g).vertex.z = z ∧
    OnLine s.row.vx s.row.vy s.row.vz (s.row.px / s.row.pz) (s.row.py / s.row.pz) (s.fromMomentaCorrected b z g).vertex := by
  unfold Gen.fromMomentaCorrected
  dsimp only
  generalize s.truthMean (Real.sqrt (s.row.px * s.row.px + s.row.py * s.row.py + s.row.pz * s.row.pz)) + s.truthSigma * g 0 = T
  obtain ⟨q, hq⟩ : ∃ q, q = Real.sqrt (s.row.px / s.row.pz * (s.row.px / s.row.pz) + s.row.py / s.row.pz * (s.row.py / s.row.pz) + 1) := ⟨_, rfl⟩
  have hpos : 0 < s.row.px / s.row.pz * (s.row.px / s.row.pz) + s.row.py / s.row.pz * (s.row.py / s.row.pz) + 1 := by
    nlinarith [mul_self_nonneg (s.row.px / s.row.pz), mul_self_nonneg (s.row.py / s.row.pz)]
  have hq0 : 0 < q := by rw [hq]; exact Real.sqrt_pos.2 hpos
  have hq2 : q ^ 2 = s.row.px / s.row.pz * (s.row.px / s.row.pz) + s.row.py / s.row.pz * (s.row.py / s.row.pz) + 1 := by
    rw [hq]; exact Real.sq_sqrt hpos.le
  rw [← hq]
  obtain ⟨a, b1, b2, b3⟩ := setXYZM_spec (T * (s.row.px / s.row.pz) / q) (T * (s.row.py / s.row.pz) / q) (T / q) b.mass hm
  refine ⟨a, ?_, ?_, ?_, rfl, by dsimp only; ring, by dsimp only; ring⟩
  · rw [b1, b2, b3, div_pow, div_pow, div_pow, ← add_div, ← add_div, div_eq_iff (pow_pos hq0 2).ne', hq2]
    ring
  · rw [b1, b3]
    field_simp
  · rw [b2, b3]
    field_simp

/-- **inclinations from the file**: magnitude and slopes of the momentum, and the line of the vertex, are those of the (smeared or not smeared) values. -/
theorem fromInclinations_spec (eig : (Fin 4 → Fin 4 → ℝ) → (Fin 4 → ℝ) × (Fin 4 → Fin 4 → ℝ)) (s : Gen) (b : Beam) (z : ℝ) (g : ℕ → ℝ) (hm : 0 ≤ b.mass)
    (v : Fin 4 → ℝ) (p : ℝ)
    (hv : v = if s.sigmasPresent ∧ s.scale ≠ 0 then multivariateGauss eig ![s.row.vx, s.row.vy, s.row.dxdz, s.row.dydz] s.row.cov s.scale g
      else ![s.row.vx, s.row.vy, s.row.dxdz, s.row.dydz])
    (hp : p = if s.sigmasPresent ∧ s.scale ≠ 0 then s.row.mom + s.scale * s.row.momSigma * g 4 else s.row.mom) :
    OnShell b.mass (s.fromInclinations eig b z g).beam ∧
    (s.fromInclinations eig b z g).beam.x ^ 2 + (s.fromInclinations eig b z g).beam.y ^ 2 + (s.fromInclinations eig b z g).beam.z ^ 2 = p ^ 2 ∧
    (s.fromInclinations eig b z g).beam.x = v 2 * (s.fromInclinations eig b z g).beam.z ∧
    (s.fromInclinations eig b z g).beam.y = v 3 * (s.fromInclinations eig b z g).beam.z ∧ (0 < p → 0 < (s.fromInclinations eig b z g).beam.z) ∧
    (s.fromInclinations eig b z g).vertex.z = z ∧ OnLine (v 0) (v 1) s.row.vz (v 2) (v 3) (s.fromInclinations eig b z g).vertex := by
  unfold Gen.fromInclinations
  dsimp only
  have hv' : (if s.sigmasPresent = true ∧ s.scale ≠ 0 then multivariateGauss eig ![s.row.vx, s.row.vy, s.row.dxdz, s.row.dydz] s.row.cov s.scale g
      else ![s.row.vx, s.row.vy, s.row.dxdz, s.row.dydz]) = v := by rw [hv]
  have hp' : (if s.sigmasPresent = true ∧ s.scale ≠ 0 then s.row.mom + s.scale * s.row.momSigma * g 4 else s.row.mom) = p := by rw [hp]
  simp only [hv', hp']
  obtain ⟨q, hq⟩ : ∃ q, q = Real.sqrt (v 2 * v 2 + v 3 * v 3 + 1) := ⟨_, rfl⟩
  have hpos : 0 < v 2 * v 2 + v 3 * v 3 + 1 := by nlinarith [mul_self_nonneg (v 2), mul_self_nonneg (v 3)]
  have hq0 : 0 < q := by rw [hq]; exact Real.sqrt_pos.2 hpos
  have hq2 : q ^ 2 = v 2 * v 2 + v 3 * v 3 + 1 := by rw [hq]; exact Real.sq_sqrt hpos.le
  rw [← hq]
  obtain ⟨a, b1, b2, b3⟩ := setXYZM_spec (p * v 2 / q) (p * v 3 / q) (p / q) b.mass hm
  refine ⟨a, ?_, ?_, ?_, fun h => ?_, trivial, by dsimp only; ring, by dsimp only; ring⟩
  · rw [b1, b2, b3, div_pow, div_pow, div_pow, ← add_div, ← add_div, div_eq_iff (pow_pos hq0 2).ne', hq2]
    ring
  · rw [b1, b3]; ring
  · rw [b2, b3]; ring
  · rw [b3]; exact div_pos h hq0

end Rpwa.BeamGen
