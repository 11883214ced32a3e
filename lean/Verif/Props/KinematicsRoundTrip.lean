import Verif.Props.Kinematics
import Mathlib.Analysis.SpecialFunctions.Complex.Arg

/-!
# C44: the generated `t'` is the one the analysis calculates, and every system can be generated
-/

namespace Rpwa.Gen

open Spec

/-- energy in the rest frame of `P` -/
theorem rest_energy {P : LV} {M : ℝ} (hM : 0 < M) (h : P.m2 = M ^ 2) (ht : 0 < P.t) (p : LV) :
    M * (p.boost P.boostVector.neg).t = mdot p P := by
  have hm : 0 < P.m2 := by rw [h]; positivity
  have hb : b2 P.boostVector.neg < 1 := by rw [b2_neg]; exact (b2_boostVector hm).1
  rw [← mdot_boost hb p P, boost_to_rest hM h ht]
  unfold mdot
  dsimp only
  ring

/-- **C44.** For every physical reaction and every outgoing system X that is possible in it, the analysis
function `tPrime` returns the `t'` of X, that is, how far `t` is below its largest possible value. -/
theorem tPrime_spec {beam : LV} {mt mx mr : ℝ} (hP : Physical beam mt mx mr) {X : LV}
    (hX : Allowed beam mt mx mr X) : IsTPrime beam mt mx mr X (tPrime beam (target mt) X) := by
  have c := cm_of hP
  rw [isTPrime_iff hP c]
  have hs := s_pos hP
  have hW2 : (beam + target mt).m2 = cmW beam mt ^ 2 := (Real.sq_sqrt hs.le).symm
  have hE : 0 < (beam + target mt).t := by
    have := hP.energy
    have := hP.targetMass
    simp only [add_t]
    unfold target
    dsimp only
    linarith
  have hb : b2 (beam + target mt).boostVector.neg < 1 := by
    rw [b2_neg]; exact (b2_boostVector hs).1
  have hW := c.hW
  -- beam in the centre-of-mass system
  have e1 : (beam.boost (beam + target mt).boostVector.neg).t = cmEb beam mt := by
    have h1 := rest_energy hW hW2 hE beam
    have h2 : mdot beam (beam + target mt) = beam.m2 + mt * beam.t := by
      unfold mdot LV.m2 target; simp only [add_x, add_y, add_z, add_t]; ring
    rw [h2] at h1
    refine mul_left_cancel₀ (show (2 * cmW beam mt) ≠ 0 by positivity) ?_
    rw [c.heb, c.hs]
    linear_combination 2 * h1
  have e2 : (X.boost (beam + target mt).boostVector.neg).t = cmEx beam mt mx mr := by
    have h1 := rest_energy hW hW2 hE X
    have h3 := hX.2.2.1
    rw [m2_sub, hX.1, mdot_comm, hW2] at h3
    refine mul_left_cancel₀ (show (2 * cmW beam mt) ≠ 0 by positivity) ?_
    rw [c.hex]
    linear_combination 2 * h1 - h3
  have p1 : (beam.boost (beam + target mt).boostVector.neg).P = cmPb beam mt := by
    refine (pow_left_inj₀ (P_nonneg _) c.hpb0 two_ne_zero).mp ?_
    rw [P_sq, m2_boost hb, e1, c.hpb]
  have p2 : (X.boost (beam + target mt).boostVector.neg).P = cmPx beam mt mx mr := by
    refine (pow_left_inj₀ (P_nonneg _) c.hpx0 two_ne_zero).mp ?_
    rw [P_sq, m2_boost hb, e2, c.hpx, hX.1]
  have hd := mdot_boost hb beam X
  have hd2 : mdot (beam.boost (beam + target mt).boostVector.neg)
      (X.boost (beam + target mt).boostVector.neg)
      = cmEb beam mt * cmEx beam mt mx mr
        - (beam.boost (beam + target mt).boostVector.neg).vect.dot
          (X.boost (beam + target mt).boostVector.neg).vect := by
    unfold mdot V3.dot LV.vect
    rw [e1, e2]
  rw [hd2] at hd
  have ht : tPrime beam (target mt) X = 2 * (cmPb beam mt * cmPx beam mt mx mr
      - (beam.boost (beam + target mt).boostVector.neg).vect.dot
          (X.boost (beam + target mt).boostVector.neg).vect) := by
    rw [← p1, ← p2]
    rfl
  rw [ht, mandelT_eq, hX.1, mdot_comm X beam]
  unfold tmax
  linear_combination 2 * hd

/-- `t'` is unique -/
theorem isTPrime_unique {beam : LV} {mt mx mr : ℝ} {X : LV} {a b : ℝ}
    (h1 : IsTPrime beam mt mx mr X a) (h2 : IsTPrime beam mt mx mr X b) : a = b := by
  obtain ⟨t0, g0, e0⟩ := h1
  obtain ⟨t1, g1, e1⟩ := h2
  rw [g0.unique g1] at e0
  linarith

/-- **C44, round trip.** Whatever X the generator produces for `t' ≥ 0`: the analysis finds the same `t'`. -/
theorem tPrime_of_generated {beam : LV} {mt mx mr : ℝ} (hP : Physical beam mt mx mr) {t' : ℝ}
    (h0 : 0 ≤ t') {phi : ℝ} {X : LV}
    (h : calculateXSystemLab beam mt mx mr (beam + target mt).m2 t' phi = some X) :
    tPrime beam (target mt) X = t' := by
  obtain ⟨hA, hT⟩ := xSystem_complete hP h0 h
  exact isTPrime_unique (tPrime_spec hP hA) hT

/-- the rotation reaches every vector -/
theorem rotateUz_surj {u : V3} (hu : u.dot u = 1) (w : V3) : ∃ v, V3.rotateUz u v = w := by
  have h0 := hu
  unfold V3.dot at hu
  by_cases h : u.x * u.x + u.y * u.y = 0
  · by_cases hz : u.z < 0
    · refine ⟨⟨-w.x, w.y, -w.z⟩, ?_⟩
      unfold V3.rotateUz
      dsimp only
      rw [if_neg (not_not.mpr h), if_pos hz]
      simp
    · refine ⟨w, ?_⟩
      unfold V3.rotateUz
      dsimp only
      rw [if_neg (not_not.mpr h), if_neg hz]
  · have hpos : 0 < u.x * u.x + u.y * u.y :=
      lt_of_le_of_ne (by nlinarith [mul_self_nonneg u.x, mul_self_nonneg u.y]) (Ne.symm h)
    have hs := Real.sqrt_pos.mpr hpos
    have hs2 := Real.mul_self_sqrt hpos.le
    have hne := hs.ne'
    refine ⟨⟨(u.x * u.z * w.x + u.y * u.z * w.y + (u.z * u.z - 1) * w.z)
        / Real.sqrt (u.x * u.x + u.y * u.y),
      (-u.y * w.x + u.x * w.y) / Real.sqrt (u.x * u.x + u.y * u.y),
      u.x * w.x + u.y * w.y + u.z * w.z⟩, ?_⟩
    unfold V3.rotateUz
    dsimp only
    rw [if_pos h]
    generalize Real.sqrt (u.x * u.x + u.y * u.y) = s at *
    have hz : u.z * u.z = 1 - s * s := by linarith
    have hx : u.x * u.x = s * s - u.y * u.y := by linarith
    ext
    · dsimp only
      field_simp
      linear_combination (u.x * u.x * w.x + u.x * u.y * w.y + u.x * u.z * w.z) * hz
        + w.x * hx
    · dsimp only
      field_simp
      linear_combination (u.x * u.y * w.x + u.y * u.y * w.y + u.y * u.z * w.z) * hz + w.y * hx
    · dsimp only
      field_simp
      linear_combination (u.x * u.z * w.x + u.y * u.z * w.y + (u.z * u.z - 1) * w.z) * hz

/-- polar coordinates -/
theorem polar (a b : ℝ) : ∃ phi, a = Real.sqrt (a ^ 2 + b ^ 2) * Real.cos phi ∧
    b = Real.sqrt (a ^ 2 + b ^ 2) * Real.sin phi := by
  have h : ‖(⟨a, b⟩ : ℂ)‖ = Real.sqrt (a ^ 2 + b ^ 2) := by
    rw [Complex.norm_def, Complex.normSq_mk, sq, sq]
  exact ⟨Complex.arg ⟨a, b⟩, by rw [← h, Complex.norm_mul_cos_arg],
    by rw [← h, Complex.norm_mul_sin_arg]⟩

/-- **C44, every system can be generated.** For every outgoing system X of the reaction that moves, there is
an azimuth for which the generator, given the `t'` of X, produces exactly X. -/
theorem xSystem_surjective {beam : LV} {mt mx mr : ℝ} (hP : Physical beam mt mx mr) {X : LV}
    (hX : Allowed beam mt mx mr X) (hmv : X.P ≠ 0) :
    ∃ phi, calculateXSystemLab beam mt mx mr (beam + target mt).m2 (tPrime beam (target mt) X) phi
      = some X := by
  have c := cm_of hP
  have hmt := hP.targetMass
  have hT := (isTPrime_iff hP c X _).mp (tPrime_spec hP hX)
  generalize tPrime beam (target mt) X = t' at *
  have hXP : 0 < X.P := lt_of_le_of_ne (P_nonneg _) (Ne.symm hmv)
  have hv : 0 < beam.vect.dot beam.vect := by
    have : beam.P = Real.sqrt (beam.vect.dot beam.vect) := rfl
    exact Real.sqrt_pos.mp (this ▸ hP.moving)
  obtain ⟨hu, hbu⟩ := unit_spec hv
  obtain ⟨v, hvX⟩ := rotateUz_surj hu X.vect
  have hE := allowed_energy hmt hX
  have hN := allowed_num hmt hX
  have hPX : X.P ^ 2 = labE beam mt mr (mandelT beam X) ^ 2 - mx ^ 2 := by
    rw [P_sq, hX.1, ← hE]
  have hvz : beam.x * X.x + beam.y * X.y + beam.z * X.z = beam.P * v.z := by
    have h1 := rotateUz_axis hu v
    rw [hvX] at h1
    have h2 : beam.vect.dot X.vect = Real.sqrt (beam.vect.dot beam.vect) * beam.vect.unit.dot X.vect := by
      have := congrArg (fun v => V3.dot v X.vect) hbu
      refine this.trans ?_
      unfold V3.dot
      dsimp only
      ring
    rw [h1] at h2
    exact h2
  have hvn : v.x ^ 2 + v.y ^ 2 + v.z ^ 2 = X.P ^ 2 := by
    have h1 := rotateUz_dot hu v v
    rw [hvX] at h1
    have h2 : X.P ^ 2 = X.vect.dot X.vect := by
      rw [P_sq]; unfold LV.m2 V3.dot LV.vect; dsimp only; ring
    rw [h2, h1]
    unfold V3.dot
    ring
  obtain ⟨phi, hx, hy⟩ := polar v.x v.y
  refine ⟨phi, ?_⟩
  rw [calc_eq hP, ← hT]
  unfold finish
  rw [← hPX, sqrt?_of (sq_nonneg _), Option.bind_some, Real.sqrt_sq (P_nonneg _)]
  have hcs : (if t' = 0 then some 1 else div? (num beam mt mx mr (mandelT beam X)) (2 * beam.P * X.P))
      = some (v.z / X.P) := by
    have hPm := hP.moving
    by_cases hz : t' = 0
    · rw [if_pos hz]
      have q := quad hmt c (mandelT beam X)
      rw [hT, hz, sub_zero, sub_self, zero_mul, mul_zero] at q
      rw [hz, sub_zero] at hT
      rw [← hT, hN, hvz, ← hPX] at q
      have h3 : v.z ^ 2 = X.P ^ 2 := by
        have : beam.P ^ 2 * (v.z ^ 2 - X.P ^ 2) = 0 := by linear_combination q / 4
        rcases mul_eq_zero.mp this with h | h
        · exact absurd h (by positivity)
        · linarith
      have hnn : 0 ≤ v.z := by
        have hn := num_tmax hmt c
        rw [← hT, hN, hvz] at hn
        have hb := hP.energy
        have h3 : 0 ≤ (cmW beam mt * (2 * beam.P)) * v.z := by
          have e : (cmW beam mt * (2 * beam.P)) * v.z = cmW beam mt * (2 * (beam.P * v.z)) := by ring
          rw [e, hn]
          have := c.hex0
          have := c.hpx0
          positivity
        have := c.hW
        exact nonneg_of_mul_nonneg_right h3 (by positivity)
      rw [(pow_left_inj₀ hnn (P_nonneg _) two_ne_zero).mp h3, div_self hmv]
    · rw [if_neg hz, div?_of (by positivity), hN, hvz]
      congr 1
      field_simp
  rw [hcs, Option.bind_some]
  have hsn : 1 - v.z / X.P * (v.z / X.P) = (v.x ^ 2 + v.y ^ 2) / X.P ^ 2 := by
    field_simp
    linear_combination -hvn
  rw [hsn, sqrt?_of (by positivity), Option.bind_some]
  have hsq : X.P * Real.sqrt ((v.x ^ 2 + v.y ^ 2) / X.P ^ 2) = Real.sqrt (v.x ^ 2 + v.y ^ 2) := by
    rw [Real.sqrt_div' _ (sq_nonneg _), Real.sqrt_sq (P_nonneg _)]
    field_simp
  have hz2 : X.P * (v.z / X.P) = v.z := by field_simp
  have hv3 : (⟨X.P * Real.sqrt ((v.x ^ 2 + v.y ^ 2) / X.P ^ 2) * Real.cos phi,
      X.P * Real.sqrt ((v.x ^ 2 + v.y ^ 2) / X.P ^ 2) * Real.sin phi, X.P * (v.z / X.P)⟩ : V3) = v := by
    rw [hsq, hz2, ← hx, ← hy]
  rw [hv3, hvX, ← hE]
  rfl

/-! ## examples -/

/-- a beam of energy 5 and momentum 4 along z (mass 3) on a target of mass 3: `s = 48` -/
def exBeam : LV := ⟨0, 0, 4, 5⟩

theorem exBeam_physical : Physical exBeam 3 3 3 := by
  refine ⟨by norm_num, by norm_num, by norm_num, by norm_num [exBeam], ?_, ?_, ?_⟩
  · norm_num [exBeam, LV.m2]
  · unfold LV.P exBeam
    norm_num
  · rw [m2_target]
    norm_num [exBeam, LV.m2]

/-- elastic forward scattering is possible: the hypotheses of `xSystem_spec` are satisfied -/
theorem exBeam_allowed : Allowed exBeam 3 3 3 exBeam ∧ exBeam.P ≠ 0 := by
  refine ⟨⟨?_, ?_, ?_, ?_⟩, exBeam_physical.moving.ne'⟩
  · norm_num [exBeam, LV.m2]
  · norm_num [exBeam]
  · norm_num [exBeam, LV.m2, target]
  · norm_num [exBeam, target]

/-- the other end of the range: X is at rest, the target takes over the beam momentum -/
theorem exRest_allowed : Allowed exBeam 3 3 3 ⟨0, 0, 0, 3⟩ := by
  refine ⟨?_, ?_, ?_, ?_⟩
  · norm_num [LV.m2]
  · norm_num
  · norm_num [exBeam, LV.m2, target]
  · norm_num [exBeam, target]

/-- beyond the kinematic limit nothing is generated: all components are NaN, and the caller does not look -/
theorem xSystem_too_large {beam : LV} {mt mx mr : ℝ} (hP : Physical beam mt mx mr) {t' : ℝ} (h0 : 0 ≤ t')
    (h : ¬ ∃ X, Allowed beam mt mx mr X ∧ IsTPrime beam mt mx mr X t') (phi : ℝ) :
    calculateXSystemLab beam mt mx mr (beam + target mt).m2 t' phi = none := by
  rcases hc : calculateXSystemLab beam mt mx mr (beam + target mt).m2 t' phi with _ | X
  · rfl
  · exact absurd ⟨X, xSystem_complete hP h0 hc⟩ h

/-- there always is such a `t'` -/
theorem exists_too_large {beam : LV} {mt mx mr : ℝ} (hP : Physical beam mt mx mr) :
    ∃ t', 0 ≤ t' ∧ ∀ phi, calculateXSystemLab beam mt mx mr (beam + target mt).m2 t' phi = none := by
  have c := cm_of hP
  have hle := tmin_le_tmax c
  refine ⟨tmax beam mx (cmEx beam mt mx mr) (cmPx beam mt mx mr) (cmEb beam mt) (cmPb beam mt)
    - tmin beam mx (cmEx beam mt mx mr) (cmPx beam mt mx mr) (cmEb beam mt) (cmPb beam mt) + 1,
    by linarith, fun phi => xSystem_too_large hP (by linarith) ?_ phi⟩
  rintro ⟨X, hA, hT⟩
  have h1 := (isTPrime_iff hP c X _).mp hT
  have h2 := (allowed_range hP hA c).1
  linarith

end Rpwa.Gen
