import Verif.Model.Frames
import Verif.Spec.Frames
import Verif.Props.PhaseSpaceAll
import Mathlib.LinearAlgebra.Matrix.Notation
import Mathlib.Analysis.SpecialFunctions.Complex.Arg

/-!
# Lemmas: rotations and boosts are changes of frame
-/

namespace Rpwa.Amp

open Rpwa.Gen Spec

theorem vol_eq (a b c d : LV) : vol a b c d =
    a.x * (b.y * (c.z * d.t - c.t * d.z) - b.z * (c.y * d.t - c.t * d.y) + b.t * (c.y * d.z - c.z * d.y))
    - a.y * (b.x * (c.z * d.t - c.t * d.z) - b.z * (c.x * d.t - c.t * d.x) + b.t * (c.x * d.z - c.z * d.x))
    + a.z * (b.x * (c.y * d.t - c.t * d.y) - b.y * (c.x * d.t - c.t * d.x) + b.t * (c.x * d.y - c.y * d.x))
    - a.t * (b.x * (c.y * d.z - c.z * d.y) - b.y * (c.x * d.z - c.z * d.x) + b.z * (c.x * d.y - c.y * d.x)) := by
  unfold vol
  simp [Matrix.det_succ_row_zero, Fin.sum_univ_succ, Matrix.submatrix, Fin.succAbove]
  ring

/-- a linear map given by a matrix of determinant one keeps the oriented volume -/
theorem vol_linear {L : LV → LV} (M : Matrix (Fin 4) (Fin 4) ℝ) (hM : M.det = 1)
    (h : ∀ p, L p = ⟨M 0 0 * p.x + M 0 1 * p.y + M 0 2 * p.z + M 0 3 * p.t,
      M 1 0 * p.x + M 1 1 * p.y + M 1 2 * p.z + M 1 3 * p.t,
      M 2 0 * p.x + M 2 1 * p.y + M 2 2 * p.z + M 2 3 * p.t,
      M 3 0 * p.x + M 3 1 * p.y + M 3 2 * p.z + M 3 3 * p.t⟩) (a b c d : LV) :
    vol (L a) (L b) (L c) (L d) = vol a b c d := by
  have e : vol (L a) (L b) (L c) (L d) =
      (!![a.x, a.y, a.z, a.t; b.x, b.y, b.z, b.t; c.x, c.y, c.z, c.t; d.x, d.y, d.z, d.t] * M.transpose).det := by
    unfold vol
    congr 1
    ext i j
    fin_cases i <;> fin_cases j <;> simp [h, Matrix.mul_apply, Fin.sum_univ_succ] <;> ring
  rw [e, Matrix.det_mul, Matrix.det_transpose, hM, mul_one]
  rfl

theorem Spec.Frame.comp {L K : LV → LV} (hL : Frame L) (hK : Frame K) : Frame (fun p => L (K p)) :=
  ⟨fun p => by
    obtain ⟨q, hq⟩ := hL.onto p
    obtain ⟨r, hr⟩ := hK.onto q
    exact ⟨r, by rw [hr, hq]⟩,
   fun p q => (hL.keeps_prod _ _).trans (hK.keeps_prod _ _),
   fun a b c d => (hL.keeps_vol _ _ _ _).trans (hK.keeps_vol _ _ _ _)⟩

theorem rotX_neg (a : ℝ) (p : LV) : rotX a (rotX (-a) p) = p := by
  have h := Real.sin_sq_add_cos_sq a
  unfold rotX
  rw [Real.cos_neg, Real.sin_neg]
  ext <;> dsimp only
  all_goals first | rfl | ring1 | linear_combination p.x * h | linear_combination p.y * h | linear_combination p.z * h

theorem frame_rotX (a : ℝ) : Frame (rotX a) := by
  have h := Real.sin_sq_add_cos_sq a
  refine ⟨fun p => ⟨_, rotX_neg a p⟩, fun p q => ?_, fun w b c d => ?_⟩
  · unfold prod rotX; dsimp only
    linear_combination (-(p.y * q.y) - p.z * q.z) * h
  · refine vol_linear !![1, 0, 0, 0; 0, Real.cos a, -Real.sin a, 0; 0, Real.sin a, Real.cos a, 0; 0, 0, 0, 1] ?_ ?_ _ _ _ _
    · simp [Matrix.det_succ_row_zero, Fin.sum_univ_succ, Matrix.submatrix, Fin.succAbove]
      linear_combination h
    · intro p; unfold rotX; ext <;> simp; ring

theorem rotY_neg (a : ℝ) (p : LV) : rotY a (rotY (-a) p) = p := by
  have h := Real.sin_sq_add_cos_sq a
  unfold rotY
  rw [Real.cos_neg, Real.sin_neg]
  ext <;> dsimp only
  all_goals first | rfl | ring1 | linear_combination p.x * h | linear_combination p.y * h | linear_combination p.z * h

theorem frame_rotY (a : ℝ) : Frame (rotY a) := by
  have h := Real.sin_sq_add_cos_sq a
  refine ⟨fun p => ⟨_, rotY_neg a p⟩, fun p q => ?_, fun w b c d => ?_⟩
  · unfold prod rotY; dsimp only
    linear_combination (-(p.x * q.x) - p.z * q.z) * h
  · refine vol_linear !![Real.cos a, 0, Real.sin a, 0; 0, 1, 0, 0; -Real.sin a, 0, Real.cos a, 0; 0, 0, 0, 1] ?_ ?_ _ _ _ _
    · simp [Matrix.det_succ_row_zero, Fin.sum_univ_succ, Matrix.submatrix, Fin.succAbove]
      linear_combination h
    · intro p; unfold rotY; ext <;> simp; ring

theorem rotZ_neg (a : ℝ) (p : LV) : rotZ a (rotZ (-a) p) = p := by
  have h := Real.sin_sq_add_cos_sq a
  unfold rotZ
  rw [Real.cos_neg, Real.sin_neg]
  ext <;> dsimp only
  all_goals first | rfl | ring1 | linear_combination p.x * h | linear_combination p.y * h | linear_combination p.z * h

theorem frame_rotZ (a : ℝ) : Frame (rotZ a) := by
  have h := Real.sin_sq_add_cos_sq a
  refine ⟨fun p => ⟨_, rotZ_neg a p⟩, fun p q => ?_, fun w b c d => ?_⟩
  · unfold prod rotZ; dsimp only
    linear_combination (-(p.x * q.x) - p.y * q.y) * h
  · refine vol_linear !![Real.cos a, -Real.sin a, 0, 0; Real.sin a, Real.cos a, 0, 0; 0, 0, 1, 0; 0, 0, 0, 1] ?_ ?_ _ _ _ _
    · simp [Matrix.det_succ_row_zero, Fin.sum_univ_succ, Matrix.submatrix, Fin.succAbove]
      linear_combination h
    · intro p; unfold rotZ; ext <;> simp; ring

theorem frame_boost {b : V3} (hb : b2 b < 1) : Frame (LV.boost b) := by
  refine ⟨fun p => ⟨p.boost b.neg, boost_neg_boost hb p⟩, fun p q => mdot_boost hb p q, fun w c d e => ?_⟩
  obtain ⟨g, g2, hg, h1, _, h3, h4⟩ := boost_eq hb
  refine vol_linear !![1 + g2 * b.x * b.x, g2 * b.x * b.y, g2 * b.x * b.z, g * b.x;
    g2 * b.y * b.x, 1 + g2 * b.y * b.y, g2 * b.y * b.z, g * b.y;
    g2 * b.z * b.x, g2 * b.z * b.y, 1 + g2 * b.z * b.z, g * b.z;
    g * b.x, g * b.y, g * b.z, g] ?_ ?_ _ _ _ _
  · simp [Matrix.det_succ_row_zero, Fin.sum_univ_succ, Matrix.submatrix, Fin.succAbove]
    unfold b2 at h1 h3
    linear_combination h1 + g * h3
  · intro p
    rw [h4]
    ext <;> simp <;> ring

theorem frame_alignY (v : V3) : Frame (alignY v) := (frame_rotX _).comp (frame_rotZ _)

/-! ## angles -/

/-- length of the transverse part -/
noncomputable def perp (v : V3) : ℝ := Real.sqrt (v.x * v.x + v.y * v.y)

/-- length -/
noncomputable def mag (v : V3) : ℝ := Real.sqrt (v.x * v.x + v.y * v.y + v.z * v.z)

theorem norm_mk (x y : ℝ) : ‖(⟨x, y⟩ : ℂ)‖ = Real.sqrt (x * x + y * y) := by
  rw [Complex.norm_def, Complex.normSq_mk]

theorem cos_atan2 (y x : ℝ) : Real.sqrt (x * x + y * y) * Real.cos (atan2 y x) = x := by
  have h := Complex.norm_mul_cos_arg ⟨x, y⟩
  rw [norm_mk] at h
  exact h

theorem sin_atan2 (y x : ℝ) : Real.sqrt (x * x + y * y) * Real.sin (atan2 y x) = y := by
  have h := Complex.norm_mul_sin_arg ⟨x, y⟩
  rw [norm_mk] at h
  exact h

theorem perp_cos (v : V3) : perp v * Real.cos (phi v) = v.x := cos_atan2 _ _

theorem perp_sin (v : V3) : perp v * Real.sin (phi v) = v.y := sin_atan2 _ _

theorem perp_nonneg (v : V3) : 0 ≤ perp v := Real.sqrt_nonneg _

theorem perp_sq (v : V3) : perp v ^ 2 = v.x * v.x + v.y * v.y :=
  Real.sq_sqrt (by nlinarith [mul_self_nonneg v.x, mul_self_nonneg v.y])

theorem mag_nonneg (v : V3) : 0 ≤ mag v := Real.sqrt_nonneg _

theorem mag_sq (v : V3) : mag v ^ 2 = v.x * v.x + v.y * v.y + v.z * v.z :=
  Real.sq_sqrt (by nlinarith [mul_self_nonneg v.x, mul_self_nonneg v.y, mul_self_nonneg v.z])

theorem mag_eq (v : V3) : mag v = Real.sqrt (v.z * v.z + perp v * perp v) := by
  unfold mag
  congr 1
  have := perp_sq v
  nlinarith

theorem mag_cos (v : V3) : mag v * Real.cos (theta v) = v.z := by
  rw [mag_eq]; exact cos_atan2 _ _

theorem mag_sin (v : V3) : mag v * Real.sin (theta v) = perp v := by
  rw [mag_eq]; exact sin_atan2 _ _

/-- the rotation takes its axis to the y-axis -/
theorem alignY_axis (v : V3) (t : ℝ) : alignY v ⟨v.x, v.y, v.z, t⟩ = ⟨0, mag v, 0, t⟩ := by
  have h1 := perp_cos v
  have h2 := perp_sin v
  have h3 := mag_cos v
  have h4 := mag_sin v
  have h5 := Real.sin_sq_add_cos_sq (phi v)
  have h6 := Real.sin_sq_add_cos_sq (theta v)
  have hy : Real.cos (phi v) * v.x + Real.sin (phi v) * v.y = perp v := by
    linear_combination -Real.cos (phi v) * h1 - Real.sin (phi v) * h2 + perp v * h5
  have hx : Real.sin (phi v) * v.x - Real.cos (phi v) * v.y = 0 := by
    linear_combination -Real.sin (phi v) * h1 + Real.cos (phi v) * h2
  unfold alignY rotX rotZ
  ext <;> dsimp only
  · rw [Real.cos_pi_div_two_sub, Real.sin_pi_div_two_sub]; exact hx
  · rw [Real.cos_pi_div_two_sub, Real.sin_pi_div_two_sub, Real.cos_sub_pi_div_two, Real.sin_sub_pi_div_two, hy]
    linear_combination -Real.sin (theta v) * h4 - Real.cos (theta v) * h3 + mag v * h6
  · rw [Real.cos_pi_div_two_sub, Real.sin_pi_div_two_sub, Real.cos_sub_pi_div_two, Real.sin_sub_pi_div_two, hy]
    linear_combination Real.cos (theta v) * h4 - Real.sin (theta v) * h3

/-- the last rotation turns a vector of the x-z-plane to the z-axis, unless it points along the negative z-axis -/
theorem rotY_toZ {p : LV} (hy : p.y = 0) (h : p.x ≠ 0 ∨ 0 ≤ p.z) :
    rotY (-signum p.x * theta p.vect) p = ⟨0, 0, mag p.vect, p.t⟩ := by
  have h3 : mag p.vect * Real.cos (theta p.vect) = p.z := mag_cos p.vect
  have h4 : mag p.vect * Real.sin (theta p.vect) = perp p.vect := mag_sin p.vect
  have h6 := Real.sin_sq_add_cos_sq (theta p.vect)
  have hp : perp p.vect = |p.x| := by
    unfold perp LV.vect
    dsimp only
    rw [hy, mul_zero, add_zero, Real.sqrt_mul_self_eq_abs]
  rw [hp] at h4
  rcases lt_trichotomy p.x 0 with hx | hx | hx
  · have e : signum p.x = -1 := by unfold signum; exact if_pos hx
    rw [abs_of_neg hx] at h4
    rw [e, neg_neg, one_mul]
    unfold rotY
    ext <;> dsimp only
    · linear_combination Real.cos (theta p.vect) * h4 - Real.sin (theta p.vect) * h3
    · exact hy
    · linear_combination -Real.sin (theta p.vect) * h4 - Real.cos (theta p.vect) * h3
        + mag p.vect * h6
  · have e : signum p.x = 0 := by unfold signum; rw [if_neg (by rw [hx]; exact lt_irrefl _), if_neg (by rw [hx]; exact lt_irrefl _)]
    have hz : 0 ≤ p.z := h.resolve_left (fun h => h hx)
    rw [e, neg_zero, zero_mul]
    unfold rotY
    have hm : mag p.vect = p.z := by
      unfold mag LV.vect
      dsimp only
      rw [hx, hy]
      have : (0 : ℝ) * 0 + 0 * 0 + p.z * p.z = p.z * p.z := by ring
      rw [this, Real.sqrt_mul_self hz]
    ext <;> dsimp only
    · rw [Real.sin_zero, hx]; ring
    · exact hy
    · rw [Real.cos_zero, Real.sin_zero, hm]; ring
  · have e : signum p.x = 1 := by unfold signum; rw [if_neg (by exact not_lt.mpr hx.le), if_pos hx]
    rw [abs_of_pos hx] at h4
    rw [e, neg_one_mul]
    unfold rotY
    rw [Real.cos_neg, Real.sin_neg]
    ext <;> dsimp only
    · linear_combination -Real.cos (theta p.vect) * h4 + Real.sin (theta p.vect) * h3
    · exact hy
    · linear_combination -Real.sin (theta p.vect) * h4 - Real.cos (theta p.vect) * h3
        + mag p.vect * h6

theorem rotY_fix_y (a n t : ℝ) : rotY a ⟨0, n, 0, t⟩ = ⟨0, n, 0, t⟩ := by
  unfold rotY; ext <;> dsimp only <;> ring

theorem rotY_rest (a m : ℝ) : rotY a ⟨0, 0, 0, m⟩ = ⟨0, 0, 0, m⟩ := by
  unfold rotY; ext <;> dsimp only <;> ring

theorem alignY_t (v : V3) (p : LV) : (alignY v p).t = p.t := rfl

theorem m2_prod (p : LV) : p.m2 = prod p p := rfl

theorem vect_alignY_dot (v : V3) (p q : LV) :
    (alignY v p).x * (alignY v q).x + (alignY v p).y * (alignY v q).y + (alignY v p).z * (alignY v q).z
      = p.x * q.x + p.y * q.y + p.z * q.z := by
  have h := (frame_alignY v).keeps_prod p q
  unfold prod at h
  rw [alignY_t, alignY_t] at h
  linarith

/-- a vector orthogonal to the axis has no y-component after the rotation -/
theorem alignY_orth {v : V3} (hv : 0 < mag v) {p : LV} (h : v.x * p.x + v.y * p.y + v.z * p.z = 0) :
    (alignY v p).y = 0 := by
  have e := vect_alignY_dot v ⟨v.x, v.y, v.z, 0⟩ p
  rw [alignY_axis] at e
  dsimp only at e
  rw [h] at e
  have : mag v * (alignY v p).y = 0 := by linarith
  exact (mul_eq_zero.mp this).resolve_left hv.ne'

/-- a boost in the x-z-plane leaves the y-components alone -/
theorem boost_y {b : V3} (hb : b2 b < 1) (hy : b.y = 0) (p : LV) : (p.boost b).y = p.y := by
  obtain ⟨g, g2, _, _, _, _, h4⟩ := boost_eq hb
  rw [h4]
  dsimp only
  rw [hy]
  ring

theorem boost_fix_y {b : V3} (hb : b2 b < 1) (hy : b.y = 0) (n : ℝ) :
    (⟨0, n, 0, 0⟩ : LV).boost b = ⟨0, n, 0, 0⟩ := by
  obtain ⟨g, g2, _, _, _, _, h4⟩ := boost_eq hb
  rw [h4, hy]
  ext <;> dsimp only <;> ring

end Rpwa.Amp
