import Verif.Spec.Kinematics
import Mathlib.Tactic.Linarith
import Mathlib.Tactic.FieldSimp
import Mathlib.Tactic.LinearCombination
import Mathlib.Tactic.Positivity
import Mathlib.Tactic.NormNum.Ineq

/-!
# Lemmas on four-vectors: boosts, rotations, two-body kinematics
-/

namespace Rpwa.Gen

open Spec

/-! ## Minkowski product and boosts -/

/-- Minkowski product -/
def mdot (p q : LV) : ℝ := p.t * q.t - (p.x * q.x + p.y * q.y + p.z * q.z)

theorem m2_eq_mdot (p : LV) : p.m2 = mdot p p := rfl

@[simp] theorem add_x (p q : LV) : (p + q).x = p.x + q.x := rfl
@[simp] theorem add_y (p q : LV) : (p + q).y = p.y + q.y := rfl
@[simp] theorem add_z (p q : LV) : (p + q).z = p.z + q.z := rfl
@[simp] theorem add_t (p q : LV) : (p + q).t = p.t + q.t := rfl
@[simp] theorem sub_x (p q : LV) : (p - q).x = p.x - q.x := rfl
@[simp] theorem sub_y (p q : LV) : (p - q).y = p.y - q.y := rfl
@[simp] theorem sub_z (p q : LV) : (p - q).z = p.z - q.z := rfl
@[simp] theorem sub_t (p q : LV) : (p - q).t = p.t - q.t := rfl
@[simp] theorem zero_x : (0 : LV).x = 0 := rfl
@[simp] theorem zero_y : (0 : LV).y = 0 := rfl
@[simp] theorem zero_z : (0 : LV).z = 0 := rfl
@[simp] theorem zero_t : (0 : LV).t = 0 := rfl

theorem mdot_comm (p q : LV) : mdot p q = mdot q p := by unfold mdot; ring

theorem m2_sub (p q : LV) : (p - q).m2 = p.m2 + q.m2 - 2 * mdot p q := by
  unfold LV.m2 mdot; simp only [sub_x, sub_y, sub_z, sub_t]; ring

theorem m2_add (p q : LV) : (p + q).m2 = p.m2 + q.m2 + 2 * mdot p q := by
  unfold LV.m2 mdot; simp only [add_x, add_y, add_z, add_t]; ring

/-- square of the velocity -/
def b2 (b : V3) : ℝ := b.x * b.x + b.y * b.y + b.z * b.z

theorem b2_nonneg (b : V3) : 0 ≤ b2 b := by
  unfold b2
  nlinarith [mul_self_nonneg b.x, mul_self_nonneg b.y, mul_self_nonneg b.z]

/-- the numbers in the definition of a boost -/
theorem boost_eq {b : V3} (hb : b2 b < 1) : ∃ g g2 : ℝ, 0 < g ∧ g ^ 2 * (1 - b2 b) = 1 ∧
    (∀ p : LV, (b.x * p.x + b.y * p.y + b.z * p.z) * (g2 * (g + 1)) =
      (b.x * p.x + b.y * p.y + b.z * p.z) * g ^ 2) ∧ g2 * b2 b = g - 1 ∧
    ∀ p : LV, p.boost b = ⟨p.x + g2 * (b.x * p.x + b.y * p.y + b.z * p.z) * b.x + g * b.x * p.t,
      p.y + g2 * (b.x * p.x + b.y * p.y + b.z * p.z) * b.y + g * b.y * p.t,
      p.z + g2 * (b.x * p.x + b.y * p.y + b.z * p.z) * b.z + g * b.z * p.t,
      g * (p.t + (b.x * p.x + b.y * p.y + b.z * p.z))⟩ := by
  have h1 : 0 < 1 - b2 b := by linarith
  have hs := Real.sqrt_pos.mpr h1
  have hsq := Real.sq_sqrt h1.le
  have hg : (1 / Real.sqrt (1 - b2 b)) ^ 2 * (1 - b2 b) = 1 := by
    rw [div_pow, one_pow, hsq]; field_simp
  by_cases h0 : 0 < b2 b
  · have h3 : (1 / Real.sqrt (1 - b2 b) - 1) / b2 b * b2 b = 1 / Real.sqrt (1 - b2 b) - 1 :=
      div_mul_cancel₀ _ h0.ne'
    refine ⟨1 / Real.sqrt (1 - b2 b), (1 / Real.sqrt (1 - b2 b) - 1) / b2 b,
      one_div_pos.mpr hs, hg, ?_, h3, ?_⟩
    · intro p
      congr 1
      have : b2 b * ((1 / Real.sqrt (1 - b2 b) - 1) / b2 b * (1 / Real.sqrt (1 - b2 b) + 1))
          = b2 b * (1 / Real.sqrt (1 - b2 b)) ^ 2 := by
        linear_combination (1 / Real.sqrt (1 - b2 b) + 1) * h3 + hg
      exact mul_left_cancel₀ h0.ne' this
    · intro p
      unfold LV.boost
      dsimp only
      change LV.mk _ _ _ _ = _
      have e : (if b.x * b.x + b.y * b.y + b.z * b.z > 0 then
          (1 / Real.sqrt (1 - (b.x * b.x + b.y * b.y + b.z * b.z)) - 1)
            / (b.x * b.x + b.y * b.y + b.z * b.z) else 0)
          = (1 / Real.sqrt (1 - b2 b) - 1) / b2 b := if_pos h0
      rw [e]
      rfl
  · have hz : b2 b = 0 := le_antisymm (not_lt.mp h0) (b2_nonneg b)
    have hx : b.x = 0 ∧ b.y = 0 ∧ b.z = 0 := by
      have h := hz
      unfold b2 at h
      have hx := mul_self_nonneg b.x
      have hy := mul_self_nonneg b.y
      have hzz := mul_self_nonneg b.z
      exact ⟨mul_self_eq_zero.mp (by linarith), mul_self_eq_zero.mp (by linarith),
        mul_self_eq_zero.mp (by linarith)⟩
    refine ⟨1, 0, one_pos, by rw [hz]; norm_num, ?_, by norm_num, ?_⟩
    · intro p
      rw [hx.1, hx.2.1, hx.2.2]
      ring
    · intro p
      unfold LV.boost
      dsimp only
      rw [hx.1, hx.2.1, hx.2.2]
      norm_num

/-- boosts preserve the Minkowski product -/
theorem mdot_boost {b : V3} (hb : b2 b < 1) (p q : LV) : mdot (p.boost b) (q.boost b) = mdot p q := by
  obtain ⟨g, g2, _, h1, h2, h3, h4⟩ := boost_eq hb
  rw [h4 p, h4 q]
  unfold mdot
  dsimp only
  have e := h2 p
  generalize hP : b.x * p.x + b.y * p.y + b.z * p.z = P at *
  generalize hQ : b.x * q.x + b.y * q.y + b.z * q.z = Q at *
  have hb2 : b.x * b.x + b.y * b.y + b.z * b.z = b2 b := rfl
  linear_combination (-Q) * e + (p.t * q.t) * h1 - (g2 * P + g * p.t) * hQ - (g2 * Q + g * q.t) * hP
    - (g2 * P + g * p.t) * (g2 * Q + g * q.t) * hb2 - (g2 * P * Q + g * (P * q.t + Q * p.t)) * h3

theorem m2_boost {b : V3} (hb : b2 b < 1) (p : LV) : (p.boost b).m2 = p.m2 := mdot_boost hb p p

theorem boost_add {b : V3} (hb : b2 b < 1) (p q : LV) : (p + q).boost b = p.boost b + q.boost b := by
  obtain ⟨g, g2, _, _, _, _, h4⟩ := boost_eq hb
  rw [h4 p, h4 q, h4]
  ext <;> simp only [add_x, add_y, add_z, add_t] <;> ring

theorem boost_sub {b : V3} (hb : b2 b < 1) (p q : LV) : (p - q).boost b = p.boost b - q.boost b := by
  obtain ⟨g, g2, _, _, _, _, h4⟩ := boost_eq hb
  rw [h4 p, h4 q, h4]
  ext <;> simp only [sub_x, sub_y, sub_z, sub_t] <;> ring

theorem boost_zero {b : V3} (hb : b2 b < 1) : (0 : LV).boost b = 0 := by
  obtain ⟨g, g2, _, _, _, _, h4⟩ := boost_eq hb
  rw [h4]
  ext <;> simp

/-- a boost does not change the sign of the energy -/
theorem boost_energy {b : V3} (hb : b2 b < 1) {p : LV} (h : 0 ≤ p.m2) (ht : 0 ≤ p.t) :
    0 ≤ (p.boost b).t := by
  obtain ⟨g, g2, hg, _, _, _, h4⟩ := boost_eq hb
  rw [h4]
  dsimp only
  refine mul_nonneg hg.le ?_
  have hcs : (b.x * p.x + b.y * p.y + b.z * p.z) ^ 2
      ≤ b2 b * (p.x * p.x + p.y * p.y + p.z * p.z) := by
    unfold b2
    nlinarith [sq_nonneg (b.x * p.y - b.y * p.x), sq_nonneg (b.x * p.z - b.z * p.x),
      sq_nonneg (b.y * p.z - b.z * p.y)]
  have hp : p.x * p.x + p.y * p.y + p.z * p.z ≤ p.t ^ 2 := by unfold LV.m2 at h; nlinarith
  have hpn : 0 ≤ p.x * p.x + p.y * p.y + p.z * p.z := by
    nlinarith [mul_self_nonneg p.x, mul_self_nonneg p.y, mul_self_nonneg p.z]
  have : (b.x * p.x + b.y * p.y + b.z * p.z) ^ 2 ≤ p.t ^ 2 := by
    nlinarith [b2_nonneg b]
  have := abs_le_of_sq_le_sq' this ht
  linarith [this.1]

/-- velocity of a massive particle -/
theorem b2_boostVector {P : LV} (h : 0 < P.m2) : b2 P.boostVector < 1 ∧
    (1 - b2 P.boostVector) * P.t ^ 2 = P.m2 := by
  have ht : P.t ≠ 0 := by
    rintro h0
    unfold LV.m2 at h
    rw [h0] at h
    nlinarith [mul_self_nonneg P.x, mul_self_nonneg P.y, mul_self_nonneg P.z]
  have e : (1 - b2 P.boostVector) * P.t ^ 2 = P.m2 := by
    unfold b2 LV.boostVector LV.m2
    dsimp only
    field_simp
  refine ⟨?_, e⟩
  have ht2 : 0 < P.t ^ 2 := by positivity
  by_contra hc
  have : (1 - b2 P.boostVector) * P.t ^ 2 ≤ 0 :=
    mul_nonpos_of_nonpos_of_nonneg (by linarith [not_lt.mp hc]) ht2.le
  linarith

/-- a particle at rest, boosted with the velocity of `P`, is `P` -/
theorem boost_rest {P : LV} {M : ℝ} (hM : 0 < M) (h : P.m2 = M ^ 2) (ht : 0 < P.t) :
    (LV.mk 0 0 0 M).boost P.boostVector = P := by
  have hm : 0 < P.m2 := by rw [h]; positivity
  obtain ⟨hb, e⟩ := b2_boostVector hm
  obtain ⟨g, g2, hg, h1, _, _, h4⟩ := boost_eq hb
  have hgM : g * M = P.t := by
    have : (g * M) ^ 2 = P.t ^ 2 := by
      have : g ^ 2 * ((1 - b2 P.boostVector) * P.t ^ 2) = g ^ 2 * M ^ 2 := by rw [e, h]
      linear_combination (P.t ^ 2) * h1 - this
    exact (pow_left_inj₀ (by positivity) ht.le two_ne_zero).mp this
  rw [h4]
  have hx : P.boostVector.x * P.t = P.x := div_mul_cancel₀ _ ht.ne'
  have hy : P.boostVector.y * P.t = P.y := div_mul_cancel₀ _ ht.ne'
  have hz : P.boostVector.z * P.t = P.z := div_mul_cancel₀ _ ht.ne'
  ext <;> dsimp only
  · linear_combination P.boostVector.x * hgM + hx
  · linear_combination P.boostVector.y * hgM + hy
  · linear_combination P.boostVector.z * hgM + hz
  · linear_combination hgM

theorem b2_neg (b : V3) : b2 b.neg = b2 b := by unfold b2 V3.neg; ring

/-- the inverse boost takes `P` to rest -/
theorem boost_to_rest {P : LV} {M : ℝ} (hM : 0 < M) (h : P.m2 = M ^ 2) (ht : 0 < P.t) :
    P.boost P.boostVector.neg = ⟨0, 0, 0, M⟩ := by
  have hm : 0 < P.m2 := by rw [h]; positivity
  obtain ⟨hb, e⟩ := b2_boostVector hm
  rw [← b2_neg] at hb
  obtain ⟨g, g2, hg, h1, _, h3, h4⟩ := boost_eq hb
  rw [b2_neg] at h1 h3
  have hgM : g * M = P.t := by
    have : (g * M) ^ 2 = P.t ^ 2 := by
      have : g ^ 2 * ((1 - b2 P.boostVector) * P.t ^ 2) = g ^ 2 * M ^ 2 := by rw [e, h]
      linear_combination (P.t ^ 2) * h1 - this
    exact (pow_left_inj₀ (by positivity) ht.le two_ne_zero).mp this
  rw [h4]
  have hx : P.boostVector.x * P.t = P.x := div_mul_cancel₀ _ ht.ne'
  have hy : P.boostVector.y * P.t = P.y := div_mul_cancel₀ _ ht.ne'
  have hz : P.boostVector.z * P.t = P.z := div_mul_cancel₀ _ ht.ne'
  have hbp : P.boostVector.x * P.x + P.boostVector.y * P.y + P.boostVector.z * P.z
      = b2 P.boostVector * P.t := by
    unfold b2
    linear_combination -P.boostVector.x * hx - P.boostVector.y * hy - P.boostVector.z * hz
  unfold V3.neg
  ext <;> dsimp only
  · linear_combination (g2 * P.boostVector.x) * hbp + P.boostVector.x * P.t * h3 - hx
  · linear_combination (g2 * P.boostVector.y) * hbp + P.boostVector.y * P.t * h3 - hy
  · linear_combination (g2 * P.boostVector.z) * hbp + P.boostVector.z * P.t * h3 - hz
  · have : g * (P.t + (-P.boostVector.x * P.x + -P.boostVector.y * P.y + -P.boostVector.z * P.z))
        = g * ((1 - b2 P.boostVector) * P.t) := by linear_combination -g * hbp
    rw [this]
    have hg' : g ≠ 0 := hg.ne'
    apply mul_left_cancel₀ hg'
    linear_combination P.t * h1 - hgM

/-! ## rotations -/

theorem rotateUz_dot {u : V3} (hu : u.dot u = 1) (v w : V3) :
    (V3.rotateUz u v).dot (V3.rotateUz u w) = v.dot w := by
  unfold V3.dot at hu
  unfold V3.rotateUz
  dsimp only
  split
  · rename_i h
    have hpos : 0 < u.x * u.x + u.y * u.y :=
      lt_of_le_of_ne (by nlinarith [mul_self_nonneg u.x, mul_self_nonneg u.y]) (Ne.symm h)
    have hs := Real.sq_sqrt hpos.le
    have hne : Real.sqrt (u.x * u.x + u.y * u.y) ≠ 0 := (Real.sqrt_pos.mpr hpos).ne'
    generalize Real.sqrt (u.x * u.x + u.y * u.y) = s at hs hne
    unfold V3.dot
    dsimp only
    field_simp
    have h2 : u.z ^ 2 = 1 - s ^ 2 := by linear_combination hu + hs
    have h4 : u.x ^ 2 = s ^ 2 - u.y ^ 2 := by linear_combination -hs
    have e : (u.z * u.z * v.x - v.x + u.z * s * v.z) = s * (u.z * v.z - s * v.x) := by
      linear_combination v.x * h2
    have e' : (u.z * u.z * w.x - w.x + u.z * s * w.z) = s * (u.z * w.z - s * w.x) := by
      linear_combination w.x * h2
    ring_nf at e e' ⊢
    ring_nf
    linear_combination (v.x * w.x * u.z ^ 2 + v.y * w.y + v.z * w.z * s ^ 2
      + (v.x * w.z + v.z * w.x) * u.z * s) * h4 + (s ^ 2 * v.z * w.z + (v.x * w.x) * (s^2 + u.z^2 - 1)) * h2
      + (s * u.z * (v.x * w.z + v.z * w.x)) * h2 - (v.x * w.x * s ^ 2) * h2
  · rename_i h
    have h : u.x * u.x + u.y * u.y = 0 := not_not.mp h
    split
    · unfold V3.dot; ring
    · rfl

/-- the rotation takes the z-axis to `u` -/
theorem rotateUz_axis {u : V3} (hu : u.dot u = 1) (v : V3) : u.dot (V3.rotateUz u v) = v.z := by
  have h0 := hu
  unfold V3.dot at hu
  unfold V3.rotateUz
  dsimp only
  split
  · rename_i h
    have hpos : 0 < u.x * u.x + u.y * u.y :=
      lt_of_le_of_ne (by nlinarith [mul_self_nonneg u.x, mul_self_nonneg u.y]) (Ne.symm h)
    have hs := Real.sq_sqrt hpos.le
    have hne : Real.sqrt (u.x * u.x + u.y * u.y) ≠ 0 := (Real.sqrt_pos.mpr hpos).ne'
    generalize Real.sqrt (u.x * u.x + u.y * u.y) = s at hs hne
    unfold V3.dot
    dsimp only
    field_simp
    linear_combination (u.z * v.x + s * v.z) * hu
  · rename_i h
    have h : u.x * u.x + u.y * u.y = 0 := not_not.mp h
    have hx : u.x = 0 := mul_self_eq_zero.mp (by nlinarith [mul_self_nonneg u.x, mul_self_nonneg u.y])
    have hy : u.y = 0 := mul_self_eq_zero.mp (by nlinarith [mul_self_nonneg u.x, mul_self_nonneg u.y])
    rw [hx, hy] at hu
    have hz : u.z * u.z = 1 := by linarith
    split
    · rename_i hneg
      have : u.z = -1 := by nlinarith
      unfold V3.dot; dsimp only; rw [hx, hy, this]; ring
    · rename_i hneg
      have : u.z = 1 := by nlinarith
      unfold V3.dot; rw [hx, hy, this]; ring

theorem unit_spec {v : V3} (hv : 0 < v.dot v) : v.unit.dot v.unit = 1 ∧
    v = ⟨Real.sqrt (v.dot v) * v.unit.x, Real.sqrt (v.dot v) * v.unit.y,
      Real.sqrt (v.dot v) * v.unit.z⟩ := by
  have hs := Real.sqrt_pos.mpr hv
  have hsq := Real.mul_self_sqrt hv.le
  have hne := hs.ne'
  have e : v.unit = ⟨v.x * (1 / Real.sqrt (v.dot v)), v.y * (1 / Real.sqrt (v.dot v)),
      v.z * (1 / Real.sqrt (v.dot v))⟩ := by
    unfold V3.unit
    dsimp only
    rw [if_pos hv]
  rw [e]
  constructor
  · have : v.dot v = v.x * v.x + v.y * v.y + v.z * v.z := rfl
    unfold V3.dot
    dsimp only
    rw [← this]
    field_simp
    linear_combination -this - hsq
  · apply V3.ext <;> dsimp only <;> field_simp

end Rpwa.Gen
