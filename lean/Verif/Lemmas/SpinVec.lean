import Verif.Spec.SpinTensor
import Mathlib.LinearAlgebra.Matrix.Notation
import Mathlib.Analysis.Complex.Basic
/-!
# Scalar and triple products of polarization vectors
-/
namespace Rpwa.SpinTensor
open Spec

theorem sq2 : ((Real.sqrt 2 : ℝ) : ℂ) * ((Real.sqrt 2 : ℝ) : ℂ) = 2 := by
  rw [← Complex.ofReal_mul, Real.mul_self_sqrt (by norm_num)]; norm_num

theorem sq2_ne : ((Real.sqrt 2 : ℝ) : ℂ) ≠ 0 := by
  intro h; have := sq2; rw [h] at this; norm_num at this

theorem vec_pos (γ : ℝ) : vec γ 1 = (![-1 / ((Real.sqrt 2 : ℝ) : ℂ), -Complex.I / ((Real.sqrt 2 : ℝ) : ℂ), 0] : Fin 3 → ℂ) := by
  unfold vec; rw [if_pos rfl]
theorem vec_neg (γ : ℝ) : vec γ (-1) = (![1 / ((Real.sqrt 2 : ℝ) : ℂ), -Complex.I / ((Real.sqrt 2 : ℝ) : ℂ), 0] : Fin 3 → ℂ) := by
  unfold vec; rw [if_neg (by decide), if_pos rfl]
theorem vec_zero (γ : ℝ) : vec γ 0 = ![0, 0, (γ : ℂ)] := by
  unfold vec; rw [if_neg (by decide), if_neg (by decide), if_pos rfl]

theorem conj_pos : vecConj 1 = (![-1 / ((Real.sqrt 2 : ℝ) : ℂ), Complex.I / ((Real.sqrt 2 : ℝ) : ℂ), 0] : Fin 3 → ℂ) := by
  unfold vecConj; rw [vec_pos]; funext i; fin_cases i <;> simp
theorem conj_neg : vecConj (-1) = (![1 / ((Real.sqrt 2 : ℝ) : ℂ), Complex.I / ((Real.sqrt 2 : ℝ) : ℂ), 0] : Fin 3 → ℂ) := by
  unfold vecConj; rw [vec_neg]; funext i; fin_cases i <;> simp
theorem conj_zero : vecConj 0 = ![0, 0, 1] := by
  unfold vecConj; rw [vec_zero]; funext i; fin_cases i <;> simp

theorem dot_eq (u v : Fin 3 → ℂ) : dot u v = u 0 * v 0 + u 1 * v 1 + u 2 * v 2 := by
  unfold dot; rw [Fin.sum_univ_three]

theorem triple_eq (u v w : Fin 3 → ℂ) : triple u v w =
    u 0 * v 1 * w 2 - u 0 * v 2 * w 1 - u 1 * v 0 * w 2 + u 1 * v 2 * w 0 + u 2 * v 0 * w 1 - u 2 * v 1 * w 0 := by
  unfold triple; rw [Matrix.det_fin_three]; rfl

/-- scalar product of two helicity vectors -/
noncomputable def kc (g : ℝ) (x y : ℤ) : ℝ := if x + y ≠ 0 then 0 else if x = 0 then g else -1
/-- scalar product of a helicity vector with a conjugated one -/
noncomputable def kp (g : ℝ) (x y : ℤ) : ℝ := if x ≠ y then 0 else if x = 0 then g else 1

theorem inv2 : (((Real.sqrt 2 : ℝ) : ℂ))⁻¹ * (((Real.sqrt 2 : ℝ) : ℂ))⁻¹ = 1 / 2 := by
  rw [← mul_inv, sq2]; norm_num

theorem dot_vec {x y : ℤ} (a b : ℝ) (hx : x = -1 ∨ x = 0 ∨ x = 1) (hy : y = -1 ∨ y = 0 ∨ y = 1) : dot (vec a x) (vec b y) = (kc (a * b) x y : ℝ) := by
  have h := inv2
  have hI := Complex.I_mul_I
  rcases hx with rfl | rfl | rfl <;> rcases hy with rfl | rfl | rfl <;>
    rw [dot_eq] <;> simp only [vec_pos, vec_neg, vec_zero, kc, Matrix.cons_val_zero, Matrix.cons_val_one, Matrix.cons_val, div_eq_mul_inv] <;>
    generalize (((Real.sqrt 2 : ℝ) : ℂ))⁻¹ = r at h <;> norm_num <;> grind

theorem dot_conj {x y : ℤ} (b : ℝ) (hx : x = -1 ∨ x = 0 ∨ x = 1) (hy : y = -1 ∨ y = 0 ∨ y = 1) : dot (vecConj x) (vec b y) = (kp b x y : ℝ) := by
  have h := inv2
  have hI := Complex.I_mul_I
  rcases hx with rfl | rfl | rfl <;> rcases hy with rfl | rfl | rfl <;>
    rw [dot_eq] <;> simp only [vec_pos, vec_neg, vec_zero, conj_pos, conj_neg, conj_zero, kp, Matrix.cons_val_zero, Matrix.cons_val_one, Matrix.cons_val, div_eq_mul_inv] <;>
    generalize (((Real.sqrt 2 : ℝ) : ℂ))⁻¹ = r at h <;> norm_num <;> grind

theorem dot_comm (u v : Fin 3 → ℂ) : dot u v = dot v u := by rw [dot_eq, dot_eq]; ring

theorem triple_A {x y z : ℤ} (a : ℝ) (hx : x = -1 ∨ x = 0 ∨ x = 1) (hy : y = -1 ∨ y = 0 ∨ y = 1) (hz : z = -1 ∨ z = 0 ∨ z = 1) :
    triple (vec a x) (vec 1 y) (vecConj z) = Complex.I * (((epsA x y z).1 : ℝ) * a ^ (epsA x y z).2.toNat : ℝ) := by
  have h := inv2
  have hI := Complex.I_mul_I
  rcases hx with rfl | rfl | rfl <;> rcases hy with rfl | rfl | rfl <;> rcases hz with rfl | rfl | rfl <;>
    rw [triple_eq] <;> simp only [vec_pos, vec_neg, vec_zero, conj_pos, conj_neg, conj_zero, epsA, Matrix.cons_val_zero, Matrix.cons_val_one, Matrix.cons_val, div_eq_mul_inv] <;>
    generalize (((Real.sqrt 2 : ℝ) : ℂ))⁻¹ = r at h <;> norm_num <;> grind

theorem triple_P {x y z : ℤ} (a b : ℝ) (hx : x = -1 ∨ x = 0 ∨ x = 1) (hy : y = -1 ∨ y = 0 ∨ y = 1) (hz : z = -1 ∨ z = 0 ∨ z = 1) :
    triple (vec a x) (vec b y) (vecConj z) =
      Complex.I * (((epsP x y z).1 : ℝ) * a ^ (epsP x y z).2.1.toNat * b ^ (epsP x y z).2.2.toNat : ℝ) := by
  have h := inv2
  have hI := Complex.I_mul_I
  rcases hx with rfl | rfl | rfl <;> rcases hy with rfl | rfl | rfl <;> rcases hz with rfl | rfl | rfl <;>
    rw [triple_eq] <;> simp only [vec_pos, vec_neg, vec_zero, conj_pos, conj_neg, conj_zero, epsP, Matrix.cons_val_zero, Matrix.cons_val_one, Matrix.cons_val, div_eq_mul_inv] <;>
    generalize (((Real.sqrt 2 : ℝ) : ℂ))⁻¹ = r at h <;> norm_num <;> grind

theorem triple_C {x y z : ℤ} (a b : ℝ) (hx : x = -1 ∨ x = 0 ∨ x = 1) (hy : y = -1 ∨ y = 0 ∨ y = 1) (hz : z = -1 ∨ z = 0 ∨ z = 1) :
    triple (vec a x) (vec b y) (vec 1 z) =
      Complex.I * (((epsC x y z).1 : ℝ) * a ^ (epsC x y z).2.1.toNat * b ^ (epsC x y z).2.2.toNat : ℝ) := by
  have h := inv2
  have hI := Complex.I_mul_I
  rcases hx with rfl | rfl | rfl <;> rcases hy with rfl | rfl | rfl <;> rcases hz with rfl | rfl | rfl <;>
    rw [triple_eq] <;> simp only [vec_pos, vec_neg, vec_zero, epsC, Matrix.cons_val_zero, Matrix.cons_val_one, Matrix.cons_val, div_eq_mul_inv] <;>
    generalize (((Real.sqrt 2 : ℝ) : ℂ))⁻¹ = r at h <;> norm_num <;> grind

end Rpwa.SpinTensor
