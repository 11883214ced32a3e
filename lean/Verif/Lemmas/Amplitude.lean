import Verif.Model.Amplitude
import Verif.Lemmas.SpinSymm
import Verif.Props.FramesHelicity

/-!
# Symmetries of the two-body amplitudes
-/

namespace Rpwa.Amp

open Rpwa.Gen Rpwa.Amp.Spec

/-- sign of a doubled exponent -/
noncomputable def sg (k : ℤ) : ℂ := (-1) ^ (k / 2)

theorem sg_mul_self (k : ℤ) : sg k * sg k = 1 := by
  unfold sg
  rw [← mul_zpow]; norm_num

theorem sg_add {a b : ℤ} (ha : 2 ∣ a) : sg (a + b) = sg a * sg b := by
  unfold sg
  rw [← zpow_add₀ (by norm_num : (-1 : ℂ) ≠ 0)]
  congr 1
  omega

theorem sg_neg {a : ℤ} (ha : 2 ∣ a) : sg (-a) = sg a := by
  unfold sg
  obtain ⟨b, rfl⟩ := ha
  have h1 : (2 * b) / 2 = b := by omega
  have h2 : (-(2 * b)) / 2 = -b := by omega
  rw [h1, h2, zpow_neg]
  have : ((-1 : ℂ) ^ b) ≠ 0 := zpow_ne_zero _ (by norm_num)
  refine inv_eq_of_mul_eq_one_left ?_
  rw [← mul_zpow]; norm_num

theorem sg_four (a : ℤ) (h : 4 ∣ a) : sg a = 1 := by
  unfold sg
  obtain ⟨b, rfl⟩ := h
  have h1 : (4 * b) / 2 = 2 * b := by omega
  rw [h1, zpow_mul]; norm_num

theorem sg_congr {a b : ℤ} (h : 4 ∣ a - b) : sg a = sg b := by
  unfold sg
  obtain ⟨c, hc⟩ := h
  have h1 : a / 2 = b / 2 + 2 * c := by omega
  rw [h1, zpow_add₀ (by norm_num : (-1 : ℂ) ≠ 0), zpow_mul]; norm_num

theorem sg_cast (k : ℤ) : (((-1 : ℝ) ^ (k / 2) : ℝ) : ℂ) = sg k := by
  unfold sg; push_cast; rfl

/-! ### spin sums -/

theorem spinLoop_eq (J : ℤ) (f : ℤ → ℂ) : spinLoop J f = ∑ k ∈ Finset.range (J + 1).toNat, f (-J + 2 * k) := by
  unfold spinLoop
  generalize (J + 1).toNat = n
  induction n with
  | zero => simp
  | succ n ih => rw [List.range_succ, List.map_append, List.sum_append, ih, Finset.sum_range_succ]; simp

theorem spinLoop_neg (J : ℤ) (f : ℤ → ℂ) : spinLoop J (fun l => f (-l)) = spinLoop J f := by
  rw [spinLoop_eq, spinLoop_eq, ← Finset.sum_range_reflect]
  refine Finset.sum_congr rfl fun k hk => ?_
  rw [Finset.mem_range] at hk
  congr 1
  have : (((J + 1).toNat - 1 - k : ℕ) : ℤ) = J - k := by omega
  rw [this]
  ring

theorem spinLoop_congr {J : ℤ} {f g : ℤ → ℂ} (h : ∀ l, Clebsch.Proj J l → f l = g l) : spinLoop J f = spinLoop J g := by
  unfold spinLoop
  congr 1
  refine List.map_congr_left fun k hk => h _ ?_
  rw [List.mem_range] at hk
  exact ⟨k, rfl, by omega⟩

theorem spinLoop_mul (J : ℤ) (c : ℂ) (f : ℤ → ℂ) : spinLoop J (fun l => c * f l) = c * spinLoop J f := by
  rw [spinLoop_eq, spinLoop_eq, Finset.mul_sum]

theorem spinLoop_sub (J : ℤ) (f g : ℤ → ℂ) : spinLoop J (fun l => f l - g l) = spinLoop J f - spinLoop J g := by
  unfold spinLoop
  generalize List.range (J + 1).toNat = ks
  induction ks with
  | nil => simp
  | cons k ks ih => simp only [List.map_cons, List.sum_cons]; rw [ih]; ring

theorem spinLoop_zero (J : ℤ) : spinLoop J (fun _ => 0) = 0 := by
  have := spinLoop_mul J 0 (fun _ => 0)
  simpa using this

/-! ### angles -/

/-- the phase of a transverse momentum -/
noncomputable def ang (p : LV) : ℂ := Complex.exp ((phi p.vect : ℂ) * Complex.I)

theorem ang_ne (p : LV) : ang p ≠ 0 := Complex.exp_ne_zero _

theorem exp_phi {m : ℤ} (hm : 2 ∣ m) (p : LV) :
    Complex.exp ((((m : ℝ) / 2 * phi p.vect : ℝ) : ℂ) * Complex.I) = ang p ^ (m / 2) := by
  obtain ⟨k, rfl⟩ := hm
  have : (2 * k) / 2 = k := by omega
  unfold ang
  rw [this, ← Complex.exp_int_mul]
  congr 1
  push_cast
  ring

theorem conj_exp_phi {m : ℤ} (hm : 2 ∣ m) (p : LV) :
    (starRingEnd ℂ) (Complex.exp (-(((m : ℝ) / 2 * phi p.vect : ℝ) : ℂ) * Complex.I)) = ang p ^ (m / 2) := by
  rw [← exp_phi hm, ← Complex.exp_conj]
  congr 1
  rw [map_mul, map_neg, Complex.conj_I, Complex.conj_ofReal]
  ring

theorem ang_spec (p : LV) : (‖(⟨p.x, p.y⟩ : ℂ)‖ : ℂ) * ang p = ⟨p.x, p.y⟩ := Complex.norm_mul_exp_arg_mul_I _

theorem ang_zero {p : LV} (hx : p.x = 0) (hy : p.y = 0) : ang p = 1 := by
  unfold ang phi atan2 LV.vect
  dsimp only
  rw [hx, hy]
  have : (⟨0, 0⟩ : ℂ) = 0 := rfl
  rw [this, Complex.arg_zero]
  simp

theorem ang_reflY (p : LV) : ang (reflY p) = (ang p)⁻¹ := by
  by_cases h : p.x = 0 ∧ p.y = 0
  · rw [ang_zero h.1 h.2, ang_zero (p := reflY p) h.1 (by show -p.y = 0; rw [h.2, neg_zero]), inv_one]
  · have hz : (⟨p.x, p.y⟩ : ℂ) ≠ 0 := by
      intro hc
      exact h ⟨congrArg Complex.re hc, congrArg Complex.im hc⟩
    have h1 := ang_spec p
    have h2 := ang_spec (reflY p)
    have hc : (⟨(reflY p).x, (reflY p).y⟩ : ℂ) = (starRingEnd ℂ) ⟨p.x, p.y⟩ := by
      apply Complex.ext <;> simp [reflY]
    have h4 : (starRingEnd ℂ) ⟨p.x, p.y⟩ = (‖(⟨p.x, p.y⟩ : ℂ)‖ : ℂ) * (starRingEnd ℂ) (ang p) := by
      conv_lhs => rw [← h1]
      rw [map_mul, Complex.conj_ofReal]
    rw [hc, Complex.norm_conj, h4] at h2
    have hn : (‖(⟨p.x, p.y⟩ : ℂ)‖ : ℂ) ≠ 0 := by exact_mod_cast norm_ne_zero_iff.mpr hz
    have h3 := mul_left_cancel₀ hn h2
    rw [h3]
    refine eq_inv_of_mul_eq_one_left ?_
    unfold ang
    rw [← Complex.exp_conj, ← Complex.exp_add, map_mul, Complex.conj_ofReal, Complex.conj_I]
    simp

/-- momenta whose transverse part is opposite -/
theorem ang_opp {p q : LV} (hx : q.x = -p.x) (hy : q.y = -p.y) (h : p.x ≠ 0 ∨ p.y ≠ 0) : ang q = -ang p := by
  have hz : (⟨p.x, p.y⟩ : ℂ) ≠ 0 := by
    intro hc
    rcases h with h | h
    · exact h (congrArg Complex.re hc)
    · exact h (congrArg Complex.im hc)
  have h1 := ang_spec p
  have h2 := ang_spec q
  have hc : (⟨q.x, q.y⟩ : ℂ) = -⟨p.x, p.y⟩ := by
    apply Complex.ext <;> simp [hx, hy]
  rw [hc, norm_neg] at h2
  have hn : (‖(⟨p.x, p.y⟩ : ℂ)‖ : ℂ) ≠ 0 := by exact_mod_cast norm_ne_zero_iff.mpr hz
  refine mul_left_cancel₀ hn ?_
  rw [h2, mul_neg, h1]

theorem theta_reflY (p : LV) : theta (reflY p).vect = theta p.vect := by
  unfold theta reflY LV.vect
  dsimp only
  rw [neg_mul_neg]

theorem theta_invert (p : LV) (h : p.x ≠ 0 ∨ p.y ≠ 0) : theta (invert p).vect = Real.pi - theta p.vect := by
  unfold theta invert LV.vect atan2
  dsimp only
  rw [neg_mul_neg, neg_mul_neg]
  have hpos : 0 < Real.sqrt (p.x * p.x + p.y * p.y) := by
    apply Real.sqrt_pos.mpr
    rcases h with h | h
    · nlinarith [mul_self_pos.mpr h, mul_self_nonneg p.y]
    · nlinarith [mul_self_pos.mpr h, mul_self_nonneg p.x]
  have e : (⟨-p.z, Real.sqrt (p.x * p.x + p.y * p.y)⟩ : ℂ) =
      -(starRingEnd ℂ) ⟨p.z, Real.sqrt (p.x * p.x + p.y * p.y)⟩ := by
    apply Complex.ext <;> simp
  rw [e, Complex.arg_neg_eq_arg_add_pi_of_im_neg (by simpa using hpos), Complex.arg_conj, if_neg]
  · ring
  · intro hc
    rw [Complex.arg_eq_pi_iff] at hc
    exact hpos.ne' hc.2

theorem P_reflY (p : LV) : (reflY p).P = p.P := by
  unfold LV.P reflY; dsimp only; rw [neg_mul_neg]

theorem P_invert (p : LV) : (invert p).P = p.P := by
  unfold LV.P invert; dsimp only; rw [neg_mul_neg, neg_mul_neg, neg_mul_neg]

theorem mass_congr {p q : LV} (h : p.m2 = q.m2) : mass p = mass q := by
  unfold mass; rw [h]

theorem mass_reflY (p : LV) : mass (reflY p) = mass p := mass_congr (by unfold LV.m2 reflY; dsimp only; ring)

theorem mass_invert (p : LV) : mass (invert p) = mass p := mass_congr (by unfold LV.m2 invert; dsimp only; ring)

end Rpwa.Amp
