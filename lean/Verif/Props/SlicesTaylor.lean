import Verif.Props.SlicesLine
import Mathlib.Analysis.Calculus.MeanValue
/-! # C106: how far a slice is from the drawn parabola -/
namespace Rpwa.Lik

open Finset

/-- a function with value and slope zero and curvature `1/λ` at zero is closer to the parabola than every multiple of `x²`. -/
theorem near_parabola (f : ℝ → ℝ) (lam : ℝ) (hlam : lam ≠ 0) (h0 : f 0 = 0) (h1 : HasDerivAt f 0 0) (h2 : HasDerivAt (deriv f) (1 / lam) 0)
    (ε : ℝ) (hε : 0 < ε) : ∃ δ > 0, ∀ x, |x| < δ → |f x - 0.5 / lam * x * x| ≤ ε * x ^ 2 := by
  have hl : 0 < |1 / lam| := abs_pos.2 (one_div_ne_zero hlam)
  have hc : 0 < min ε (|1 / lam| / 2) := lt_min hε (by linarith)
  have ho := (hasDerivAt_iff_isLittleO.1 h2).def hc
  rw [Metric.eventually_nhds_iff] at ho
  obtain ⟨δ, hδ, hb⟩ := ho
  have hb' : ∀ x, |x| < δ → |deriv f x - x / lam| ≤ min ε (|1 / lam| / 2) * |x| := by
    intro x hx
    have := hb (y := x) (by simpa using hx)
    rw [h1.deriv] at this
    simp only [sub_zero, smul_eq_mul, Real.norm_eq_abs] at this
    rw [div_eq_mul_one_div x lam]
    exact this
  have hd : ∀ x, |x| < δ → HasDerivAt (fun x => f x - 0.5 / lam * x * x) (deriv f x - x / lam) x := by
    intro x hx
    refine HasDerivAt.sub ?_ (parabola_derivs lam x)
    by_cases hx0 : x = 0
    · subst hx0; rw [h1.deriv]; exact h1
    · refine (differentiableAt_of_deriv_ne_zero fun hz => ?_).hasDerivAt
      have := hb' x hx
      rw [hz, zero_sub, abs_neg, div_eq_mul_one_div x lam, abs_mul] at this
      have hxp : 0 < |x| := abs_pos.2 hx0
      have h3 : min ε (|1 / lam| / 2) * |x| ≤ |1 / lam| / 2 * |x| := mul_le_mul_of_nonneg_right (min_le_right _ _) hxp.le
      have h4 : 0 < |1 / lam| * |x| := mul_pos hl hxp
      linarith
  refine ⟨δ, hδ, fun x hx => ?_⟩
  have hin : ∀ y ∈ Set.Icc (-|x|) |x|, |y| ≤ |x| := fun y hy => abs_le.2 hy
  have key := Convex.norm_image_sub_le_of_norm_hasDerivWithin_le (s := Set.Icc (-|x|) |x|) (f := fun x => f x - 0.5 / lam * x * x)
    (f' := fun x => deriv f x - x / lam) (C := ε * |x|) (x := 0) (y := x)
    (fun y hy => (hd y (lt_of_le_of_lt (hin y hy) hx)).hasDerivWithinAt)
    (fun y hy => by
      rw [Real.norm_eq_abs]
      refine (hb' y (lt_of_le_of_lt (hin y hy) hx)).trans ?_
      exact mul_le_mul (min_le_left _ _) (hin y hy) (abs_nonneg _) hε.le)
    (convex_Icc _ _) ⟨by simp, abs_nonneg x⟩ ⟨neg_abs_le x, le_abs_self x⟩
  simp only [h0, mul_zero, sub_zero, Real.norm_eq_abs] at key
  calc _ ≤ ε * |x| * |x| := key
    _ = ε * x ^ 2 := by rw [mul_assoc, abs_mul_abs_self]; ring

theorem pos_of_near (lam : ℝ) (hlam : 0 < lam) (x v : ℝ) (hx : x ≠ 0) (h : |v - 0.5 / lam * x * x| ≤ 0.25 / lam * x ^ 2) : 0 < v := by
  have := (abs_le.1 h).1
  have hp : 0 < 0.25 / lam * x ^ 2 := by positivity
  have e1 : 0.5 / lam * x * x = 2 * (0.25 / lam * x ^ 2) := by ring
  rw [e1] at this
  linarith

variable (L : LikData) (wl : WaveList) (d : ParData) (m : ℝ)

/-- **C106, the parabola.** Where the gradient vanishes, the difference between the slice along an eigenvector of the covariance matrix and the drawn
parabola is smaller than every multiple of the square of the distance, close enough to the fit. -/
theorem parabola_approximates (hm : L.Matches wl d m) (hI : L.AccHermitian) (par e : ℕ → ℝ) (hdef : L.DefinedAt par)
    (hprior : ∀ k < d.nmbPars, L.PriorDefinedAt d par k) (hfree : InFree d e) (out : ℕ → ℝ)
    (hgrad : ∀ k < d.nmbPars, LikData.fixedAt d k = false → L.gradient d par out k = 0) (C : ℕ → ℕ → ℝ)
    (hC : InverseOnFree d (L.hessian d par) C) (lam : ℝ) (hlam : lam ≠ 0) (he : IsEigen d.nmbPars C e lam) (hnorm : norm2 d e = 1)
    (ε : ℝ) (hε : 0 < ε) : ∃ δ > 0, ∀ x, |x| < δ → |slice L.doEval par e x - 0.5 / lam * x * x| ≤ ε * x ^ 2 := by
  obtain ⟨h0, h1, h2, -⟩ := parabola_osculates L wl d m hm hI par e hdef hprior hfree out hgrad C hC lam hlam he hnorm
  exact near_parabola _ lam hlam h0 h1 h2 ε hε

/-- **C106.** In particular, if the variance is positive, the fit is a strict local minimum of the slice. -/
theorem slice_minimum (hm : L.Matches wl d m) (hI : L.AccHermitian) (par e : ℕ → ℝ) (hdef : L.DefinedAt par)
    (hprior : ∀ k < d.nmbPars, L.PriorDefinedAt d par k) (hfree : InFree d e) (out : ℕ → ℝ)
    (hgrad : ∀ k < d.nmbPars, LikData.fixedAt d k = false → L.gradient d par out k = 0) (C : ℕ → ℕ → ℝ)
    (hC : InverseOnFree d (L.hessian d par) C) (lam : ℝ) (hlam : 0 < lam) (he : IsEigen d.nmbPars C e lam) (hnorm : norm2 d e = 1) :
    ∃ δ > 0, ∀ x, x ≠ 0 → |x| < δ → 0 < slice L.doEval par e x := by
  obtain ⟨δ, hδ, h⟩ := parabola_approximates L wl d m hm hI par e hdef hprior hfree out hgrad C hC lam hlam.ne' he hnorm (0.25 / lam) (by positivity)
  generalize slice L.doEval par e = f at h ⊢
  exact ⟨δ, hδ, fun x hx0 hx => pos_of_near lam hlam x (f x) hx0 (h x hx)⟩

/-- the same for a direction of negative variance: the fit is a maximum of the slice. -/
theorem slice_maximum (hm : L.Matches wl d m) (hI : L.AccHermitian) (par e : ℕ → ℝ) (hdef : L.DefinedAt par)
    (hprior : ∀ k < d.nmbPars, L.PriorDefinedAt d par k) (hfree : InFree d e) (out : ℕ → ℝ)
    (hgrad : ∀ k < d.nmbPars, LikData.fixedAt d k = false → L.gradient d par out k = 0) (C : ℕ → ℕ → ℝ)
    (hC : InverseOnFree d (L.hessian d par) C) (lam : ℝ) (hlam : lam < 0) (he : IsEigen d.nmbPars C e lam) (hnorm : norm2 d e = 1) :
    ∃ δ > 0, ∀ x, x ≠ 0 → |x| < δ → slice L.doEval par e x < 0 := by
  have hl : 0 < -lam := by linarith
  obtain ⟨δ, hδ, h⟩ := parabola_approximates L wl d m hm hI par e hdef hprior hfree out hgrad C hC lam hlam.ne he hnorm (0.25 / -lam) (by positivity)
  generalize slice L.doEval par e = f at h ⊢
  refine ⟨δ, hδ, fun x hx0 hx => ?_⟩
  have := pos_of_near (-lam) hl x (-f x) hx0 (by
    have h' := h x hx
    rw [← abs_neg] at h'
    have e1 : -f x - 0.5 / -lam * x * x = -(f x - 0.5 / lam * x * x) := by rw [div_neg]; ring
    rw [e1]; exact h')
  linarith

end Rpwa.Lik
