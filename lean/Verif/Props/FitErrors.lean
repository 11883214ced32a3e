import Verif.Lemmas.FitResult
import Mathlib.Analysis.SpecialFunctions.Complex.LogDeriv
import Mathlib.Tactic.Linarith
/-!
# C31: error propagation

Every error is `sqrt (D C D^T)` where `D` is the gradient, with respect to the real and imaginary parts of *all* production
amplitudes, of the value the same object reports, and `C` the covariance matrix of the fit parameters. -/
namespace Rpwa.Fit

open Finset

variable {rx : Name → Name → Bool} {r : FitResult}

theorem pairLoop_lt (r : FitResult) (n : ℕ) (as bs : List ℕ) (ha : ∀ a ∈ as, a < n) (hb : ∀ b ∈ bs, b < n) :
    ∀ p ∈ r.pairLoop as bs, p.1 < n ∧ p.2 < n := by
  intro p hp
  unfold FitResult.pairLoop at hp
  obtain ⟨a, haa, hp⟩ := List.mem_flatMap.1 hp
  split at hp
  · rename_i b hf
    rw [List.mem_singleton] at hp
    subst hp
    exact ⟨ha a haa, hb _ (List.mem_of_find?_eq_some hf)⟩
  · simp at hp

theorem indices_lt {w : ℕ} {l : List ℕ} (h : r.prodAmpIndicesForWave rx w = .ok l) : ∀ k ∈ l, k < r.nmbProdAmps := by
  unfold FitResult.prodAmpIndicesForWave at h
  cases hw : r.waveName w with
  | ok n =>
    rw [hw] at h
    have := Outcome.ok.inj h
    subst this
    intro k hk
    exact List.mem_range.1 (List.mem_filter.1 hk).1
  | terminate => rw [hw] at h; exact absurd h (by simp)
  | ub => rw [hw] at h; exact absurd h (by simp)

/-- the element is a fixed bilinear function of the amplitudes, its covariance the sandwich of the code's Jacobian. -/
theorem spinDens_form {a b : ℕ} {z : ℂ} (h : r.spinDens rx a b = .ok z) :
    ∃ pairs : List (ℕ × ℕ), (∀ p ∈ pairs, p.1 < r.nmbProdAmps ∧ p.2 < r.nmbProdAmps) ∧
      (∀ V, (r.withAmps V).spinDens rx a b = .ok (rhoPairs r.normNmbEvents pairs V)) ∧
      (r.covMatrixValid = true → r.spinDensCov rx a b = .ok fun k l => (r.normNmbEvents : ℝ) ^ 2 *
        FitResult.sandwich (r.prodAmpCov (pairs.map Prod.fst ++ pairs.map Prod.snd)).nCols (r.prodAmpCov (pairs.map Prod.fst ++ pairs.map Prod.snd)).entry
          (r.spinDensJacobian pairs k) (r.spinDensJacobian pairs l)) := by
  have hw : ∀ V, (r.withAmps V).waveName = r.waveName := fun _ => rfl
  have hp : ∀ V, (r.withAmps V).prodAmpIndexPairs rx a b = r.prodAmpIndexPairs rx a b := fun _ => rfl
  have hempty : (fun k l => (r.normNmbEvents : ℝ) ^ 2 * FitResult.sandwich (r.prodAmpCov (([] : List (ℕ × ℕ)).map Prod.fst ++ ([] : List (ℕ × ℕ)).map Prod.snd)).nCols
      (r.prodAmpCov (([] : List (ℕ × ℕ)).map Prod.fst ++ ([] : List (ℕ × ℕ)).map Prod.snd)).entry (r.spinDensJacobian [] k) (r.spinDensJacobian [] l)) = fun _ _ => (0 : ℝ) := by
    funext k l
    simp [FitResult.sandwich, FitResult.prodAmpCov]
  unfold FitResult.spinDens at h ⊢
  unfold FitResult.spinDensCov
  simp only [hw, hp]
  cases hA : r.waveName a with
  | terminate => rw [hA] at h; exact absurd h (by simp)
  | ub => rw [hA] at h; exact absurd h (by simp)
  | ok nA =>
  rw [hA] at h
  simp only [Outcome.ok_bind] at h ⊢
  cases hA' : getReflectivity nA with
  | terminate => rw [hA'] at h; exact absurd h (by simp)
  | ub => rw [hA'] at h; exact absurd h (by simp)
  | ok eA =>
  rw [hA'] at h
  simp only [Outcome.ok_bind] at h ⊢
  cases hB : r.waveName b with
  | terminate => rw [hB] at h; exact absurd h (by simp)
  | ub => rw [hB] at h; exact absurd h (by simp)
  | ok nB =>
  rw [hB] at h
  simp only [Outcome.ok_bind] at h ⊢
  cases hB' : getReflectivity nB with
  | terminate => rw [hB'] at h; exact absurd h (by simp)
  | ub => rw [hB'] at h; exact absurd h (by simp)
  | ok eB =>
  rw [hB'] at h
  simp only [Outcome.ok_bind] at h ⊢
  by_cases he : eA = eB
  · rw [if_neg (by simp [he])] at h
    simp only [if_neg (show ¬ eA ≠ eB by simp [he])]
    have hpairs : ∃ as bs, r.prodAmpIndicesForWave rx a = .ok as ∧ r.prodAmpIndicesForWave rx b = .ok bs ∧
        r.prodAmpIndexPairs rx a b = .ok (r.pairLoop as bs) := by
      unfold FitResult.prodAmpIndexPairs
      rw [hA, hB]
      simp only [Outcome.ok_bind, hA', hB', if_neg (show ¬ eA ≠ eB by simp [he])]
      unfold FitResult.prodAmpIndicesForWave
      rw [hA, hB]
      exact ⟨_, _, rfl, rfl, rfl⟩
    obtain ⟨as, bs, has, hbs, hpr⟩ := hpairs
    refine ⟨r.pairLoop as bs, pairLoop_lt r _ as bs (indices_lt has) (indices_lt hbs), ?_, ?_⟩
    · intro V
      rw [hpr]
      simp only [Outcome.ok_bind]
      split
      · rename_i h0
        rw [List.length_eq_zero_iff.1 h0]
        simp [rhoPairs]
      · refine congrArg Outcome.ok ?_
        unfold rhoPairs
        have := foldl_pairs (r.pairLoop as bs) V 0
        rw [zero_add] at this
        rw [← this]
        rfl
    · intro hv
      rw [hpr]
      simp only [hv, Bool.not_true, Outcome.ok_bind]
      rw [if_neg (by simp)]
      split
      · rename_i h0
        rw [List.length_eq_zero_iff.1 h0, hempty]
      · rfl
  · refine ⟨[], by simp, fun V => ?_, fun hv => ?_⟩
    · rw [if_pos he]; simp [rhoPairs]
    · rw [if_pos he, hempty]; simp [hv]

theorem isGradient_const_mul {f : (ℕ → ℂ) → ℝ} {V : ℕ → ℂ} {n : ℕ} {D : ℕ → ℕ → ℝ} (h : IsGradient f V n D) (x : ℝ) :
    IsGradient (fun W => x * f W) V n (fun p b => x * D p b) := fun p hp b hb => (h p hp b hb).const_mul x

/-- covariance of the real and imaginary part of a spin-density element. -/
theorem spinDensityMatrixElemCov_propagates {a b : ℕ} {z : ℂ} (h : r.spinDens rx a b = .ok z) (hv : r.covMatrixValid = true) :
    ∃ rho : (ℕ → ℂ) → ℂ, (∀ V, (r.withAmps V).spinDens rx a b = .ok (rho V)) ∧
    ∃ D0 D1 : ℕ → ℕ → ℝ, IsGradient (fun V => (rho V).re) r.prodAmps r.nmbProdAmps D0 ∧ IsGradient (fun V => (rho V).im) r.prodAmps r.nmbProdAmps D1 ∧
      ∃ C : ℕ → ℕ → ℝ, r.spinDensCov rx a b = .ok C ∧ C 0 0 = propagate r D0 D0 ∧ C 0 1 = propagate r D0 D1 ∧
        C 1 0 = propagate r D1 D0 ∧ C 1 1 = propagate r D1 D1 := by
  obtain ⟨pairs, hlt, hrho, hcov⟩ := spinDens_form h
  have hidx : ∀ k ∈ pairs.map Prod.fst ++ pairs.map Prod.snd, k < r.nmbProdAmps := by
    intro k hk
    rcases List.mem_append.1 hk with hk | hk
    · obtain ⟨p, hp, rfl⟩ := List.mem_map.1 hk; exact (hlt p hp).1
    · obtain ⟨p, hp, rfl⟩ := List.mem_map.1 hk; exact (hlt p hp).2
  have key : ∀ k < 2, ∀ l < 2, (r.normNmbEvents : ℝ) ^ 2 *
        FitResult.sandwich (r.prodAmpCov (pairs.map Prod.fst ++ pairs.map Prod.snd)).nCols (r.prodAmpCov (pairs.map Prod.fst ++ pairs.map Prod.snd)).entry
          (r.spinDensJacobian pairs k) (r.spinDensJacobian pairs l) =
      propagate r (fun p b => compPart k (rhoDeriv r.normNmbEvents pairs r.prodAmps p b)) (fun p b => compPart l (rhoDeriv r.normNmbEvents pairs r.prodAmps p b)) := by
    intro k hk l hl
    rw [sandwich_eq r hv _ hidx, pow_two, ← propagate_smul]
    exact propagate_congr r (fun p _ b hb => collect_jacobian r pairs k p b hk hb) (fun p _ b hb => collect_jacobian r pairs l p b hl hb)
  refine ⟨rhoPairs r.normNmbEvents pairs, hrho, fun p b => compPart 0 (rhoDeriv r.normNmbEvents pairs r.prodAmps p b),
    fun p b => compPart 1 (rhoDeriv r.normNmbEvents pairs r.prodAmps p b), ?_, ?_, _, hcov hv, key 0 (by norm_num) 0 (by norm_num),
    key 0 (by norm_num) 1 (by norm_num), key 1 (by norm_num) 0 (by norm_num), key 1 (by norm_num) 1 (by norm_num)⟩
  · intro p _ b _
    exact hasDerivAt_compPart 0 (rho_hasDerivAt r.normNmbEvents pairs r.prodAmps p b)
  · intro p _ b _
    exact hasDerivAt_compPart 1 (rho_hasDerivAt r.normNmbEvents pairs r.prodAmps p b)

theorem rho_self {rho : (ℕ → ℂ) → ℂ} {a b : ℕ} {z : ℂ} (h : r.spinDens rx a b = .ok z) (hrho : ∀ V, (r.withAmps V).spinDens rx a b = .ok (rho V)) :
    rho r.prodAmps = z := Outcome.ok.inj ((hrho r.prodAmps).symm.trans h)

/-- the variance computed from a `1 × 2` Jacobian. -/
theorem realValVariance_eq {a b : ℕ} {z : ℂ} (h : r.spinDens rx a b = .ok z) (hv : r.covMatrixValid = true) :
    ∃ rho : (ℕ → ℂ) → ℂ, (∀ V, (r.withAmps V).spinDens rx a b = .ok (rho V)) ∧
    ∃ D0 D1 : ℕ → ℕ → ℝ, IsGradient (fun V => (rho V).re) r.prodAmps r.nmbProdAmps D0 ∧ IsGradient (fun V => (rho V).im) r.prodAmps r.nmbProdAmps D1 ∧
      ∀ j0 j1 : ℝ, r.realValVariance rx a b j0 j1 = .ok (propagate r (fun p b => j0 * D0 p b + j1 * D1 p b) (fun p b => j0 * D0 p b + j1 * D1 p b)) := by
  obtain ⟨rho, hrho, D0, D1, g0, g1, C, hC, c00, c01, c10, c11⟩ := spinDensityMatrixElemCov_propagates h hv
  refine ⟨rho, hrho, D0, D1, g0, g1, fun j0 j1 => ?_⟩
  unfold FitResult.realValVariance
  rw [hC]
  simp only [hv, Bool.not_true, Bool.false_eq_true, if_false, Outcome.ok_bind]
  refine congrArg Outcome.ok ?_
  rw [propagate_combine, ← c00, ← c01, ← c10, ← c11]
  simp [FitResult.sandwich, sum_range_succ]

/-- chain rule for a real-valued function of the spin-density element. -/
theorem isGradient_chain {rho : (ℕ → ℂ) → ℂ} {D0 D1 : ℕ → ℕ → ℝ} {V : ℕ → ℂ} {n : ℕ} (g0 : IsGradient (fun V => (rho V).re) V n D0)
    (g1 : IsGradient (fun V => (rho V).im) V n D1) (f : ℂ → ℝ) (f' : ℂ → ℝ)
    (hf : ∀ c : ℝ → ℂ, ∀ c' : ℂ, HasDerivAt c c' 0 → c 0 = rho V → HasDerivAt (fun t => f (c t)) (f' c') 0) :
    IsGradient (fun V => f (rho V)) V n (fun p b => f' ⟨D0 p b, D1 p b⟩) := by
  intro p hp b hb
  have h0 := g0 p hp b hb
  have h1 := g1 p hp b hb
  refine hf (fun t : ℝ => rho (Function.update V p (V p + t * unit b))) _ ?_ (by simp)
  have h2 := (h0.ofReal_comp).add ((h1.ofReal_comp).mul_const Complex.I)
  refine (h2.congr_of_eventuallyEq (Filter.Eventually.of_forall fun t => ?_)).congr_deriv ?_
  · exact (Complex.re_add_im _).symm
  · simp [Complex.ext_iff]

/-- error of the overlap (interference term) of two waves. -/
theorem overlapErr_propagates {a b : ℕ} {z : ℂ} (h : r.spinDens rx a b = .ok z) (hv : r.covMatrixValid = true) :
    ∃ f : (ℕ → ℂ) → ℝ, (∀ V, (r.withAmps V).overlap rx a b = .ok (f V)) ∧
    ∃ D, IsGradient f r.prodAmps r.nmbProdAmps D ∧ r.overlapErr rx a b = .ok (Real.sqrt (propagate r D D)) := by
  obtain ⟨rho, hrho, D0, D1, g0, g1, hvar⟩ := realValVariance_eq h hv
  set n := r.normIntegral.entry a b with hn
  refine ⟨fun V => 2 * (rho V * n).re, fun V => ?_, fun p b => 2 * n.re * D0 p b + -2 * n.im * D1 p b, ?_, ?_⟩
  · unfold FitResult.overlap
    rw [hrho V]; rfl
  · intro p hp b hb
    have h0 := (g0 p hp b hb).const_mul (2 * n.re)
    have h1 := (g1 p hp b hb).const_mul (-2 * n.im)
    refine (h0.add h1).congr_of_eventuallyEq (Filter.Eventually.of_forall fun t => ?_)
    simp only [Complex.mul_re, Pi.add_apply]; ring
  · unfold FitResult.overlapErr
    simp only [hv, Bool.not_true, Bool.false_eq_true, if_false, ← hn, hvar, Outcome.ok_bind]

/-- error of the intensity of one wave (the normalization integral of a wave with itself is not negative). -/
theorem intensityErr_propagates {a : ℕ} {z : ℂ} (h : r.spinDens rx a a = .ok z) (hv : r.covMatrixValid = true)
    (hn : 0 ≤ (r.normIntegral.entry a a).re) :
    ∃ f : (ℕ → ℂ) → ℝ, (∀ V, (r.withAmps V).intensity rx a = .ok (f V)) ∧
    ∃ D, IsGradient f r.prodAmps r.nmbProdAmps D ∧ r.intensityErr rx a = .ok (Real.sqrt (propagate r D D)) := by
  obtain ⟨rho, hrho, D0, D1, g0, g1, C, hC, c00, c01, c10, c11⟩ := spinDensityMatrixElemCov_propagates h hv
  set n := (r.normIntegral.entry a a).re with hn'
  refine ⟨fun V => n * (rho V).re, fun V => ?_, fun p b => n * D0 p b, isGradient_const_mul g0 n, ?_⟩
  · unfold FitResult.intensity
    rw [hrho V]
    exact congrArg Outcome.ok (mul_comm _ _)
  · unfold FitResult.intensityErr
    rw [hC]
    refine congrArg Outcome.ok ?_
    rw [propagate_smul, ← c00, Real.sqrt_mul (mul_nonneg hn hn), Real.sqrt_mul_self hn, mul_comm, ← hn']

/-- derivative of the argument along a curve. -/
theorem hasDerivAt_arg {c : ℝ → ℂ} {c' z : ℂ} (h : HasDerivAt c c' 0) (h0 : c 0 = z) (hs : z ∈ Complex.slitPlane) :
    HasDerivAt (fun t => Complex.arg (c t)) (-z.im / Complex.normSq z * c'.re + z.re / Complex.normSq z * c'.im) 0 := by
  have h1 := h.clog_real (by rw [h0]; exact hs)
  rw [h0] at h1
  have h2 := Complex.imCLM.hasFDerivAt.comp_hasDerivAt (0 : ℝ) h1
  have h3 : HasDerivAt (fun t => Complex.arg (c t)) (c' / z).im 0 := by
    refine (h2.congr_of_eventuallyEq (Filter.Eventually.of_forall fun t => ?_))
    simp [Complex.log_im]
  refine h3.congr_deriv ?_
  rw [Complex.div_im]; ring

/-- error of the phase difference of two waves where it is continuous (not exactly 180 degrees). -/
theorem phaseErr_propagates {a b : ℕ} {z : ℂ} (hab : a ≠ b) (h : r.spinDens rx a b = .ok z) (hz : z ∈ Complex.slitPlane) (hv : r.covMatrixValid = true) :
    ∃ f : (ℕ → ℂ) → ℝ, (∀ V, (r.withAmps V).phase rx a b = .ok (f V)) ∧
    ∃ D, IsGradient f r.prodAmps r.nmbProdAmps D ∧ r.phaseErr rx a b = .ok (Real.sqrt (propagate r D D)) := by
  obtain ⟨rho, hrho, D0, D1, g0, g1, hvar⟩ := realValVariance_eq h hv
  have hself := rho_self h hrho
  have hz0 : Complex.normSq z ≠ 0 := fun e => Complex.slitPlane_ne_zero hz (Complex.normSq_eq_zero.1 e)
  set j0 := -z.im / Complex.normSq z with hj0
  set j1 := z.re / Complex.normSq z with hj1
  have g := isGradient_chain g0 g1 Complex.arg (fun c' => j0 * c'.re + j1 * c'.im)
    (fun c c' hc e => hasDerivAt_arg hc (e.trans hself) hz)
  have hR : (0 : ℝ) ≤ FitResult.radToDeg := by unfold FitResult.radToDeg; have := Real.pi_pos; positivity
  refine ⟨fun V => FitResult.radToDeg * Complex.arg (rho V), fun V => ?_, _, isGradient_const_mul g FitResult.radToDeg, ?_⟩
  · unfold FitResult.phase
    rw [if_neg hab, hrho V]
    exact congrArg Outcome.ok (mul_comm _ _)
  · unfold FitResult.phaseErr
    rw [h]
    simp only [hv, Bool.not_true, Bool.false_eq_true, if_false, if_neg hab, Outcome.ok_bind, ne_eq, hz0, not_false_iff, if_true, hvar]
    refine congrArg Outcome.ok ?_
    rw [propagate_smul, Real.sqrt_mul (mul_nonneg hR hR), Real.sqrt_mul_self hR, mul_comm]

/-- in general (also at 180 degrees, where the reported phase jumps): the error belongs to the phase difference relative
to the phase of the fitted amplitudes. -/
theorem phaseErr_propagates_relative {a b : ℕ} {z : ℂ} (hab : a ≠ b) (h : r.spinDens rx a b = .ok z) (hz : z ≠ 0) (hv : r.covMatrixValid = true) :
    ∃ rho : (ℕ → ℂ) → ℂ, (∀ V, (r.withAmps V).spinDens rx a b = .ok (rho V)) ∧
    ∃ D, IsGradient (fun V => 180 / Real.pi * Complex.arg (rho V / z)) r.prodAmps r.nmbProdAmps D ∧
      r.phaseErr rx a b = .ok (Real.sqrt (propagate r D D)) := by
  obtain ⟨rho, hrho, D0, D1, g0, g1, hvar⟩ := realValVariance_eq h hv
  have hself := rho_self h hrho
  have hz0 : Complex.normSq z ≠ 0 := fun e => hz (Complex.normSq_eq_zero.1 e)
  set j0 := -z.im / Complex.normSq z with hj0
  set j1 := z.re / Complex.normSq z with hj1
  have g := isGradient_chain g0 g1 (fun w => Complex.arg (w / z)) (fun c' => j0 * c'.re + j1 * c'.im)
    (fun c c' hc e => by
      have h1 := hasDerivAt_arg (hc.div_const z) (by rw [e, hself, div_self hz]) Complex.one_mem_slitPlane
      refine h1.congr_deriv ?_
      simp only [Complex.one_im, Complex.one_re, map_one]
      rw [Complex.div_im, hj0, hj1]; ring)
  have hR : (0 : ℝ) ≤ 180 / Real.pi := by have := Real.pi_pos; positivity
  refine ⟨rho, hrho, _, isGradient_const_mul g (180 / Real.pi), ?_⟩
  unfold FitResult.phaseErr
  rw [h]
  simp only [hv, Bool.not_true, Bool.false_eq_true, if_false, if_neg hab, Outcome.ok_bind, ne_eq, hz0, not_false_iff, if_true, hvar]
  refine congrArg Outcome.ok ?_
  rw [propagate_smul, Real.sqrt_mul (mul_nonneg hR hR), Real.sqrt_mul_self hR, mul_comm]
  rfl

end Rpwa.Fit
