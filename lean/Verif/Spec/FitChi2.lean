import Verif.Spec.FitCov
import Verif.Spec.ResonanceFit
import Verif.Model.FitData
/-! # Specification: the chi-square of a resonance fit is one of generalized least squares (C102) -/
namespace Rpwa.FitData

open Rpwa.FitCov (Mat UseCov InvertsOnSet pairRow Used sdPrepare paPrepare PaReal rotatedCov ampRows)
open Rpwa.ResFit (Fn Params)
open Rpwa.ResFit.Spec (ampAt inLimits)
open scoped BigOperators

/-- `v = Δᵀ C⁻¹ Δ` for the parts `S` of the differences `Δ` with covariance matrix `C`. -/
def LeastSquares (S : Finset ℕ) (C : Mat ℝ) (Δ : ℕ → ℝ) (v : ℝ) : Prop :=
  ∃ W, InvertsOnSet S W C ∧ v = ∑ x ∈ S, ∑ y ∈ S, Δ x * W x y * Δ y

/-- real and imaginary parts of the differences of the elements of the spin-density matrix in their rows. -/
def RhoResidual (n : ℕ) (d : ℕ → ℕ → ℂ) (Δ : ℕ → ℝ) : Prop :=
  ∀ i j, i ≤ j → j < n → Δ (pairRow n i j) = (d i j).re ∧ (i < j → Δ (pairRow n i j + 1) = (d i j).im)

/-- model minus data. -/
noncomputable def rhoDiff (F : Fn) (P : Params) (b m i j : ℕ) : ℂ := ampAt F.M P i b m * star (ampAt F.M P j b m) - F.D.rho b m i j

/-- model, with the phase of the anchor wave, minus data. -/
noncomputable def prodDiff (F : Fn) (P : Params) (b m w : ℕ) : ℂ :=
  let a := ampAt F.M P (F.M.anchorWave.getD b 0) b m
  ampAt F.M P w b m / (a / ((‖a‖ : ℝ) : ℂ)) - F.D.amps b m w

/-- real and imaginary parts of the differences of the amplitudes in their rows. -/
def AmpResidual (n : ℕ) (d : ℕ → ℂ) (Δ : ℕ → ℝ) : Prop := ∀ w < n, Δ (2 * w) = (d w).re ∧ Δ (2 * w + 1) = (d w).im

open Classical in
/-- the wave is fitted in this mass bin. -/
noncomputable def fitted (F : Fn) (b m : ℕ) (w : ℕ) : Bool := decide (inLimits F.D b m w w)

/-- the data of the function are those that `prepareSpinDensityMatrices` leaves. -/
structure LoadedRho (F : Fn) (uc : UseCov) (inv : ℕ → Mat ℝ → Mat ℝ) (rho : ℕ → ℕ → ℕ → ℕ → ℝ × ℝ) (cov : ℕ → ℕ → Mat ℝ) : Prop where
  useCov : F.D.useCov = covarianceOf uc
  loaded : ∃ W : ℕ → ℕ → Mat ℝ,
    (∀ b < F.M.input.nrBins, ∀ m, Used (F.nrWaves b) (fun w => F.D.limits b w w) m →
      sdPrepare inv uc (F.nrWaves b) (fitted F b m) (rho b m) (cov b m) = some (W b m)) ∧
    (∀ b < F.M.input.nrBins, ∀ m < F.M.input.nrMassOf b, ∀ i < F.nrWaves b, ∀ j < F.nrWaves b,
      F.D.rho b m i j = ⟨(rho b m i j).1, (rho b m i j).2⟩) ∧
    ∀ b < F.M.input.nrBins, ∀ m < F.M.input.nrMassOf b, ∀ i < F.nrWaves b, ∀ j < F.nrWaves b, ∀ k l,
      F.D.rhoCovInv b m i j k l = invArray (F.nrWaves b) (W b m) i j k l

/-- the data of the function are those that `prepareProductionAmplitudes` leaves; the anchor wave is not zero. -/
structure LoadedAmps (F : Fn) (uc : UseCov) (inv : ℕ → Mat ℝ → Mat ℝ) (amp : ℕ → ℕ → ℕ → ℂ) (cov : ℕ → ℕ → Mat ℝ) : Prop where
  anchor : ∀ b < F.M.input.nrBins, ∀ m, Used (F.nrWaves b) (fun w => F.D.limits b w w) m → amp b m (F.M.anchorWave.getD b 0) ≠ 0
  loaded : ∃ W : ℕ → ℕ → Mat ℝ,
    (∀ b < F.M.input.nrBins, ∀ m, Used (F.nrWaves b) (fun w => F.D.limits b w w) m →
      paPrepare inv uc (F.nrWaves b) (F.M.anchorWave.getD b 0) (fitted F b m) (amp b m) (cov b m) = some (F.D.amps b m, W b m)) ∧
    ∀ b < F.M.input.nrBins, ∀ m < F.M.input.nrMassOf b, ∀ r < 2 * F.nrWaves b, ∀ s < 2 * F.nrWaves b, F.D.ampsCovInv b m r s = W b m r s

open Classical in
/-- covariances of the amplitudes of the fit: as they were read, or propagated to the rotated amplitudes. -/
noncomputable def dataCov (F : Fn) (amp : ℕ → ℕ → ℕ → ℂ) (cov : ℕ → ℕ → Mat ℝ) (b m : ℕ) : Mat ℝ :=
  if PaReal (amp b m) (cov b m) (F.M.anchorWave.getD b 0) then cov b m
  else rotatedCov (F.M.anchorWave.getD b 0) (amp b m) (ampRows (F.nrWaves b) (fitted F b m)) (cov b m)

end Rpwa.FitData
