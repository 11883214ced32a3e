import Verif.Model.FitIntegrals
import Verif.Spec.IntegralMatrix
/-!
# Specification of integral matrices in fit results (C87)
-/
namespace Rpwa.FitInts

open Rpwa.Fit Rpwa.Integral

/-- two results of the same fit: they differ at most in their integrals. -/
structure SameFit (r r' : FitResult) : Prop where
  hevents : r'.nmbEvents = r.nmbEvents
  hnormEvents : r'.normNmbEvents = r.normNmbEvents
  hbin : r'.multibin = r.multibin
  hlog : r'.logLikelihood = r.logLikelihood
  hrank : r'.rank = r.rank
  hnmbAmps : r'.nmbProdAmps = r.nmbProdAmps
  hamps : r'.prodAmps = r.prodAmps
  hampNames : r'.prodAmpNames = r.prodAmpNames
  hwaves : r'.waveNames = r.waveNames
  hcov : r'.cov = r.cov
  hcovValid : r'.covMatrixValid = r.covMatrixValid
  hcovIdx : r'.covIdx = r.covIdx
  hnmbCovIdx : r'.nmbCovIdx = r.nmbCovIdx
  hconverged : r'.converged = r.converged
  hhessian : r'.hasHessian = r.hasHessian

/-- the integrals of a fit result, as its user reads them: the waves `waves` and, behind them, the flat wave.  `gen` is the number of
generated events of the Monte Carlo sample of both integral matrices. -/
structure HoldsIntegrals (norm acc : IntMat) (gen : ℕ) (acceptance : ℝ) (waves : List Name) (r : FitResult) : Prop where
  hnormDim : r.normIntegral.nRows = waves.length + 1 ∧ r.normIntegral.nCols = waves.length + 1
  haccDim : r.accNormIntegral.nRows = waves.length + 1 ∧ r.accNormIntegral.nCols = waves.length + 1
  hpsLen : r.phaseSpaceIntegral.length = waves.length + 1
  /-- phase-space integral: the root of the normalisation integral per event -/
  hps : ∀ (i : ℕ) (a : Name), waves[i]? = some a → ∃ p, r.phaseSpaceIntegral[i]? = some p ∧ 0 < p ∧
    p ^ 2 * gen = (norm.entry (String.ofList a) (String.ofList a)).re
  /-- the integrals are those of normalised amplitudes; waves of different reflectivity do not interfere -/
  hnorm : ∀ (i j : ℕ) (a b : Name) (p q : ℝ) (e f : ℤ), waves[i]? = some a → waves[j]? = some b → r.phaseSpaceIntegral[i]? = some p →
    r.phaseSpaceIntegral[j]? = some q → getReflectivity a = .ok e → getReflectivity b = .ok f →
    r.normIntegral.entry i j * ((p : ℂ) * q) * gen = if e = f then norm.entry (String.ofList a) (String.ofList b) else 0
  hacc : ∀ (i j : ℕ) (a b : Name) (p q : ℝ) (e f : ℤ), waves[i]? = some a → waves[j]? = some b → r.phaseSpaceIntegral[i]? = some p →
    r.phaseSpaceIntegral[j]? = some q → getReflectivity a = .ok e → getReflectivity b = .ok f →
    r.accNormIntegral.entry i j * ((p : ℂ) * q) * gen = if e = f then acc.entry (String.ofList a) (String.ofList b) else 0
  /-- the flat wave interferes with no other; it is accepted like an average event -/
  hflat : r.normIntegral.entry waves.length waves.length = 1 ∧ r.accNormIntegral.entry waves.length waves.length = (acceptance : ℂ) ∧
    r.phaseSpaceIntegral[waves.length]? = some 1
  hcross : ∀ i < waves.length, r.normIntegral.entry i waves.length = 0 ∧ r.normIntegral.entry waves.length i = 0 ∧
    r.accNormIntegral.entry i waves.length = 0 ∧ r.accNormIntegral.entry waves.length i = 0

/-- integral matrices that cover the waves of a fit. -/
structure Covers (norm acc : IntMat) (waves : List Name) : Prop where
  hnorm : norm.WF
  hacc : acc.WF
  hgen : norm.nmbEvents ≠ 0
  hflat : "flat".toList ∉ waves
  hnormNames : ∀ a ∈ waves, String.ofList a ∈ norm.names
  haccNames : ∀ a ∈ waves, String.ofList a ∈ acc.names
  hrefl : ∀ a ∈ waves, ∃ e, getReflectivity a = .ok e
  hpos : ∀ a ∈ waves, 0 < (norm.entry (String.ofList a) (String.ofList a)).re ∧ (norm.entry (String.ofList a) (String.ofList a)).im = 0

/-- a fit result as a fit leaves it: made by filling a new object with amplitudes of the waves `waves` and the flat wave. -/
structure IsFit (waves : List Name) (r : FitResult) : Prop where
  hwaves : r.waveNames = waves ++ ["flat".toList]
  hfilled : ∃ a : FillArgs, r = FitResult.new.fillA a

end Rpwa.FitInts
