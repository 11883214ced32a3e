import Verif.Model.DataObj
import Verif.Spec.FitCov
/-! # Specification of the data of a resonance fit (C107) -/
namespace Rpwa.DataObj

open Rpwa.Arrays
open Rpwa.FitCov (pairRow)

/-- the numbers of dimensions, given by the types in C++. -/
structure Typed {K : Type} (a : Args K) : Prop where
  names : a.waveNames.shape.length = 2
  centers : a.massBinCenters.shape.length = 2
  limits : a.wavePairMassBinLimits.shape.length = 3
  phaseSpace : a.phaseSpaceIntegrals.shape.length = 3
  amps : a.productionAmplitudes.shape.length = 3
  ampsCov : a.productionAmplitudesCovMatInv.shape.length = 2
  rho : a.spinDensityMatrixElements.shape.length = 4
  rhoCov : a.spinDensityMatrixElementsCovMatInv.shape.length = 2
  pInt : a.plottingIntensities.shape.length = 3
  pRe : a.plottingReal.shape.length = 4
  pIm : a.plottingImag.shape.length = 4
  pPh : a.plottingPhases.shape.length = 4
  sInt : a.sysIntensities.shape.length = 3
  sRe : a.sysReal.shape.length = 4
  sIm : a.sysImag.shape.length = 4
  sPh : a.sysPhases.shape.length = 4

/-- every weight matrix is missing, or square of the size `size n` for the `n` waves of its bin. -/
def GoodMatrices (nrWaves : List ℕ) (m : ℕ) (size : ℕ → ℕ) (c : Arr (Mat ℝ)) : Prop :=
  ∀ b n k, nrWaves[b]? = some n → k < m →
    ((c.elem [b, k]).rows = 0 ∧ (c.elem [b, k]).cols = 0) ∨ ((c.elem [b, k]).rows = size n ∧ (c.elem [b, k]).cols = size n)

/-- the arguments fit together: `w` and `m` are the largest numbers of waves and mass bins of a bin. -/
structure Consistent {K : Type} (a : Args K) (w m : ℕ) : Prop where
  bins : a.nrMassBins.length = a.nrWaves.length
  wPos : 0 < w
  mPos : 0 < m
  wMax : w ∈ a.nrWaves ∧ ∀ n ∈ a.nrWaves, n ≤ w
  mMax : m ∈ a.nrMassBins ∧ ∀ n ∈ a.nrMassBins, n ≤ m
  names : a.waveNames.shape = [a.nrWaves.length, w]
  centers : a.massBinCenters.shape = [a.nrWaves.length, m]
  limits : a.wavePairMassBinLimits.shape = [a.nrWaves.length, w, w]
  phaseSpace : a.phaseSpaceIntegrals.shape = [a.nrWaves.length, m, w]
  amps : a.productionAmplitudes.shape = [a.nrWaves.length, m, w]
  ampsCov : a.productionAmplitudesCovMatInv.shape = [a.nrWaves.length, m]
  rho : a.spinDensityMatrixElements.shape = [a.nrWaves.length, m, w, w]
  rhoCov : a.spinDensityMatrixElementsCovMatInv.shape = [a.nrWaves.length, m]
  pInt : a.plottingIntensities.shape = [a.nrWaves.length, m, w]
  pRe : a.plottingReal.shape = [a.nrWaves.length, m, w, w]
  pIm : a.plottingImag.shape = [a.nrWaves.length, m, w, w]
  pPh : a.plottingPhases.shape = [a.nrWaves.length, m, w, w]
  sInt : a.sysIntensities.shape = [a.nrWaves.length, m, w]
  sRe : a.sysReal.shape = [a.nrWaves.length, m, w, w]
  sIm : a.sysImag.shape = [a.nrWaves.length, m, w, w]
  sPh : a.sysPhases.shape = [a.nrWaves.length, m, w, w]
  ampsMat : GoodMatrices a.nrWaves m (fun n => 2 * n) a.productionAmplitudesCovMatInv
  rhoMat : GoodMatrices a.nrWaves m (fun n => n * (n + 1)) a.spinDensityMatrixElementsCovMatInv

/-- the same matrix: the same size and entries. -/
def SameMat (v w : Mat ℝ) : Prop := v.rows = w.rows ∧ v.cols = w.cols ∧ ∀ i j, i < v.rows → j < v.cols → v.entry i j = w.entry i j

/-- the object `D` for the arguments `a`: all arguments are stored, and the blocks of the weight matrices for pairs of waves. -/
structure IsData {K : Type} (a : Args K) (w m : ℕ) (D : Obj K) : Prop where
  copied : D.args = a
  ampsShape : D.prodCovInv.shape = [a.nrWaves.length, m]
  ampsMat : ∀ b k, b < a.nrWaves.length → k < m → SameMat (D.prodCovInv.elem [b, k]) (a.productionAmplitudesCovMatInv.elem [b, k])
  rhoShape : D.rhoCovInv.shape = [a.nrWaves.length, m]
  rhoMat : ∀ b k, b < a.nrWaves.length → k < m → SameMat (D.rhoCovInv.elem [b, k]) (a.spinDensityMatrixElementsCovMatInv.elem [b, k])
  arrShape : D.rhoCovInvArray.shape = [a.nrWaves.length, m, w, w, 2, 2]
  /-- the block of a pair; zeros if there is no matrix for the mass bin. -/
  arr : ∀ b n k i j (c d : Fin 2), a.nrWaves[b]? = some n → k < m → i ≤ j → j < n →
    D.rhoCovInvArray.elem [b, k, i, j, c, d] =
      if (a.spinDensityMatrixElementsCovMatInv.elem [b, k]).rows = 0 then 0
      else (a.spinDensityMatrixElementsCovMatInv.elem [b, k]).entry (pairRow n i j + c) (pairRow n i j + d)

end Rpwa.DataObj
