import Verif.Model.Arrays
import Verif.Model.FitData
/-!
# The data of a resonance fit: the constructors of `baseData` and `data` (resonanceFit/data.cc)

Simplifications: the arrays are those of `Model/Arrays` (boost::multi_array, TMatrixT); a class member of array type is only shown if it is not a plain
copy of the argument; the sizes of matrices are compared without the conversion to `Int_t`; two nested loops are one loop over the pairs in the same order;
an entry outside of a matrix is undefined (ROOT reports an error and returns NaN); `throw;` ends the program.  Options that are only copied are left out. -/
namespace Rpwa.DataObj

open Rpwa.Arrays

/-- data.cc:115-133: the arguments; `K` are complex numbers. -/
structure Args (K : Type) where
  nrWaves : List ℕ
  waveNames : Arr String
  nrMassBins : List ℕ
  massBinCenters : Arr ℝ
  wavePairMassBinLimits : Arr (ℕ × ℕ)
  phaseSpaceIntegrals : Arr ℝ
  productionAmplitudes : Arr K
  productionAmplitudesCovMatInv : Arr (Mat ℝ)
  spinDensityMatrixElements : Arr K
  spinDensityMatrixElementsCovMatInv : Arr (Mat ℝ)
  plottingIntensities : Arr (ℝ × ℝ)
  plottingReal : Arr (ℝ × ℝ)
  plottingImag : Arr (ℝ × ℝ)
  plottingPhases : Arr (ℝ × ℝ)
  sysIntensities : Arr (ℝ × ℝ)
  sysReal : Arr (ℝ × ℝ)
  sysImag : Arr (ℝ × ℝ)
  sysPhases : Arr (ℝ × ℝ)

/-- data.h:140-160: the object: the copied arguments and the members that are calculated. -/
structure Obj (K : Type) where
  args : Args K
  prodCovInv : Arr (Mat ℝ)
  rhoCovInv : Arr (Mat ℝ)
  rhoCovInvArray : Arr ℝ

/-- `*(std::max_element(v.begin(), v.end()))`: the end of an empty vector is not an element. -/
def maxElement : List ℕ → Outcome ℕ
  | [] => .ub
  | x :: xs => .ok (xs.foldl max x)

/-- data.cc:47-84: the constructor of `baseData`: number of bins, largest number of waves and of mass bins. -/
def baseData {K : Type} (a : Args K) : Outcome (ℕ × ℕ × ℕ) := do
  if a.nrWaves.length = 0 then .terminate else
  let w ← maxElement a.nrWaves
  if w = 0 then .terminate else
  let m ← maxElement a.nrMassBins
  if m = 0 then .terminate else
  checkSize [a.nrWaves.length] [a.nrWaves.length]
  checkSize [a.nrWaves.length, w] a.waveNames.shape
  checkSize [a.nrWaves.length] [a.nrMassBins.length]
  checkSize [a.nrWaves.length, m] a.massBinCenters.shape
  checkSize [a.nrWaves.length, m, w] a.phaseSpaceIntegrals.shape
  .ok (a.nrWaves.length, w, m)

/-- two nested loops. -/
def pairs (n m : ℕ) : List (ℕ × ℕ) := (List.range n).flatMap fun i => (List.range m).map fun j => (i, j)

/-- an element of a `std::vector`. -/
def vecAt (v : List ℕ) (i : ℕ) : Outcome ℕ := if i < v.length then .ok (v.getD i 0) else .ub

/-- data.cc:172-187, 201-216: one mass bin: a matrix is copied, its size has to be `size n` for `n` waves. -/
def copyMatrix (nrWaves : List ℕ) (size : ℕ → ℕ) (src : Arr (Mat ℝ)) (tgt : Arr (Mat ℝ)) (x : ℕ × ℕ) : Outcome (Arr (Mat ℝ)) := do
  let v ← src.at [x.1, x.2]
  if v.rows = 0 ∧ v.cols = 0 then .ok tgt else
  let old ← tgt.at [x.1, x.2]
  let t ← tgt.put [x.1, x.2] ((Ops.mat (0 : ℝ)).copyElem v old)
  let n ← vecAt nrWaves x.1
  let c ← t.at [x.1, x.2]
  if size n ≠ c.rows then .terminate else
  if size n ≠ c.cols then .terminate else
  .ok t

/-- data.cc:166-188, 195-217: the matrices of all mass bins. -/
def copyMatrices (nrWaves : List ℕ) (size : ℕ → ℕ) (nrBins m : ℕ) (src : Arr (Mat ℝ)) : Outcome (Arr (Mat ℝ)) := do
  let t := (Arr.new (Ops.mat (0 : ℝ)) [0, 0]).resize (Ops.mat (0 : ℝ)) src.shape
  checkSize [nrBins, m] t.shape
  (pairs nrBins m).foldlM (copyMatrix nrWaves size src) t

/-- an entry of a matrix. -/
def entryAt (w : Mat ℝ) (i j : ℕ) : Outcome ℝ := if i < w.rows ∧ j < w.cols then .ok (w.entry i j) else .ub

/-- data.cc:229-236: one pair of waves: the block of the weight matrix. -/
def storeBlock (n : ℕ) (w : Mat ℝ) (b m : ℕ) (t : Arr ℝ) (x : ℕ × ℕ) : Outcome (Arr ℝ) := do
  let base := FitData.invBase n x.1 x.2
  let v00 ← entryAt w base base
  let t ← t.put [b, m, x.1, x.2, 0, 0] v00
  let v01 ← entryAt w base (base + 1)
  let t ← t.put [b, m, x.1, x.2, 0, 1] v01
  let v10 ← entryAt w (base + 1) base
  let t ← t.put [b, m, x.1, x.2, 1, 0] v10
  let v11 ← entryAt w (base + 1) (base + 1)
  t.put [b, m, x.1, x.2, 1, 1] v11

/-- data.cc:224-238: one mass bin. -/
def storeBlocks (nrWaves : List ℕ) (src : Arr (Mat ℝ)) (t : Arr ℝ) (x : ℕ × ℕ) : Outcome (Arr ℝ) := do
  let w ← src.at [x.1, x.2]
  if w.rows = 0 ∧ w.cols = 0 then .ok t else
  let n ← vecAt nrWaves x.1
  (pairs n n).foldlM (storeBlock n w x.1 x.2) t

/-- data.cc:115-280: the constructor of `data`. -/
def construct {K : Type} (a : Args K) : Outcome (Obj K) := do
  let (b, w, m) ← baseData a
  checkSize [b, w, w] a.wavePairMassBinLimits.shape
  checkSize [b, m, w] a.productionAmplitudes.shape
  let p ← copyMatrices a.nrWaves (fun n => 2 * n) b m a.productionAmplitudesCovMatInv
  checkSize [b, m, w, w] a.spinDensityMatrixElements.shape
  let r ← copyMatrices a.nrWaves (fun n => n * (n + 1)) b m a.spinDensityMatrixElementsCovMatInv
  let blocks ← (pairs b m).foldlM (storeBlocks a.nrWaves r)
    ((Arr.new (Ops.plain (0 : ℝ)) [0, 0, 0, 0, 0, 0]).resize (Ops.plain (0 : ℝ)) [b, m, w, w, 2, 2])
  checkSize [b, m, w] a.plottingIntensities.shape
  checkSize [b, m, w, w] a.plottingReal.shape
  checkSize [b, m, w, w] a.plottingImag.shape
  checkSize [b, m, w, w] a.plottingPhases.shape
  checkSize [b, m, w] a.sysIntensities.shape
  checkSize [b, m, w, w] a.sysReal.shape
  checkSize [b, m, w, w] a.sysImag.shape
  checkSize [b, m, w, w] a.sysPhases.shape
  .ok ⟨a, p, r, blocks⟩

end Rpwa.DataObj
