import Verif.Model.Basic
import Mathlib.Data.Complex.Basic
import Mathlib.Analysis.SpecialFunctions.Trigonometric.Inverse
/-!
# Parameter space of production amplitudes

Models `partialWaveFit/parameterSpace.{h,cc}`.  Simplifications: `double` is `Real` (so `TMath::ACos` is the real arccosine,
no rounding); a `vector<double>` is a function of the index together with its size; sums and products over index ranges that
the code accumulates in a local variable are finite sums and products; messages are omitted; the random numbers drawn from a
Gaussian distribution are an argument. -/
namespace Rpwa.PSpace

open Finset Real

/-- parameterSpace.cc:20-26, 122-129: `xSums[i]`, filled from the last index downwards. -/
noncomputable def tailNorm (m : ℕ) (x : ℕ → ℝ) (i : ℕ) : ℝ :=
  sqrt ((List.range (m - i)).foldl (fun r k => r + x (m - 1 - k) * x (m - 1 - k)) 0)

/-- parameterSpace.cc:31-41 (and l.132-153): the angle of a coordinate `x` that is not the last but one, with `s = xSums`. -/
noncomputable def angle (x s : ℝ) : ℝ :=
  if s = 0 then 0
  else if |x - s| < 1e-10 then (if x ≥ 0 then 0 else π)
  else arccos (x / s)

/-- parameterSpace.cc:44-63 (and l.156-182): the last angle; `y` is the last coordinate. -/
noncomputable def lastAngle (x s y : ℝ) : ℝ :=
  if s = 0 then 0
  else
    let lastACosPhi := if |x - s| < 1e-10 then (if x ≥ 0 then 0 else π) else arccos (x / s)
    if y ≥ 0 then lastACosPhi else 2 * π - lastACosPhi

/-- parameterSpace.cc:15-67 `convertToSphericalCoordinates` on a vector of size `m` (`x.size()-2` wraps around for sizes below 2). -/
noncomputable def toSpherical (m : ℕ) (x : ℕ → ℝ) : Outcome (ℕ → ℝ) :=
  if m < 2 then .ub
  else .ok fun i =>
    if i = 0 then tailNorm m x 0
    else if i < m - 1 then angle (x (i - 1)) (tailNorm m x (i - 1))
    else if i = m - 1 then lastAngle (x (m - 2)) (tailNorm m x (m - 2)) (x (m - 1))
    else 0

/-- parameterSpace.cc:70-88 `convertToCartesianCoordinates` (`sphereX.size()-1` wraps around for size 0). -/
noncomputable def toCartesian (m : ℕ) (s : ℕ → ℝ) : Outcome (ℕ → ℝ) :=
  if m < 1 then .ub
  else .ok fun i =>
    if i < m - 1 then (List.range i).foldl (fun p j => p * sin (s (j + 1))) (s 0) * cos (s (i + 1))
    else if i = m - 1 then (List.range (m - 1)).foldl (fun p j => p * sin (s (j + 1))) (s 0)
    else 0

/-- parameterSpace.h:61-77: the members; `n = _nDimensions`. -/
structure PS where
  nEvents : ℕ
  n : ℕ
  integral : ℕ → ℕ → ℂ
  phi : ℕ → ℝ
  cosPhi : ℕ → ℝ
  sinPhi : ℕ → ℝ
  sigma : ℕ → ℝ
  rho : ℝ
  dRDPhi : ℕ → ℝ
  dSigmaDPhi : ℕ → ℕ → ℝ

/-- parameterSpace.cc:91-109: constructor, from the matrix, the number of events and of waves. -/
noncomputable def PS.init (nEvents n : ℕ) (matrix : ℕ → ℕ → ℂ) : PS :=
  ⟨nEvents, n, fun i j => matrix i j / (nEvents : ℂ), fun _ => 0, fun _ => 0, fun _ => 0, fun _ => 0, 0, fun _ => 0, fun _ _ => 0⟩

/-- parameterSpace.cc:332-339 `calculateSigma`. -/
noncomputable def calculateSigma (n : ℕ) (cosPhi sinPhi : ℕ → ℝ) (index : ℕ) : ℝ :=
  (List.range index).foldl (fun s i => s * sinPhi i) (if index = 2 * n - 1 then 1 else cosPhi index)

/-- parameterSpace.cc:351-372 `calculateDSigmaDPhi`. -/
noncomputable def calculateDSigmaDPhi (n : ℕ) (cosPhi sinPhi : ℕ → ℝ) (sigmaIndex phiIndex : ℕ) : ℝ :=
  if phiIndex > sigmaIndex then 0
  else if phiIndex = sigmaIndex then (List.range (sigmaIndex + 1)).foldl (fun r i => r * sinPhi i) (-1)
  else (List.range sigmaIndex).foldl (fun r i => r * (if i = phiIndex then cosPhi i else sinPhi i))
    (if sigmaIndex = 2 * n - 1 then 1 else cosPhi sigmaIndex)

/-- parameterSpace.cc:279-280, 311-312: the limits of `beta`. -/
def betaRange (n alpha : ℕ) : Finset ℕ :=
  let lower := if alpha < n then 0 else n
  let upper := if lower = 0 then n else 2 * n
  Ico lower upper

/-- parameterSpace.cc:276-285 `complexFirstSum`. -/
noncomputable def firstSum (n : ℕ) (I : ℕ → ℕ → ℂ) (sigma : ℕ → ℝ) : ℂ :=
  ∑ alpha ∈ range (2 * n), ∑ beta ∈ betaRange n alpha, ((sigma alpha * sigma beta : ℝ) : ℂ) * I (alpha % n) (beta % n)

/-- parameterSpace.cc:293-299 `secondSum`. -/
noncomputable def secondSum (n : ℕ) (I : ℕ → ℕ → ℂ) (sigma : ℕ → ℝ) : ℝ :=
  ∑ alpha ∈ range n, ∑ beta ∈ range n, sigma (alpha + n) * sigma beta * (I alpha beta).im

open Classical in
/-- parameterSpace.cc:273-303 `calculateRho`. -/
noncomputable def calculateRho (n : ℕ) (I : ℕ → ℕ → ℂ) (sigma : ℕ → ℝ) : Outcome ℝ :=
  if |(firstSum n I sigma).im| > 1e-10 then .terminate
  else .ok ((firstSum n I sigma).re - 2 * secondSum n I sigma)

/-- parameterSpace.cc:306-330 `calculateDRhoDPhi`. -/
noncomputable def calculateDRhoDPhi (p : PS) (phiIndex : ℕ) : ℝ :=
  (∑ alpha ∈ Ico phiIndex (2 * p.n), ∑ beta ∈ betaRange p.n alpha,
    (p.integral (alpha % p.n) (beta % p.n)).re * p.sigma beta * p.dSigmaDPhi alpha phiIndex) * 2
  - 2 * ∑ beta ∈ range p.n, ∑ alpha ∈ range p.n, (p.integral alpha beta).im *
      (p.sigma beta * p.dSigmaDPhi (alpha + p.n) phiIndex + p.sigma (alpha + p.n) * p.dSigmaDPhi beta phiIndex)

/-- parameterSpace.cc:266-270 `calculateDRDPhi`. -/
noncomputable def calculateDRDPhi (p : PS) (phiIndex : ℕ) : ℝ :=
  -(sqrt (p.nEvents * p.rho) / (p.rho * p.rho)) * calculateDRhoDPhi p phiIndex

/-- parameterSpace.h:43 `initialize`. -/
noncomputable def PS.initialize (p : PS) : Outcome PS := do
  let rho ← calculateRho p.n p.integral p.sigma
  let p := { p with rho := rho }
  let p := { p with dSigmaDPhi := (fun i j => calculateDSigmaDPhi p.n p.cosPhi p.sinPhi i j) }
  pure { p with dRDPhi := (fun i => calculateDRDPhi p i) }

/-- parameterSpace.cc:193-210 `setAngles` with a vector of the right size; iteration `i` of l.201-206 reads only entries up to `i`.
The loop runs over the angles, one less than there are coordinates. -/
noncomputable def PS.setAngles (p : PS) (phi : ℕ → ℝ) : Outcome PS :=
  let nPhi := 2 * p.n - 1
  let cosPhi := fun i => if i < nPhi then cos (phi i) else p.cosPhi i
  let sinPhi := fun i => if i < nPhi then sin (phi i) else p.sinPhi i
  PS.initialize { p with
    phi := (fun i => if i < nPhi then phi i else p.phi i)
    cosPhi := cosPhi
    sinPhi := sinPhi
    sigma := (fun i => if i < nPhi then calculateSigma p.n cosPhi sinPhi i else p.sigma i) }

/-- parameterSpace.cc:132-153, 156-182: cosine stored for an angle. -/
noncomputable def pickCos (x s : ℝ) : ℝ :=
  if s = 0 then 1 else if |x - s| < 1e-10 then (if x ≥ 0 then 1 else -1) else x / s

/-- parameterSpace.cc:132-153: sine stored for an angle that is not the last. -/
noncomputable def pickSin (x s : ℝ) : ℝ :=
  if s = 0 then 0 else if |x - s| < 1e-10 then 0 else sqrt (1 - (x / s) * (x / s))

/-- parameterSpace.cc:156-182: sine stored for the last angle. -/
noncomputable def pickLastSin (x s y : ℝ) : ℝ :=
  if s = 0 then 0
  else if y ≥ 0 then sqrt (1 - pickCos x s * pickCos x s) else -sqrt (1 - pickCos x s * pickCos x s)

/-- parameterSpace.cc:117-190 `pickUniformAngles`; `x` are the random numbers. -/
noncomputable def PS.pickUniformAngles (p : PS) (x : ℕ → ℝ) : Outcome PS :=
  let m := 2 * p.n
  let xSums := tailNorm m x
  let last := m - 2
  PS.initialize { p with
    phi := (fun i => if i < last then angle (x i) (xSums i) else if i = last then lastAngle (x last) (xSums last) (x (m - 1)) else p.phi i)
    cosPhi := (fun i => if i ≤ last then pickCos (x i) (xSums i) else p.cosPhi i)
    sinPhi := (fun i => if i < last then pickSin (x i) (xSums i) else if i = last then pickLastSin (x last) (xSums last) (x (m - 1)) else p.sinPhi i)
    sigma := (fun i => if i < m then x i / xSums 0 else p.sigma i) }

/-- parameterSpace.h:29 `getR`. -/
noncomputable def PS.getR (p : PS) : ℝ := sqrt (p.nEvents / p.rho)

/-- parameterSpace.cc:213-223 `getDS`. -/
noncomputable def PS.getDS (p : PS) (phiIndex : ℕ) : ℝ :=
  sqrt (∑ i ∈ range (2 * p.n), (p.dRDPhi phiIndex * p.sigma i + p.getR * p.dSigmaDPhi i phiIndex) *
    (p.dRDPhi phiIndex * p.sigma i + p.getR * p.dSigmaDPhi i phiIndex))

/-- parameterSpace.h:33 `getDSHat`. -/
noncomputable def PS.getDSHat (p : PS) (phiIndex : ℕ) : ℝ := p.getDS phiIndex / sqrt p.nEvents

/-- parameterSpace.cc:226-233 `getDA`. -/
noncomputable def PS.getDA (p : PS) : ℝ := ∏ i ∈ range (2 * p.n - 1), p.getDS i

/-- parameterSpace.cc:236-243 `getDAHat`. -/
noncomputable def PS.getDAHat (p : PS) : ℝ := ∏ i ∈ range (2 * p.n - 1), p.getDSHat i

/-- parameterSpace.cc:246-256 `getDASphereHat`. -/
noncomputable def PS.getDASphereHat (p : PS) : ℝ :=
  ∏ i ∈ range (2 * p.n - 2), ∏ _j ∈ range (2 * p.n - 2 - i), p.sinPhi i

/-- parameterSpace.h:37 `getDARatio`. -/
noncomputable def PS.getDARatio (p : PS) : ℝ := p.getDAHat / p.getDASphereHat

end Rpwa.PSpace
