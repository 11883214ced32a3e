import Verif.Model.PhysUtils
import Mathlib.Analysis.SpecialFunctions.Trigonometric.Arctan
import Mathlib.Analysis.SpecialFunctions.Complex.Circle

/-!
# `decayAmplitude/massDependence.cc`: mass dependences of isobars

`double` is `ℝ`, without rounding.  `none` is a call that aborts (`throw`) or whose result is not a finite
number (division by zero).  The masses of charged pion, kaon, eta that the constructors read from the
particle data table are parameters.
-/

namespace Rpwa.MassDep

open Rpwa.Phys

/-- what the mass dependences read of an isobar-decay vertex: mass of the parent and the daughters in the
event (`lzVec().M()`), nominal mass and width of the parent, orbital angular momentum (units of 1/2),
whether both daughters are stable -/
structure Vtx where
  M : ℝ
  m1 : ℝ
  m2 : ℝ
  M0 : ℝ
  Gamma0 : ℝ
  L : ℤ
  stable : Bool

open Classical in
/-- `a / b` of two `double`s if the result is finite -/
noncomputable def fdiv (a b : ℝ) : Option ℝ := if b = 0 then none else some (a / b)

open Classical in
/-- `a / b` of two complex numbers if the result is finite -/
noncomputable def cdiv (a b : ℂ) : Option ℂ := if b = 0 then none else some (a / b)

/-- `flatMassDependence::amp` (massDependence.cc:168-174) -/
def flat : ℂ := 1

open Classical in
/-- `binnedMassDependence::amp` (massDependence.cc:218-237) -/
noncomputable def binned (mMin mMax M : ℝ) : ℂ := if mMin ≤ M ∧ M < mMax then 1 else 0

/-- `(A / (B * B + C * C)) * complex(B, C)`, the way all Breit-Wigner amplitudes are written -/
noncomputable def bwForm (A B C : ℝ) : Option ℂ := do
  let f ← fdiv A (B * B + C * C)
  some ((f : ℂ) * ⟨B, C⟩)

open Classical in
/-- `breitWigner` (utilities/physUtils.hpp:281-301) with the divisions that are not finite -/
noncomputable def breitWignerF (M M0 Gamma0 : ℝ) (L : ℤ) (q q0 : ℝ) : Option ℂ :=
  if q0 = 0 then some 0 else do
  let r ← fdiv M0 M
  let b ← fdiv (barrierFactorSquared L q) (barrierFactorSquared L q0)
  let Gamma := Gamma0 * r * (q / q0) * b
  bwForm (M0 * Gamma0) (M0 * M0 - M * M) (M0 * Gamma)

open Classical in
/-- `breakupMomentumSquared` (utilities/physUtils.hpp:73-92) with the division by `4 * M * M` -/
noncomputable def breakupSquaredF (M m1 m2 : ℝ) (allowSubThr : Bool) : Option ℝ :=
  if M = 0 then none else breakupMomentumSquared M m1 m2 allowSubThr

/-- `breakupMomentum` (utilities/physUtils.hpp:97-104) with the division by `4 * M * M` -/
noncomputable def breakupF (M m1 m2 : ℝ) : Option ℝ := (breakupSquaredF M m1 m2 false).map Real.sqrt

open Classical in
/-- `breakupMomentumComplex` (utilities/physUtils.hpp:109-121) with the division by `4 * M * M` -/
noncomputable def breakupComplexF (M m1 m2 : ℝ) : Option ℂ :=
  if M = 0 then none else breakupMomentumComplex M m1 m2

/-- `relativisticBreitWigner::amp` (massDependence.cc:253-288); the amplitude for unstable daughters, from
tables of phase-space integrals, is the parameter `integral` -/
noncomputable def relBW (integral : Option ℂ) (v : Vtx) : Option ℂ :=
  if v.stable then do
    let q ← breakupF v.M v.m1 v.m2
    let q02 ← breakupSquaredF v.M0 v.m1 v.m2 true
    let q0 := Real.sqrt |q02|
    breitWignerF v.M v.M0 v.Gamma0 v.L q q0
  else integral

/-- `constWidthBreitWigner::amp` (massDependence.cc:299-319) -/
noncomputable def constWidth (v : Vtx) : Option ℂ :=
  let A := v.M0 * v.Gamma0
  let B := v.M0 * v.M0 - v.M * v.M
  bwForm A B A

/-- `rhoBreitWigner::amp` (massDependence.cc:323-358) -/
noncomputable def rhoBW (v : Vtx) : Option ℂ := do
  let q2 ← breakupSquaredF v.M v.m1 v.m2 false
  let q := Real.sqrt q2
  let q02 ← breakupSquaredF v.M0 v.m1 v.m2 false
  let q0 := Real.sqrt q02
  let F ← fdiv (2 * q2) (q02 + q2)
  let r ← fdiv v.M0 v.M
  let k ← fdiv q q0
  let Gamma := v.Gamma0 * r * k * F
  bwForm (v.M0 * v.Gamma0 * Real.sqrt F) (v.M0 * v.M0 - v.M * v.M) (v.M0 * Gamma)

/-- `f0980BreitWigner::amp` (massDependence.cc:362-390) -/
noncomputable def f0980BW (v : Vtx) : Option ℂ := do
  let q ← breakupF v.M v.m1 v.m2
  let q0 ← breakupF v.M0 v.m1 v.m2
  let k ← fdiv q q0
  let Gamma := v.Gamma0 * k
  let C := v.M0 * Gamma
  let A ← fdiv (C * v.M) q
  bwForm A (v.M0 * v.M0 - v.M * v.M) C

/-- `f0980FlatteBesII::amp` (massDependence.cc:410-444); `mPi`, `mK` are the masses of charged pion and
kaon -/
noncomputable def flatte (mPi mK : ℝ) (v : Vtx) : Option ℂ := do
  let M0 : ℝ := 0.965
  let g1 : ℝ := 0.165
  let g2g1 : ℝ := 4.21
  let kPi ← breakupComplexF v.M mPi mPi
  let kK ← breakupComplexF v.M mK mK
  let rhoPi := 2 * kPi / (v.M : ℂ)
  let rhoK := 2 * kK / (v.M : ℂ)
  let denom := (((M0 * M0 - v.M * v.M : ℝ) : ℂ)) - Complex.I * g1 * (rhoPi + g2g1 * rhoK)
  cdiv 1 denom

/-- parameters of the Au-Morgan-Pennington amplitude: diagonal elements of the matrices `_a`, `_c`
(the off-diagonal ones are set to zero before the matrix is used, l.547-548), sheet of the VES version,
masses from the particle data table -/
structure AMP where
  a : Fin 2 → Fin 2 → ℝ
  c : Fin 5 → Fin 2 → ℝ
  vesSheet : Bool
  piCharged : ℝ
  piNeutral : ℝ
  kaonCharged : ℝ
  kaonNeutral : ℝ

/-- constructor of the M solution (massDependence.cc:448-500), diagonal elements -/
noncomputable def AMP.mSolution (piC pi0 kC k0 : ℝ) : AMP where
  a := ![![0.1131, -0.3216], ![0.1968 * 0.1968, -0.0154 * -0.0154]]
  c := ![![0.0337, 0.3010], ![-0.3185, -0.5140], ![-0.0942, 0.1176], ![-0.5927, 0.5204], ![0.1957, -0.3977]]
  vesSheet := false
  piCharged := piC
  piNeutral := pi0
  kaonCharged := kC
  kaonNeutral := k0

/-- constructor of the VES version (massDependence.cc:570-574) -/
noncomputable def AMP.ves (piC pi0 kC k0 : ℝ) : AMP := { AMP.mSolution piC pi0 kC k0 with vesSheet := true }

/-- constructor of Kachaev's version (massDependence.cc:613-629) -/
noncomputable def AMP.kachaev (piC pi0 kC k0 : ℝ) : AMP :=
  { AMP.mSolution piC pi0 kC k0 with
    a := ![![0.1131, -0.3216], ![0, 0]]
    c := ![![0.0337, 0.3010], ![-0.3185, -0.5140], ![-0.0942, 0.1176], ![-0.5927, 0.5204], ![0, 0]] }

/-- poles `_sP` (massDependence.cc:484-485) -/
noncomputable def AMP.sP : Fin 2 → ℝ := ![-0.0074, 0.9828]

/-- `_kaonMeanMass` (massDependence.cc:499) -/
noncomputable def AMP.kaonMean (p : AMP) : ℝ := (p.kaonCharged + p.kaonNeutral) / 2

open Classical in
/-- the mass that is used for a mass close to a pole (massDependence.cc:508-514) -/
noncomputable def AMP.shift (mass : ℝ) : ℝ :=
  if |mass * mass - AMP.sP 1| < 1e-6 then mass + 1e-6 else mass

/-- diagonal element `i` of the matrix `M` (massDependence.cc:534-544) -/
noncomputable def AMP.elem (p : AMP) (s : ℝ) (i : Fin 2) : Option ℝ := do
  let f0 ← fdiv 1 (s - AMP.sP 0)
  let f1 ← fdiv 1 (s - AMP.sP 1)
  let sc ← fdiv s (4 * p.kaonMean * p.kaonMean)
  let scale := sc - 1
  some (f0 * p.a 0 i + f1 * p.a 1 i + p.c 0 i + scale * p.c 1 i + scale ^ 2 * p.c 2 i + scale ^ 3 * p.c 3 i
    + scale ^ 4 * p.c 4 i)

open Classical in
/-- diagonal elements of the phase-space matrix `rho` (massDependence.cc:516-532) -/
noncomputable def AMP.rho (p : AMP) (mass : ℝ) : Option (ℂ × ℂ) := do
  let qPiPi ← breakupComplexF mass p.piCharged p.piCharged
  let qPi0Pi0 ← breakupComplexF mass p.piNeutral p.piNeutral
  let qKK ← breakupComplexF mass p.kaonCharged p.kaonCharged
  let qK0K0 ← breakupComplexF mass p.kaonNeutral p.kaonNeutral
  let qKmKm ← breakupComplexF mass p.kaonMean p.kaonMean
  if p.vesSheet then
    let qKmKm := if qKmKm.im > 0 then qKmKm * -1 else qKmKm
    some ((2 * qPiPi) / mass, (2 * qKmKm) / mass)
  else
    some (((2 * qPiPi) / mass + (2 * qPi0Pi0) / mass) / 2, ((2 * qKK) / mass + (2 * qK0K0) / mass) / 2)

open Classical in
/-- `piPiSWaveAuMorganPenningtonImpl::amp` (massDependence.cc:504-557); `old` is the element `_T(0, 0)`
that the previous call left behind, the result is the new one.  `invertMatrix`
(utilities/mathUtils.hpp:122-138) does not change `_T` if the matrix, which is diagonal, is singular. -/
noncomputable def AMP.amp (p : AMP) (old : ℂ) (M : ℝ) : Option ℂ := do
  let mass := AMP.shift M
  let s := mass * mass
  let rho ← p.rho mass
  let m11 ← p.elem s 0
  let m22 ← p.elem s 1
  let d1 := (m11 : ℂ) - Complex.I * rho.1
  let d2 := (m22 : ℂ) - Complex.I * rho.2
  if d1 = 0 ∨ d2 = 0 then some old else some (1 / d1)

open Classical in
/-- `piPiSWaveAuMorganPenningtonVes::amp` (massDependence.cc:577-606) -/
noncomputable def AMP.ampVes (p : AMP) (old : ℂ) (M : ℝ) : Option ℂ := do
  let f0Mass : ℝ := 0.9837
  let f0Width : ℝ := 0.0376
  let coupling : ℂ := ⟨-0.3743, 0.3197⟩
  let ampM ← p.amp old M
  if M > 2 * p.piCharged then
    let q ← breakupF M p.piCharged p.piCharged
    let q0 ← breakupF f0Mass p.piCharged p.piCharged
    let k ← fdiv q q0
    let Gamma := f0Width * k
    let C := f0Mass * Gamma
    let mq ← fdiv M q
    let A := C * mq
    let bw ← bwForm A (f0Mass * f0Mass - M * M) C
    some (ampM - coupling * bw)
  else some (ampM - coupling * 0)

/-- parameters of the generalised LASS amplitude (massDependence.h: class `KPiSGLASS`) -/
structure Glass where
  a : ℝ
  r : ℝ
  M0 : ℝ
  G0 : ℝ
  phiF : ℝ
  phiR : ℝ
  phiRsin : ℝ
  F : ℝ
  R : ℝ
  MMax : ℝ
  piCharged : ℝ
  kaonCharged : ℝ

open Classical in
/-- `atan(a / b)` with the infinite quotient of the division by zero (`b = +0`) -/
noncomputable def atanDiv (a b : ℝ) : Option ℝ :=
  if b = 0 then (if a = 0 then none else if 0 < a then some (Real.pi / 2) else some (-(Real.pi / 2)))
  else some (Real.arctan (a / b))

open Classical in
/-- `KPiSGLASS::amp` (massDependence.cc:701-728) -/
noncomputable def Glass.amp (g : Glass) (M : ℝ) : Option ℂ :=
  if M > g.kaonCharged + g.piCharged ∧ M < g.MMax then do
    let q ← breakupF M g.kaonCharged g.piCharged
    let q0 ← breakupF g.M0 g.kaonCharged g.piCharged
    let x ← fdiv (g.G0 * g.M0) M
    let G ← fdiv (x * q) q0
    let deltaR ← atanDiv (g.M0 * G) (g.M0 * g.M0 - M * M)
    let deltaF ← atanDiv (2 * g.a * q) (2 + g.a * g.r * q * q)
    let amp := (g.F : ℂ) * (Real.sin (deltaF + g.phiF) : ℝ) * Complex.exp (⟨0, deltaF + g.phiF⟩)
      + (g.R : ℂ) * (Real.sin (deltaR + g.phiRsin) : ℝ) * Complex.exp (⟨0, deltaR + g.phiR⟩)
        * Complex.exp (⟨0, 2 * (deltaF + g.phiF)⟩)
    let k ← fdiv (0.5 * M) q
    some (amp * k)
  else some 0

/-- parameters of the Palano-Pennington amplitude: upper limit and masses -/
structure Palano where
  MMax : ℝ
  piCharged : ℝ
  kaonCharged : ℝ
  eta : ℝ

/-- couplings of the two poles and polynomial coefficients (massDependence.cc:777-787) -/
noncomputable def Palano.ga : Fin 2 → ℝ := ![0.3139, -0.00775]
/-- see `Palano.ga` -/
noncomputable def Palano.gb : Fin 2 → ℝ := ![1.1804, -0.22335]
/-- see `Palano.ga` -/
noncomputable def Palano.C : Fin 2 → Fin 2 → Fin 4 → ℝ :=
  ![![![-0.1553, 0.0909, 0.8618, 0.0629], ![0.0738, 0.3866, 1.2195, 0.8390]],
    ![![0.0738, 0.3866, 1.2195, 0.8390], ![-0.0036, 0.2590, 1.6950, 2.2300]]]

/-- `K_11`, `K_12`, `K_22` (massDependence.cc:787-809) -/
noncomputable def Palano.K (p : Palano) (s : ℝ) (i j : Fin 2) : Option ℝ := do
  let sKpi := p.kaonCharged * p.kaonCharged + p.piCharged * p.piCharged
  let sA := 0.87753 * sKpi
  let x := (2 * s - (5.832 + 0.36)) / (5.832 - 0.36)
  let k ← fdiv (s - sA) sKpi
  let a ← fdiv (Palano.ga i * Palano.ga j) (1.7991 - s)
  let b ← fdiv (Palano.gb i * Palano.gb j) (8.3627 - s)
  some (k * (a + b + Palano.C i j 0 + Palano.C i j 1 * x + Palano.C i j 2 * x * x + Palano.C i j 3 * x * x * x))

open Classical in
/-- `KPiSPalanoPennington::amp` (massDependence.cc:772-825) -/
noncomputable def Palano.amp (p : Palano) (M : ℝ) : Option ℂ :=
  if M > p.kaonCharged + p.piCharged ∧ M < p.MMax then do
    let s := M * M
    let qKpi ← breakupComplexF M p.kaonCharged p.piCharged
    let qKeta ← breakupComplexF M p.kaonCharged p.eta
    let rhoKpi := 2 * qKpi / (M : ℂ)
    let rhoKeta := 2 * qKeta / (M : ℂ)
    let k11 ← p.K s 0 0
    let k12 ← p.K s 0 1
    let k22 ← p.K s 1 1
    let detK : ℂ := (k11 : ℂ) * k22 - (k12 : ℂ) * k12
    let delta := 1 - Complex.I * rhoKpi * k11 - Complex.I * rhoKeta * k22 - rhoKpi * rhoKeta * detK
    cdiv ((k11 : ℂ) - Complex.I * rhoKeta * detK) delta
  else some 0

/-- `rhoPrimeMassDep::amp` (massDependence.cc:829-865) -/
noncomputable def rhoPrime (M : ℝ) : Option ℂ := do
  let A1 : ℝ := 1.465 * 0.235
  let B1 := 1.465 * 1.465 - M * M
  let bw1 ← bwForm A1 B1 A1
  let A2 : ℝ := 1.700 * 0.220
  let B2 := 1.700 * 1.700 - M * M
  let bw2 ← bwForm A2 B2 A2
  some ((4 * bw1 - 3 * bw2) / 7)

end Rpwa.MassDep
