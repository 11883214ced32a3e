import Verif.Model.PhysUtils
import Mathlib.Analysis.SpecialFunctions.Trigonometric.Basic
import Mathlib.Tactic.Ring

/-!
# Four-vectors and the kinematics of diffractive events

Model of `generators/diffractivePhaseSpace.cc: calculateXSystemLab` and of `tPrime` in
`utilities/physUtils.hpp`.

`double` is `ℝ`, without rounding.  A result that is not a finite number in the program (square root of
a negative number, division by zero) is `none`.  `TLorentzVector` and `TVector3` are not part of the
repository; their functions `Boost`, `BoostVector`, `Unit` and `RotateUz` are modelled after ROOT's
documentation and source (trusted).
-/

namespace Rpwa.Gen

/-- `TVector3` -/
@[ext] structure V3 where
  x : ℝ
  y : ℝ
  z : ℝ

/-- `TLorentzVector` -/
@[ext] structure LV where
  x : ℝ
  y : ℝ
  z : ℝ
  t : ℝ

namespace LV

/-- `operator +` -/
def add (p q : LV) : LV := ⟨p.x + q.x, p.y + q.y, p.z + q.z, p.t + q.t⟩

/-- `operator -` -/
def sub (p q : LV) : LV := ⟨p.x - q.x, p.y - q.y, p.z - q.z, p.t - q.t⟩

instance : Add LV := ⟨add⟩
instance : Sub LV := ⟨sub⟩
instance : Zero LV := ⟨⟨0, 0, 0, 0⟩⟩

/-- `Vect()` -/
def vect (p : LV) : V3 := ⟨p.x, p.y, p.z⟩

/-- `M2()`, `Mag2()` -/
def m2 (p : LV) : ℝ := p.t * p.t - (p.x * p.x + p.y * p.y + p.z * p.z)

/-- `P()` -/
noncomputable def P (p : LV) : ℝ := Real.sqrt (p.x * p.x + p.y * p.y + p.z * p.z)

/-- `BoostVector()` (for an energy that is not zero) -/
noncomputable def boostVector (p : LV) : V3 := ⟨p.x / p.t, p.y / p.t, p.z / p.t⟩

/-- `Boost(b)` -/
noncomputable def boost (b : V3) (p : LV) : LV :=
  let b2 := b.x * b.x + b.y * b.y + b.z * b.z
  let gamma := 1 / Real.sqrt (1 - b2)
  let bp := b.x * p.x + b.y * p.y + b.z * p.z
  let gamma2 := if b2 > 0 then (gamma - 1) / b2 else 0
  ⟨p.x + gamma2 * bp * b.x + gamma * b.x * p.t,
   p.y + gamma2 * bp * b.y + gamma * b.y * p.t,
   p.z + gamma2 * bp * b.z + gamma * b.z * p.t,
   gamma * (p.t + bp)⟩

end LV

namespace V3

/-- `operator -` (unary) -/
def neg (v : V3) : V3 := ⟨-v.x, -v.y, -v.z⟩

/-- scalar product -/
def dot (v w : V3) : ℝ := v.x * w.x + v.y * w.y + v.z * w.z

/-- `Unit()` -/
noncomputable def unit (v : V3) : V3 :=
  let tot2 := v.dot v
  let tot := if tot2 > 0 then 1 / Real.sqrt tot2 else 1
  ⟨v.x * tot, v.y * tot, v.z * tot⟩

open Classical in
/-- `RotateUz(u)`: rotation that takes the z-axis to the unit vector `u` -/
noncomputable def rotateUz (u v : V3) : V3 :=
  let up2 := u.x * u.x + u.y * u.y
  if up2 ≠ 0 then
    let up := Real.sqrt up2
    ⟨(u.x * u.z * v.x - u.y * v.y + u.x * up * v.z) / up,
     (u.y * u.z * v.x + u.x * v.y + u.y * up * v.z) / up,
     (u.z * u.z * v.x - v.x + u.z * up * v.z) / up⟩
  else if u.z < 0 then ⟨-v.x, v.y, -v.z⟩
  else v

end V3

/-- `tPrime` (utilities/physUtils.hpp:47-71) -/
noncomputable def tPrime (beam target out : LV) : ℝ :=
  let boostCm := (beam + target).boostVector.neg
  let b := beam.boost boostCm
  let o := out.boost boostCm
  2 * (b.P * o.P - b.vect.dot o.vect)

/-- `sqrt`, `none` is NaN -/
noncomputable def sqrt? (x : ℝ) : Option ℝ := if x < 0 then none else some (Real.sqrt x)

open Classical in
/-- division, `none` is NaN or infinity -/
noncomputable def div? (x y : ℝ) : Option ℝ := if y = 0 then none else some (x / y)

open Classical in
/-- `diffractivePhaseSpace::calculateXSystemLab` (generators/diffractivePhaseSpace.cc:113-158); `phi` is
the random azimuth. -/
noncomputable def calculateXSystemLab (beam : LV) (targetMass xMass recoilMass s tPrime phi : ℝ) :
    Option LV := do
  let sqrtS ← sqrt? s
  let recoilMass2 := recoilMass * recoilMass
  let xMass2 := xMass * xMass
  let xEnergyCM ← div? (s - recoilMass2 + xMass2) (2 * sqrtS)
  let xMomCM ← sqrt? (xEnergyCM * xEnergyCM - xMass2)
  let beamMass2 := beam.m2
  let targetMass2 := targetMass * targetMass
  let beamEnergyCM ← div? (s - targetMass2 + beamMass2) (2 * sqrtS)
  let beamMomCM ← sqrt? (beamEnergyCM * beamEnergyCM - beamMass2)
  let t0 := (xEnergyCM - beamEnergyCM) * (xEnergyCM - beamEnergyCM)
    - (xMomCM - beamMomCM) * (xMomCM - beamMomCM)
  let t := t0 - tPrime
  let beamEnergy := beam.t
  let beamMomentum := beam.P
  let reggeonEnergyLab ← div? (targetMass2 - recoilMass2 + t) (2 * targetMass)
  let xEnergyLab := beamEnergy + reggeonEnergyLab
  let xMomLab ← sqrt? (xEnergyLab * xEnergyLab - xMass2)
  let xCosThetaLab ← if tPrime = 0 then some 1
    else div? (t - xMass2 - beamMass2 + 2 * beamEnergy * xEnergyLab) (2 * beamMomentum * xMomLab)
  let xSinThetaLab ← sqrt? (1 - xCosThetaLab * xCosThetaLab)
  let xPtLab := xMomLab * xSinThetaLab
  let v : V3 := ⟨xPtLab * Real.cos phi, xPtLab * Real.sin phi, xMomLab * xCosThetaLab⟩
  let w := V3.rotateUz beam.vect.unit v
  some ⟨w.x, w.y, w.z, xEnergyLab⟩

end Rpwa.Gen
