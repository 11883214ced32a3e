import Verif.Model.Kinematics
import Mathlib.Analysis.SpecialFunctions.Complex.Arg

/-!
# Reference frames of the decay amplitudes

Model of `isobarAmplitude::gjTransform` and `isobarHelicityAmplitude::hfTransform`.

`double` is `ℝ`, without rounding. `TVector3`, `TRotation`, `TLorentzRotation` are ROOT classes; their functions are
modelled after ROOT's source (trusted). A `TRotation`/`TLorentzRotation` is the function it applies to a
four-vector; `Rotate…`, `Boost` and `Transform` of such an object multiply from the left, i.e. they are applied after
what the object did before.
-/

namespace Rpwa.Amp

open Rpwa.Gen

/-- `TVector3::Cross` -/
def cross (v w : V3) : V3 := ⟨v.y * w.z - v.z * w.y, v.z * w.x - v.x * w.z, v.x * w.y - v.y * w.x⟩

/-- `TMath::ATan2(y, x)` -/
noncomputable def atan2 (y x : ℝ) : ℝ := Complex.arg ⟨x, y⟩

/-- `TVector3::Phi` (0 if both components vanish, as `ATan2(0, 0)`) -/
noncomputable def phi (v : V3) : ℝ := atan2 v.y v.x

/-- `TVector3::Theta`: `ATan2(Perp(), z)`, 0 for the null vector -/
noncomputable def theta (v : V3) : ℝ := atan2 (Real.sqrt (v.x * v.x + v.y * v.y)) v.z

/-- `TRotation::RotateX(a)` -/
noncomputable def rotX (a : ℝ) (p : LV) : LV :=
  ⟨p.x, Real.cos a * p.y - Real.sin a * p.z, Real.sin a * p.y + Real.cos a * p.z, p.t⟩

/-- `TRotation::RotateY(a)` -/
noncomputable def rotY (a : ℝ) (p : LV) : LV :=
  ⟨Real.cos a * p.x + Real.sin a * p.z, p.y, Real.cos a * p.z - Real.sin a * p.x, p.t⟩

/-- `TRotation::RotateZ(a)` -/
noncomputable def rotZ (a : ℝ) (p : LV) : LV :=
  ⟨Real.cos a * p.x - Real.sin a * p.y, Real.sin a * p.x + Real.cos a * p.y, p.z, p.t⟩

open Classical in
/-- `signum` (utilities/mathUtils.hpp:106-115) -/
noncomputable def signum (x : ℝ) : ℝ := if x < 0 then -1 else if x > 0 then 1 else 0

/-- the rotation of decayAmplitude/isobarAmplitude.cc:162-164 and isobarHelicityAmplitude.cc:75-77: takes the given
axis to the y-axis -/
noncomputable def alignY (axis : V3) (p : LV) : LV :=
  rotX (theta axis - Real.pi / 2) (rotZ (Real.pi / 2 - phi axis) p)

open Classical in
/-- `isobarAmplitude::gjTransform` (decayAmplitude/isobarAmplitude.cc:132-180): the Lorentz transformation, applied to
`p`, into the Gottfried-Jackson frame of `X` -/
noncomputable def gjTransform (beam X : LV) (p : LV) : LV :=
  if beam = X then p.boost X.boostVector.neg
  else
    let yGjAxis := cross beam.vect X.vect
    let rot1 := alignY yGjAxis
    let beam1 := rot1 beam
    let X1 := rot1 X
    let boost := fun q : LV => q.boost X1.boostVector.neg
    let beam2 := boost beam1
    let rot2 := rotY (-signum beam2.x * theta beam2.vect)
    rot2 (boost (rot1 p))

/-- `isobarHelicityAmplitude::hfTransform` (decayAmplitude/isobarHelicityAmplitude.cc:67-90): the Lorentz
transformation, applied to `p`, into the helicity rest frame of `daughter` -/
noncomputable def hfTransform (daughter : LV) (p : LV) : LV :=
  let yHfAxis := cross ⟨0, 0, 1⟩ daughter.vect
  let rot1 := alignY yHfAxis
  let daughter1 := rot1 daughter
  let rot2 := rotY (-signum daughter1.x * theta daughter1.vect)
  let daughter2 := rot2 daughter1
  (rot2 (rot1 p)).boost daughter2.boostVector.neg

end Rpwa.Amp
