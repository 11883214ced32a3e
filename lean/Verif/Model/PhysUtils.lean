import Mathlib.Data.Complex.Basic
import Mathlib.Analysis.SpecialFunctions.Pow.Real

/-!
# `utilities/physUtils.hpp`: kinematic and dynamic helper functions

Real numbers stand for `double` (no rounding).
-/

namespace Rpwa.Phys

/-- `breakupMomentumSquared` (utilities/physUtils.hpp:73-92): squared breakup momentum of the decay
`M → m1 m2`; `none` stands for the `throw` of l.81-85 (mother lighter than the daughters when
sub-threshold decays are not allowed). -/
noncomputable def breakupMomentumSquared (M m1 m2 : ℝ) (allowSubThr : Bool) : Option ℝ :=
  let mSum := m1 + m2
  if allowSubThr = false ∧ M < mSum then none else
  let mDiff := m1 - m2
  let q2 := (M - mSum) * (M + mSum) * (M - mDiff) * (M + mDiff) / (4 * M * M)
  if allowSubThr = false ∧ q2 < 0 then some 0 else some q2

/-- `breakupMomentum` (utilities/physUtils.hpp:97-104). -/
noncomputable def breakupMomentum (M m1 m2 : ℝ) : Option ℝ :=
  (breakupMomentumSquared M m1 m2 false).map Real.sqrt

/-- `breakupMomentumComplex` (utilities/physUtils.hpp:109-121). -/
noncomputable def breakupMomentumComplex (M m1 m2 : ℝ) : Option ℂ :=
  (breakupMomentumSquared M m1 m2 true).map fun q2 =>
    let q := Real.sqrt |q2|
    if q2 < 0 then ⟨0, q⟩ else ⟨q, 0⟩

open Classical in
/-- `dalitzKinematicBorder` (utilities/physUtils.hpp:126-155): smallest (`min`) and largest squared mass
of the particles 1 and 2 in the decay `M → m0 m1 m2` for the squared mass `mass_2` of the particles 0
and 1; `none` stands for the values that are not finite because of the division by `mass = 0`. -/
noncomputable def dalitzKinematicBorder (mass_2 M : ℝ) (m : Fin 3 → ℝ) (min : Bool) : Option ℝ :=
  if mass_2 < 0 then some 0 else
  let mass := Real.sqrt mass_2
  let M_2 := M * M
  let m_2 := fun i => m i * m i
  if mass = 0 then none else
  let E1 := (mass_2 - m_2 0 + m_2 1) / (2 * mass)
  let E2 := (M_2 - mass_2 - m_2 2) / (2 * mass)
  let E1_2 := E1 * E1
  let E2_2 := E2 * E2
  if E1_2 < m_2 1 ∨ E2_2 < m_2 2 then some 0 else
  let p1 := Real.sqrt (E1_2 - m_2 1)
  let p2 := Real.sqrt (E2_2 - m_2 2)
  let Esum_2 := (E1 + E2) * (E1 + E2)
  if min then some (Esum_2 - (p1 + p2) * (p1 + p2))
  else some (Esum_2 - (p1 - p2) * (p1 - p2))

/-- `reflectivityFactor` (utilities/physUtils.hpp:170-193): `refl * P * (-1)^((J - M) / 2)`, spins in
units of `hbar/2`; `0` with a warning for illegal quantum numbers.  `powMinusOne` (mathUtils.hpp) is
`-1` for odd and `+1` for even exponents; C++ integer division truncates towards zero. -/
def reflectivityFactor (J P M refl : ℤ) : ℤ :=
  if P.natAbs ≠ 1 then 0
  else if M < 0 then 0
  else if refl.natAbs ≠ 1 then 0
  else refl * P * (if (J - M).tdiv 2 % 2 = 0 then 1 else -1)

/-- The `switch` of `barrierFactorSquared` (utilities/physUtils.hpp:207-253) for
`z = breakupMom² / Pr²`; the orbital angular momentum `L` is in units of `hbar/2`, the `default`
branch returns 0. -/
noncomputable def barrierFactorSquaredZ (L : ℤ) (z : ℝ) : ℝ :=
  if L = 0 then 1
  else if L = 2 then (2 * z) / (z + 1)
  else if L = 4 then (13 * z * z) / (z * (z + 3) + 9)
  else if L = 6 then (277 * z * z * z) / (z * (z * (z + 6) + 45) + 225)
  else if L = 8 then
    let z2 := z * z
    (12746 * z2 * z2) / (z * (z * (z * (z + 10) + 135) + 1575) + 11025)
  else if L = 10 then
    let z2 := z * z
    (998881 * z2 * z2 * z) / (z * (z * (z * (z * (z + 15) + 315) + 6300) + 99225) + 893025)
  else if L = 12 then
    let z3 := z * z * z
    (118394977 * z3 * z3)
      / (z * (z * (z * (z * (z * (z + 21) + 630) + 18900) + 496125) + 9823275) + 108056025)
  else if L = 14 then
    let z3 := z * z * z
    (19727003738 * z3 * z3 * z)
      / (z * (z * (z * (z * (z * (z * (z + 28) + 1134) + 47250) + 1819125) + 58939650)
              + 1404728325) + 18261468225)
  else 0

/-- `barrierFactorSquared` (utilities/physUtils.hpp:198-259): Blatt-Weisskopf barrier factor squared
for the momentum scale `Pr` (default 0.1973 GeV/c). -/
noncomputable def barrierFactorSquared (L : ℤ) (breakupMom : ℝ) (Pr : ℝ := 0.1973) : ℝ :=
  barrierFactorSquaredZ L ((breakupMom * breakupMom) / (Pr * Pr))

/-- `barrierFactor` (utilities/physUtils.hpp:263-276). -/
noncomputable def barrierFactor (L : ℤ) (breakupMom : ℝ) (Pr : ℝ := 0.1973) : ℝ :=
  Real.sqrt (barrierFactorSquared L breakupMom Pr)

open Classical in
/-- `breitWigner` (utilities/physUtils.hpp:281-301): relativistic Breit-Wigner amplitude with
mass-dependent width. -/
noncomputable def breitWigner (M M0 Gamma0 : ℝ) (L : ℤ) (q q0 : ℝ) : ℂ :=
  if q0 = 0 then 0 else
  let Gamma := Gamma0 * (M0 / M) * (q / q0)
    * (barrierFactorSquared L q / barrierFactorSquared L q0)
  let A := M0 * Gamma0
  let B := M0 * M0 - M * M
  let C := M0 * Gamma
  ((A / (B * B + C * C) : ℝ) : ℂ) * ⟨B, C⟩

end Rpwa.Phys
