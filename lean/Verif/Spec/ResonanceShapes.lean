import Verif.Spec.PhysUtils

/-!
# Specification of the dynamic amplitudes of a resonance fit (C72)
-/

namespace Rpwa.ResFit.Spec

open Phys.Spec

/-- a decay mode of a resonance: branching ratio in any units, orbital angular momentum and masses of
the two isobars -/
structure Mode where
  ratio : ℝ
  L : ℕ
  m1 : ℝ
  m2 : ℝ

/-- physical isobars in a tabulated orbital angular momentum -/
structure Mode.Physical (c : Mode) : Prop where
  hm1 : 0 ≤ c.m1
  hm2 : 0 ≤ c.m2
  hL : c.L ≤ 7

/-- two-body phase space of a mode in units of its value at the nominal mass `m0`: 0 below threshold,
above it the ratio of the break-up momenta times that of the penetrabilities, for a range parameter
of 0.1973 GeV/c -/
def Mode.PhaseSpace (c : Mode) (m0 m w : ℝ) : Prop :=
  (m < c.m1 + c.m2 ∧ w = 0) ∨
  (∃ q q0, Decays m c.m1 c.m2 q ∧ Decays m0 c.m1 c.m2 q0 ∧
    w = q / q0 * (penetrability c.L (q / 0.1973) / penetrability c.L (q0 / 0.1973)))

/-- relativistic Breit-Wigner amplitude of nominal mass `m0` and width `g0`, with the width `g` at the
mass `m`; 1 in modulus at a resonance at its nominal mass -/
noncomputable def breitWigner (m0 g0 g m : ℝ) : ℂ :=
  (m0 * g0 : ℂ) / ((m0 : ℂ) ^ 2 - (m : ℂ) ^ 2 - Complex.I * (m0 * g : ℂ))

end Rpwa.ResFit.Spec
