import Verif.Spec.PhysUtils
import Mathlib.LinearAlgebra.Matrix.Notation
import Mathlib.LinearAlgebra.Matrix.ConjTranspose

/-!
# Specification of resonance amplitudes (C56)
-/

namespace Rpwa.MassDep.Spec

open Rpwa.Phys.Spec

/-- relativistic Breit-Wigner amplitude with numerator `A` and total width `Gamma` -/
noncomputable def bw (A M M0 Gamma : ℝ) : ℂ :=
  (A : ℂ) / (((M0 ^ 2 - M ^ 2 : ℝ) : ℂ) - Complex.I * ((M0 * Gamma : ℝ) : ℂ))

/-- width of a two-body decay of orbital angular momentum `n`: phase space and barrier penetration relative
to those at the nominal mass; interaction radius of 1 fm -/
noncomputable def width (Gamma0 M M0 : ℝ) (n : ℕ) (q q0 : ℝ) : ℝ :=
  Gamma0 * (M0 / M) * (q / q0) * (penetrability n (q / 0.1973) / penetrability n (q0 / 0.1973))

/-- optical theorem of an amplitude for one open channel of phase space `rho` -/
def Unitary (rho : ℝ) (T : ℂ) : Prop := T.im = rho * Complex.normSq T

/-- `T` is the amplitude of a real symmetric K matrix and phase space `rho`: `T = (1 - i K rho)⁻¹ K` -/
def KMatrix (K : Matrix (Fin 2) (Fin 2) ℝ) (rho : Fin 2 → ℂ) (T : Matrix (Fin 2) (Fin 2) ℂ) : Prop :=
  (1 - Complex.I • (K.map (fun x : ℝ => (x : ℂ)) * Matrix.diagonal rho)) * T = K.map (fun x : ℝ => (x : ℂ))

/-- value of `2 q / M` -/
noncomputable def phaseSpace (M m1 m2 : ℝ) : ℝ :=
  Real.sqrt ((M ^ 2 - (m1 + m2) ^ 2) * (M ^ 2 - (m1 - m2) ^ 2)) / M ^ 2

open Classical in
/-- phase space of a channel that may be closed -/
noncomputable def openSpace (M m1 m2 : ℝ) : ℝ := if m1 + m2 ≤ M then phaseSpace M m1 m2 else 0

end Rpwa.MassDep.Spec
