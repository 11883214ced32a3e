import Verif.Spec.PhaseSpace
import Mathlib.Data.Nat.Factorial.Basic

/-!
# Specification of maximum weights (C45)
-/

namespace Rpwa.Gen.Spec

/-- weight of an event with the given particle masses whose subsystems have masses `M`: phase-space
density times the volume in which the masses of the subsystems are picked -/
noncomputable def psWeight (masses : List ℝ) (M : ℕ → ℝ) : ℝ :=
  (M (masses.length - 1) - masses.sum) ^ (masses.length - 2) / (masses.length - 2).factorial
    * density (fun i => masses.getD i 0) M (masses.length - 1)

/-- `M` are masses of subsystems of a possible decay of mass `W` into particles of the given masses -/
def Possible (masses : List ℝ) (W : ℝ) (M : ℕ → ℝ) : Prop :=
  ValidMasses masses.length (fun i => masses.getD i 0) M ∧ M (masses.length - 1) = W

/-- `w` is 1 % above the largest weight in a sample of events of mass `W` with the given final state -/
def Estimate (masses : List ℝ) (W w : ℝ) : Prop :=
  ∃ sample : List (ℕ → ℝ), (∀ M ∈ sample, Possible masses W M ∧ 101 / 100 * psWeight masses M ≤ w) ∧
    ∃ M ∈ sample, w = 101 / 100 * psWeight masses M

end Rpwa.Gen.Spec
