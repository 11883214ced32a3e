import Verif.Model.ImportanceSampler
import Verif.Spec.PhaseSpace
/-!
# What the points of the sampler mean
-/
namespace Rpwa.ISamp.Spec
open Rpwa.Gen

/-- the point `p` means: masses `M i` of the first `i + 1` particles and angles of particle `i` in the rest frame of the first `i + 1` particles. -/
structure PointOf (masses : List ℝ) (p : ℕ → ℝ) (M c phi : ℕ → ℝ) : Prop where
  first : M 0 = masses.getD 0 0
  mass : ∀ i, i + 1 < masses.length → p (3 * i) = M (i + 1)
  cosTheta : ∀ i, i + 1 < masses.length → p (3 * i + 1) = c (i + 1)
  phi : ∀ i, i + 1 < masses.length → p (3 * i + 2) = phi (i + 1)

/-- the value whose logarithm is returned: what the sampling is proportional to. -/
noncomputable def prob : Log → ℝ
  | .negInf => 0
  | .fin x => Real.exp x
  | .nan => 0

/-- the value is allowed for the parameter. -/
def Within (x : ℝ) : Par → Prop
  | .fix y => x = y
  | .range lo hi => lo ≤ x ∧ x ≤ hi

end Rpwa.ISamp.Spec
