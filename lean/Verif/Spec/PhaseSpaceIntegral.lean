import Verif.Model.PhaseSpaceIntegral
/-!
# Specification of tabulated phase-space integrals (C58)
-/
namespace Rpwa.PSI.Spec

/-- masses in increasing order -/
def Increasing (t : Tab) : Prop := t.Pairwise (fun p q => p.M < q.M)

/-- `y` is the linear interpolation between the two neighbouring points around `M` -/
def Interpolates (t : Tab) (M y : ℝ) : Prop :=
  ∃ p q, [p, q] <:+: t ∧ p.M ≤ M ∧ M < q.M ∧ y = p.val + (q.val - p.val) * ((M - p.M) / (q.M - p.M))

/-- a table from `lo` to `hi` -/
structure Valid (t : Tab) (lo hi : ℝ) : Prop where
  increasing : Increasing t
  first : ∃ p ps, t = p :: ps ∧ p.M = lo
  last : ∃ ps p, t = ps ++ [p] ∧ p.M = hi
  range : lo < hi

end Rpwa.PSI.Spec
