import Verif.Model.FitParameters
/-!
# Specification for C23: which real numbers are fit parameters

For rank `R` and reflectivity `e` with `n e` waves, the production amplitude of wave `w` in rank `r` is zero for `w < r`, real for
`w = r` and complex for `w > r`. -/
namespace Rpwa.Lik

/-- a real component of a production amplitude: slot and `true` for the real, `false` for the imaginary part. -/
abbrev Comp := Slot × Bool

/-- the components that are free by the rank condition. -/
def Free (rank : ℕ) (nW : ℕ → ℕ) (c : Comp) : Prop :=
  c.1.1 < rank ∧ c.1.2.1 < 2 ∧ c.1.2.2 < nW c.1.2.1 ∧ c.1.1 ≤ c.1.2.2 ∧ (c.2 = false → c.1.1 < c.1.2.2)

/-- value of a component. -/
def part (z : ℂ) (re : Bool) : ℝ := if re then z.re else z.im

/-- production amplitudes that obey the rank condition (and vanish outside the array). -/
def RankCondition (rank : ℕ) (nW : ℕ → ℕ) (a : Amps) : Prop :=
  ∀ s b, ¬ Free rank nW (s, b) → part (a s) b = 0

end Rpwa.Lik
