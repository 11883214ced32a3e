import Mathlib.Analysis.SpecialFunctions.Trigonometric.Basic
import Mathlib.Analysis.Real.Sqrt
/-!
# Specification of the Wigner d-function

Wigner's formula in its textbook form (all quantum numbers doubled):
`d^j_{m n}(θ) = √((j+m)!(j-m)!(j+n)!(j-n)!) Σ_s (-1)^{m-n+s} cos(θ/2)^{2j+n-m-2s} sin(θ/2)^{m-n+2s}
  / ((j+n-s)! s! (m-n+s)! (j-m-s)!)`,
the sum running over all `s` for which no factorial has a negative argument.
-/
namespace Rpwa.DFunction
open Finset

/-- `m` is a projection of `j` (doubled units). -/
def Proj (j m : ℤ) : Prop := ∃ k : ℕ, m = -j + 2 * k ∧ (k : ℤ) ≤ j

noncomputable def fac (n : ℤ) : ℝ := (n.toNat.factorial : ℝ)

/-- `1/n!`, zero for negative `n`. -/
noncomputable def rfac (n : ℤ) : ℝ := if n < 0 then 0 else 1 / fac n

noncomputable def wignerD (j m n : ℤ) (θ : ℝ) : ℝ :=
  Real.sqrt (fac ((j + m) / 2) * fac ((j - m) / 2) * fac ((j + n) / 2) * fac ((j - n) / 2)) *
  ∑ s ∈ range (j.toNat + 1),
    (-1) ^ ((m - n) / 2 + s) * Real.cos (θ / 2) ^ (j + (n - m) / 2 - 2 * s)
      * Real.sin (θ / 2) ^ ((m - n) / 2 + 2 * s)
      * (rfac ((j + n) / 2 - s) * rfac s * rfac ((m - n) / 2 + s) * rfac ((j - m) / 2 - s))

end Rpwa.DFunction
