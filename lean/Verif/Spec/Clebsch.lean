import Mathlib.Analysis.Real.Sqrt
import Mathlib.Data.Nat.Factorial.Basic
import Mathlib.Algebra.BigOperators.Group.Finset.Basic
/-!
# Specification of Clebsch-Gordan coefficients (independent of the code)

Racah's closed formula (the textbook form with a single alternating sum), for angular momenta given as
`2j`, `2m`. The code uses Wigner's older formula, a different sum.
-/
namespace Rpwa.Clebsch
open Finset

/-- `m` is one of the `2j+1` projections of `j` (doubled units). -/
def Proj (j m : ℤ) : Prop := ∃ k : ℕ, m = -j + 2 * k ∧ (k : ℤ) ≤ j

/-- All selection rules for `(j1 m1 j2 m2 | J M)` (doubled units). -/
def Selected (j1 m1 j2 m2 J M : ℤ) : Prop :=
  Proj j1 m1 ∧ Proj j2 m2 ∧ Proj J M ∧ m1 + m2 = M ∧
  j1 - j2 ≤ J ∧ j2 - j1 ≤ J ∧ J ≤ j1 + j2 ∧ ∃ k, j1 + j2 = J + 2 * k

/-- `(n/2)!` of a doubled, non-negative argument. -/
noncomputable def hfac (n : ℤ) : ℝ := ((n / 2).toNat.factorial : ℝ)

/-- `1/(n/2 + k)!` of a doubled argument plus `k`, with the usual convention that the inverse
factorial of a negative number is zero. -/
noncomputable def rfac (n : ℤ) (k : ℤ) : ℝ :=
  if n / 2 + k < 0 then 0 else 1 / ((n / 2 + k).toNat.factorial : ℝ)

/-- Racah's formula for `(j1 m1 j2 m2 | J M)`; zero if a selection rule is violated. -/
noncomputable def racah (j1 m1 j2 m2 J M : ℤ) : ℝ :=
  open Classical in
  if Selected j1 m1 j2 m2 J M then
    Real.sqrt ((J + 1) * hfac (J + j1 - j2) * hfac (J - j1 + j2) * hfac (j1 + j2 - J)
        / hfac (j1 + j2 + J + 2)) *
    Real.sqrt (hfac (J + M) * hfac (J - M) * hfac (j1 - m1) * hfac (j1 + m1)
        * hfac (j2 - m2) * hfac (j2 + m2)) *
    ∑ k ∈ range ((j1 + j2 - J).toNat / 2 + 1),
      (-1) ^ k * (rfac 0 k * rfac (j1 + j2 - J) (-k) * rfac (j1 - m1) (-k) * rfac (j2 + m2) (-k)
        * rfac (J - j2 + m1) k * rfac (J - j1 - m2) k)
  else 0

end Rpwa.Clebsch
