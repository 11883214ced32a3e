import Verif.Model.CgBox
import Verif.Spec.Clebsch
/-!
# Specification for the tables of Clebsch-Gordan coefficients
-/
namespace Rpwa.CgBox.Spec
open Fraction Clebsch

/-- `|J1 - J2| ≤ J ≤ J1 + J2` -/
def Triangle (J J1 J2 : ℤ) : Prop := J1 - J2 ≤ J ∧ J2 - J1 ≤ J ∧ J ≤ J1 + J2

/-- the coefficient `(J1 m1 J2 m2 | J m1+m2)` for integer spins -/
noncomputable def coefficient (J J1 m1 J2 m2 : ℤ) : ℝ := racah (2 * J1) (2 * m1) (2 * J2) (2 * m2) (2 * J) (2 * (m1 + m2))

/-- a table holds at the place of `(m1, m2)` the square of the coefficient with the sign of the coefficient -/
def Right (J J1 J2 : ℤ) (t : List Frac) : Prop :=
  (t.length : ℤ) = (2 * J1 + 1) * (2 * J2 + 1) ∧
  ∀ m1 m2 : ℤ, |m1| ≤ J1 → |m2| ≤ J2 → 0 ≤ cgIndex J1 m1 J2 m2 ∧
    ∃ f, t[(cgIndex J1 m1 J2 m2).toNat]? = some f ∧
      dval false f = coefficient J J1 m1 J2 m2 * |coefficient J J1 m1 J2 m2|

/-- a sequence of requests to an empty box: the box at the end and the tables that were handed out -/
noncomputable def requests : List (ℤ × ℤ × ℤ) → Outcome (Box × List (List Frac)) :=
  fun qs => qs.foldlM (fun s q => do
    let r ← getCG s.1 q.1 q.2.1 q.2.2
    return (r.1, s.2 ++ [r.2])) ([], [])

end Rpwa.CgBox.Spec
