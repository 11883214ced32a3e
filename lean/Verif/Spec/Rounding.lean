import Mathlib.Data.Real.Basic
import Mathlib.Algebra.Order.BigOperators.Group.List
/-!
# Specification of rounded arithmetic (C64)

The standard model of floating-point arithmetic: every sum and difference is rounded with a relative error of at most `u` (`2^-53` for `double`
with rounding to nearest; additions do not underflow).  Overflow is not modelled. -/
namespace Rpwa.Acc

/-- `fl` rounds with relative error at most `u`. -/
def Rounds (fl : ℝ → ℝ) (u : ℝ) : Prop := ∀ z, |fl z - z| ≤ u * |z|

/-- numbers whose sums and differences are rounded by `fl`. -/
def Fl (_fl : ℝ → ℝ) : Type := ℝ

/-- a number as an operand of rounded arithmetic. -/
def toFl (fl : ℝ → ℝ) (x : ℝ) : Fl fl := x

/-- value of a result. -/
def Fl.val {fl : ℝ → ℝ} (x : Fl fl) : ℝ := x

/-- sums are rounded. -/
instance (fl : ℝ → ℝ) : Add (Fl fl) := ⟨fun a b => toFl fl (fl (a.val + b.val))⟩
/-- differences are rounded. -/
instance (fl : ℝ → ℝ) : Sub (Fl fl) := ⟨fun a b => toFl fl (fl (a.val - b.val))⟩
instance (fl : ℝ → ℝ) : Zero (Fl fl) := ⟨toFl fl 0⟩

/-- sum of the absolute values. -/
noncomputable def absSum (xs : List ℝ) : ℝ := (xs.map fun x => |x|).sum

end Rpwa.Acc
