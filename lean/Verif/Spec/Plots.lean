import Verif.Model.Plots
/-! # Specification of the graphs of a resonance fit (C99) -/
namespace Rpwa.Plots

variable {K : Type} [Field K] [LinearOrder K]

/-- a fit in the mass bin `m` has a result for the wave `w`: something is different from zero. -/
def HasResult (e : Elems K) (nWaves m w : ℕ) : Prop :=
  e.int m w ≠ (0, 0) ∨ ∃ j < nWaves, e.re m w j ≠ (0, 0) ∨ e.im m w j ≠ (0, 0) ∨ e.ph m w j ≠ (0, 0)

/-- `g` has one point for each mass bin with the property `P`, in order. -/
structure ShowsBins (n : ℕ) (P : ℕ → Prop) (pt : ℕ → Pt K) (g : Graph K) : Prop where
  ex : ∃ l : List ℕ, l.Pairwise (· < ·) ∧ (∀ m, m ∈ l ↔ m < n ∧ P m) ∧ g = l.map pt

/-- `g` is the curve `f` from point `first` to `last`, `eb` points for a mass bin. -/
structure IsCurve (b : Bin K) (eb first last : ℕ) (f : ℕ → K) (g : Graph K) : Prop where
  length : g.length = last + 1 - first
  point : ∀ p, first ≤ p → p ≤ last → (g[p - first]?).map (fun q => (q.x, q.y)) = some (gridMass b eb p, f p)

/-- `v` differs from `w` by whole turns. -/
def SameAngle (v w : K) : Prop := ∃ k : ℤ, v = w + k * 360

/-- `v` shifted by at most five turns as close as possible to `ref`. -/
structure Nearest (v ref r : K) : Prop where
  turns : ∃ k : ℤ, -5 ≤ k ∧ k ≤ 5 ∧ r = v + k * 360
  best : ∀ k : ℤ, -5 ≤ k → k ≤ 5 → |r - ref| ≤ |v + k * 360 - ref|

end Rpwa.Plots
