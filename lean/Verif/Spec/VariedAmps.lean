import Verif.Model.VariedAmps
import Verif.Spec.FitResult
import Mathlib.MeasureTheory.Integral.Bochner.Basic
/-!
# Specification of the random variation of production amplitudes (C66) -/
namespace Rpwa.Fit

open Finset MeasureTheory

/-- what ROOT documents: `C = Uᵀ U` with `U` upper triangular with positive diagonal, for a symmetric positive-definite matrix. -/
structure IsCholesky (n : ℕ) (C U : ℕ → ℕ → ℝ) : Prop where
  hupper : ∀ i < n, ∀ j < i, U i j = 0
  hpos : ∀ i < n, 0 < U i i
  hprod : ∀ i < n, ∀ j < n, ∑ k ∈ range n, U k i * U k j = C i j

/-- uncorrelated random numbers with mean 0 and variance 1. -/
structure Standard {Ω : Type*} [MeasurableSpace Ω] (μ : Measure Ω) (n : ℕ) (X : Ω → ℕ → ℝ) : Prop where
  hint : ∀ i < n, Integrable (fun ω => X ω i) μ
  hmean : ∀ i < n, ∫ ω, X ω i ∂μ = 0
  hint2 : ∀ i < n, ∀ j < n, Integrable (fun ω => X ω i * X ω j) μ
  hcov : ∀ i < n, ∀ j < n, ∫ ω, X ω i * X ω j ∂μ = if i = j then 1 else 0

/-- real (`b = 0`) or imaginary (`b = 1`) part. -/
def part (z : ℂ) (b : ℕ) : ℝ := if b = 0 then z.re else z.im

/-- parameter number of a component, negative if it is not a parameter. -/
def parOf (r : FitResult) (p b : ℕ) : ℤ := if b = 0 then (r.covIdx p).1 else (r.covIdx p).2

/-- the parameter numbers are rows of the covariance matrix, and there is a pair for every amplitude. -/
structure GoodIndices (r : FitResult) : Prop where
  hcount : r.nmbProdAmps ≤ r.nmbCovIdx
  hsquare : r.cov.nCols = r.cov.nRows
  hrange : ∀ p < r.nmbProdAmps, ∀ b < 2, parOf r p b < r.cov.nRows
  /-- every row is the parameter of some component. -/
  hall : ∀ j < r.cov.nRows, ∃ p < r.nmbProdAmps, ∃ b < 2, parOf r p b = j

end Rpwa.Fit
