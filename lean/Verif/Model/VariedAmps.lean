import Verif.Model.FitResult
/-!
# Random variation of production amplitudes

Models `fitResult::variedProdAmps` (fitResult.cc:117-158), used for the further samples of `weightEvents` (weightEvents.cc:330-337).
The random numbers are an argument; ROOT's Cholesky decomposition is a parameter (`TDecompChol::GetU`); element access outside a ROOT matrix (an
error message and NaN, or undefined) is `ub`. -/
namespace Rpwa.Fit

namespace FitResult

/-- fitResult.cc:137: `y = U x`. -/
noncomputable def shift (U : ℕ → ℕ → ℝ) (npar : ℕ) (x : ℕ → ℝ) (j : ℕ) : ℝ := ∑ k ∈ Finset.range npar, U j k * x k

/-- fitResult.cc:147-150: `if (j > -1) v += y(j, 0)`. -/
noncomputable def shifted (y : ℕ → ℝ) (npar : ℕ) (v : ℝ) (j : ℤ) : Outcome ℝ :=
  if -1 < j then if j < npar then .ok (v + y j.toNat) else .ub else .ok v

/-- body of the loop fitResult.cc:142-155. -/
noncomputable def variedAmp (r : FitResult) (y : ℕ → ℝ) (npar : ℕ) (it : ℕ) : Outcome ℂ :=
  if r.nmbCovIdx ≤ it then .ub
  else do
    let re ← shifted y npar (r.prodAmps it).re (r.covIdx it).1
    let im ← shifted y npar (r.prodAmps it).im (r.covIdx it).2
    .ok ⟨re, im⟩

/-- fitResult.cc:117-158; `x` are the random numbers of l.131-132. -/
noncomputable def variedProdAmps (decomp : Mat ℝ → ℕ → ℕ → ℝ) (r : FitResult) (x : ℕ → ℝ) : Outcome FitResult := do
  let npar := r.cov.nRows
  let amps ← (List.range r.nmbProdAmps).mapM (r.variedAmp (shift (decomp r.cov) npar x) npar)
  .ok { r with prodAmps := fun k => amps.getD k (r.prodAmps k) }

end FitResult

end Rpwa.Fit
