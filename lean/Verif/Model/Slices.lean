import Verif.Model.Refit
/-!
# eigenvectorLikelihoodSlices.py: the likelihood along the eigenvectors of the covariance matrix of a stored fit

Simplifications: opening files, options of the command line and the drawing are not modelled (as in `Model/Refit.lean`), the result is the list of
what is drawn; the number in the text of a formula is the number, not its 16 digits; reading a covariance matrix outside of its rows and columns,
for which ROOT reports an error and gives NaN, is `ub`; `double` is `ℝ`. -/
namespace Rpwa.Refit

open Rpwa.Lik Rpwa.Fit Rpwa.PwaFit

/-- what is drawn for one eigenvector: the points of the graph, and the eigenvalues in the formulas of the parabolas `0.5 / λ * x*x`. -/
structure Drawn where
  points : List (ℝ × ℝ)
  minuit : ℝ
  analytic : Option ℝ

open Classical in
/-- `math.sqrt`; `ValueError` for negative numbers. -/
noncomputable def pySqrt (x : ℝ) : Outcome ℝ := if x < 0 then .terminate else .ok (Real.sqrt x)

/-- pwaLikelihood.cc:864-913 `HessianEigenVectors` for the matrix of a fit result. -/
noncomputable def eigenVectorsOf (eig : ℕ → (ℕ → ℕ → ℝ) → ℕ → (ℕ → ℝ) × ℝ) (s : LikObj) (cov : Mat ℝ) : Outcome (List ((ℕ → ℝ) × ℝ)) :=
  if s.pars.nmbPars ≤ cov.nRows ∧ s.pars.nmbPars ≤ cov.nCols then hessianEigenVectors eig s.pars cov.entry else .ub

/-- eigenvectorLikelihoodSlices.py:148-155: the points `p` of the graph for one eigenvector. -/
noncomputable def graphLikeli (s : LikObj) (minimum : List ℝ) (minimumLikelihood : ℝ) (ev : (ℕ → ℝ) × ℝ) : List ℤ → Outcome (List (ℝ × ℝ))
  | [] => .ok []
  | p :: ps => do
    let sq ← pySqrt ev.2
    let ratio := ((p : ℝ) / 50) * sq
    let y ← s.doEval fun i => minimum.getD i 0 + ev.1 i * ratio
    let rest ← graphLikeli s minimum minimumLikelihood ev ps
    .ok ((ratio, y - minimumLikelihood) :: rest)

/-- `xrange(-50, 51)`. -/
def steps : List ℤ := (List.range 101).map fun n : ℕ => (n : ℤ) - 50

/-- eigenvectorLikelihoodSlices.py:119-164: the loop over the eigenvectors; `ana` are the analytic ones (`none` with option `-s`),
`eigenVectorsAna[par]` beyond the end is an `IndexError`. -/
noncomputable def sliceLoop (s : LikObj) (minimum : List ℝ) (minimumLikelihood : ℝ) :
    List ((ℕ → ℝ) × ℝ) → Option (List ((ℕ → ℝ) × ℝ)) → Outcome (List Drawn)
  | [], _ => .ok []
  | ev :: evs, ana => do
    let g ← graphLikeli s minimum minimumLikelihood ev steps
    let _limit ← pySqrt ev.2
    match ana with
    | none => do
      let rest ← sliceLoop s minimum minimumLikelihood evs none
      .ok (⟨g, ev.2, none⟩ :: rest)
    | some [] => .terminate
    | some (a :: as) => do
      let rest ← sliceLoop s minimum minimumLikelihood evs (some as)
      .ok (⟨g, ev.2, some a.2⟩ :: rest)

/-- eigenvectorLikelihoodSlices.py:104-111: the eigenvectors of the analytic covariance matrix. -/
noncomputable def analyticVectors (inv : ℕ → (ℕ → ℕ → ℝ) → (ℕ → ℕ → ℝ)) (eig : ℕ → (ℕ → ℕ → ℝ) → ℕ → (ℕ → ℝ) × ℝ) (s : LikObj)
    (minimum : List ℝ) : Outcome (List ((ℕ → ℝ) × ℝ)) := do
  let c ← covarianceMatrix inv s.pars (s.data.hessian s.pars fun i => minimum.getD i 0)
  hessianEigenVectors eig s.pars c

/-- eigenvectorLikelihoodSlices.py:71-185; `ranWithHesse` is option `-s`; `none`: the script gives up. -/
noncomputable def likelihoodSlices (inv : ℕ → (ℕ → ℕ → ℝ) → (ℕ → ℕ → ℝ)) (eig : ℕ → (ℕ → ℕ → ℝ) → ℕ → (ℕ → ℝ) × ℝ) (f : Files)
    (desc : Name → Option ℤ) (ranWithHesse : Bool) (entries : List FitResult) : Outcome (Option (List Drawn)) :=
  match getFitResultFromFile entries with
  | none => .ok none
  | some r => do
    let l ← rebuild f desc r
    match l with
    | none => .ok none
    | some s => do
      let minimum := parsFor s r
      let v0 ← s.doEval fun i => minimum.getD i 0
      let evs ← eigenVectorsOf eig s r.cov
      if ranWithHesse then do
        let d ← sliceLoop s minimum v0 evs none
        .ok (some d)
      else do
        let ana ← analyticVectors inv eig s minimum
        if evs.length ≠ ana.length then .ok none
        else do
          let d ← sliceLoop s minimum v0 evs (some ana)
          .ok (some d)

end Rpwa.Refit
