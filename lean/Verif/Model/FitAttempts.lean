import Verif.Model.PwaFit
/-!
# pyInterface/module/_fit.py: several attempts of one fit

Models `_pwaFit` and `_addMatrices`, and `fitResult::fill` with replaced matrices (fitResult.cc:398-424).  Simplifications: reading the
wave list and setting up the likelihood (l.110-128) are not modelled, the likelihood is a parameter (`none`: it could not be set up);
the random numbers of Python after `random.seed(seed)` are the sequence `rand`; a fit is a function of its number and its seed
(`Model/PwaFit` has the two fit functions); log-likelihoods are real numbers, no NaN; printing is omitted; `IndexError` is `terminate`;
xrange over a negative number of attempts is as over 0. -/
namespace Rpwa.Attempts

open Rpwa.Lik Rpwa.Fit Rpwa.PwaFit

/-- _fit.py:138-143: one new seed; `k` numbers have been drawn so far.  `none`: more than `fuel` numbers are drawn. -/
def newSeed (rand : ℕ → ℕ) (seeds : List ℕ) : ℕ → ℕ → Option (ℕ × ℕ)
  | 0, _ => none
  | fuel + 1, k => if rand k ∈ seeds then newSeed rand seeds fuel (k + 1) else some (rand k, k + 1)

/-- _fit.py:137-143: the loop over the attempts; the result is the list of seeds and the number of random numbers drawn. -/
def drawSeeds (rand : ℕ → ℕ) (fuel : ℕ) : ℕ → Option (List ℕ × ℕ)
  | 0 => some ([], 0)
  | n + 1 => do
    let (seeds, k) ← drawSeeds rand fuel n
    let (s, k) ← newSeed rand seeds fuel k
    some (seeds ++ [s], k)

/-- _fit.py:130-143: the seeds; `none`: not found with `fuel` random numbers per seed. -/
def seedsOf (rand : ℕ → ℕ) (fuel seed attempts : ℕ) : Option (List ℕ) :=
  if attempts = 1 then some [seed]
  else if seed = 0 then some (List.replicate attempts 0)
  else (drawSeeds rand fuel attempts).map (·.1)

/-- the local variables of the loop, _fit.py:145-149; `none` is `np.inf`. -/
structure Best where
  results : List FitResult
  iBest : ℤ
  iBestValid : ℤ
  best : Option ℝ
  bestValid : Option ℝ

def Best.start : Best := ⟨[], -1, -1, none, none⟩

open Classical in
/-- `x < y` where `y` may be infinite. -/
noncomputable def below (x : ℝ) : Option ℝ → Bool
  | none => true
  | some y => decide (x < y)

/-- _fit.py:158-165: after one fit. -/
noncomputable def Best.add (b : Best) (r : FitResult) : Best :=
  let results := b.results ++ [r]
  let i : ℤ := (results.length : ℤ) - 1
  let (best, iBest) := if below r.logLikelihood b.best then (some r.logLikelihood, i) else (b.best, b.iBest)
  let (bestValid, iBestValid) :=
    if r.converged && below r.logLikelihood b.bestValid then (some r.logLikelihood, i) else (b.bestValid, b.iBestValid)
  ⟨results, iBest, iBestValid, best, bestValid⟩

/-- _fit.py:150-165. -/
noncomputable def runFits (fit : ℕ → ℕ → Outcome FitResult) (seeds : List ℕ) : Outcome Best :=
  seeds.zipIdx.foldlM (fun b sk => do
    let r ← fit sk.2 sk.1
    .ok (b.add r)) Best.start

/-- the position of `l[i]` in Python: negative indices count from the end; `none` is `IndexError`. -/
def pyIndex (n : ℕ) (i : ℤ) : Option ℕ :=
  if 0 ≤ i ∧ i < n then some i.toNat else if i < 0 ∧ -(n : ℤ) ≤ i then some (n + i).toNat else none

/-- fitResult.cc:398-424 `fill(result, cov, nullptr, norm, acc, phaseSpace)` on an object `r`, all matrices given. -/
noncomputable def fillWith (r s : FitResult) (cov : Mat ℝ) (norm acc : Mat ℂ) (ps : List ℝ) : FitResult :=
  r.fillA { nmbEvents := s.nmbEvents
            normNmbEvents := s.normNmbEvents
            multibin := s.multibin
            logLikelihood := s.logLikelihood
            rank := s.rank
            nmbProdAmps := s.nmbProdAmps
            prodAmps := s.prodAmps
            prodAmpNames := s.prodAmpNames
            cov := some cov
            nmbCovIdx := s.nmbCovIdx
            covIdx := s.covIdx
            normIntegral := some norm
            accNormIntegral := some acc
            phaseSpaceIntegral := some ps
            converged := s.converged
            hasHessian := s.hasHessian }

/-- the integrals handed to `_addMatrices`. -/
structure Integrals where
  norm : Mat ℂ
  acc : Mat ℂ
  ps : List ℝ

/-- `likelihood.integralMatrices(True)`, pwaLikelihood_py.cc:227-238, pwaLikelihood.cc:1579-1618. -/
noncomputable def integralMatrices (l : Lik) : Integrals :=
  ⟨integralMatrix l.waves.nW l.ints.ints.norm 1, integralMatrix l.waves.nW l.ints.ints.acc l.ints.totAcc,
    (waveIxs l.waves.nW).map l.ints.phaseSpace ++ [1]⟩

/-- _fit.py:192-194: the parameters of the likelihood as the result has them. -/
noncomputable def parsOf (l : Lik) (r : FitResult) : List ℝ := l.pars.params.map fun p => fitParameter r p.parName.toList

/-- _fit.py:187-230 `_addMatrices`; no integrals: those of the result.  The eigenvectors are only printed, but calculating them may fail. -/
noncomputable def addMatrices (inv : ℕ → (ℕ → ℕ → ℝ) → (ℕ → ℕ → ℝ)) (eig : ℕ → (ℕ → ℕ → ℝ) → ℕ → (ℕ → ℝ) × ℝ) (l : Lik)
    (ints : Option Integrals) (r : FitResult) : Outcome FitResult := do
  let pars : ℕ → ℝ := fun i => (parsOf l r).getD i 0
  let hessian := l.fn.hessian l.pars pars
  let _ ← hessianEigenVectors eig l.pars hessian
  let cov ← covarianceMatrix inv l.pars hessian
  let m := ints.getD ⟨r.normIntegral, r.accNormIntegral, r.phaseSpaceIntegral⟩
  .ok (fillWith FitResult.new r ⟨l.pars.nmbPars, l.pars.nmbPars, cov⟩ m.norm m.acc m.ps)

/-- `fitResults[i] = _addMatrices(fitResults[i], ...)`. -/
noncomputable def upgrade (add : FitResult → Outcome FitResult) (rs : List FitResult) (i : ℤ) : Outcome (List FitResult) :=
  match pyIndex rs.length i with
  | none => .terminate
  | some k => match rs[k]? with
    | none => .terminate
    | some r => do
      let r' ← add r
      .ok (rs.set k r')

/-- _fit.py:145-174: all fits; `keep` is `keepMatricesOnlyOfBest`. -/
noncomputable def fitAll (add : FitResult → Outcome FitResult) (fit : ℕ → ℕ → Outcome FitResult) (keep : Bool) (seeds : List ℕ) :
    Outcome (List FitResult) := do
  let b ← runFits fit seeds
  if keep then do
    let rs ← upgrade add b.results b.iBestValid
    if b.iBest ≠ b.iBestValid then upgrade add rs b.iBest else .ok rs
  else .ok b.results

/-- _fit.py:106-107, 126-174 `_pwaFit`; `fit l o k seed` is the fit function. -/
noncomputable def pwaFits (inv : ℕ → (ℕ → ℕ → ℝ) → (ℕ → ℕ → ℝ)) (eig : ℕ → (ℕ → ℕ → ℝ) → ℕ → (ℕ → ℝ) × ℝ) (likelihood : Option Lik)
    (fit : Lik → Options → ℕ → ℕ → Outcome FitResult) (o : Options) (keep : Bool) (seeds : List ℕ) : Outcome (List FitResult) :=
  let o := if keep then { o with saveSpace := true } else o
  match likelihood with
  | none => .ok []
  | some l => fitAll (addMatrices inv eig l (some (integralMatrices l))) (fit l o) keep seeds

end Rpwa.Attempts
