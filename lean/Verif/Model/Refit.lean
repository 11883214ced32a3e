import Verif.Model.FitAttempts
import Verif.Model.LikSetup
/-!
# pyInterface: a likelihood is set up again from a stored fit result

Models `getFitResultFromFile`, `getWaveDescThresFromFitResult`, `initLikelihood` and the scripts likelihoodPointCalculator.py and
calcCovMatrixForFitResult.py.  Simplifications: reading a fit result from a tree gives the object that was written; opening files is not
modelled, the matrices and amplitudes in them are parameters (`Files`); a wave description is the reflectivity of its topology, a missing
key (`KeyError`) is `terminate`; the result of the second script is the object that it writes; `double` is `ℝ`. -/
namespace Rpwa.Refit

open Rpwa.Lik Rpwa.Fit Rpwa.PwaFit Rpwa.Integral

/-- _fitTreeUtils.py:9-38 `getFitResultFromFile` for a file with this tree: exactly one entry, which has converged. -/
def getFitResultFromFile (entries : List FitResult) : Option FitResult :=
  match entries with
  | [r] => if r.converged then some r else none
  | _ => none

open Classical in
/-- _waveDescThresUtils.py:12-16: the loop over the production amplitudes. -/
noncomputable def thresholded (r : FitResult) (wave : Name) : Bool :=
  (List.range r.nmbProdAmps).foldl (fun t i =>
    if waveNameOf (r.prodAmpNames.getD i []) = wave then if r.prodAmps i ≠ 0 then false else t else t) true

/-- _waveDescThresUtils.py:18-20. -/
noncomputable def threshold (r : FitResult) (wave : Name) : ℝ := if thresholded r wave then 1.1 * massBinCenter r else 0

/-- _waveDescThresUtils.py:6-22: the loop over the waves; `desc` are the wave descriptions. -/
noncomputable def thresLoop (desc : Name → Option ℤ) (r : FitResult) : List Name → Outcome (List (String × ℤ × ℝ))
  | [] => .ok []
  | w :: ws =>
    if w = "flat".toList then thresLoop desc r ws
    else match desc w with
      | none => .terminate
      | some refl => do
        let rest ← thresLoop desc r ws
        .ok ((String.ofList w, refl, threshold r w) :: rest)

/-- _waveDescThresUtils.py:4-23 `getWaveDescThresFromFitResult`. -/
noncomputable def getWaveDescThresFromFitResult (desc : Name → Option ℤ) (r : FitResult) : Outcome (List (String × ℤ × ℝ)) :=
  thresLoop desc r r.waveNames

/-- what the files contain, and the options that are given to the scripts again. -/
structure Files where
  norm : IntMat
  acc : IntMat
  accEventsOverride : ℕ
  amps : String → List ℂ
  prior : Prior
  cauchyWidth : ℝ

/-- calls that are stopped by the first failure (`return None`); `none` in this case. -/
noncomputable def runCalls (s : LikObj) : List SetupCall → Outcome (Option LikObj)
  | [] => .ok (some s)
  | c :: cs => do
    let r ← s.step c
    if r.1 then runCalls r.2 cs else .ok none

/-- _likelihood.py:4-70 `initLikelihood`; prior type and width are always set (the code leaves the default, a flat prior, which does not
use the width). -/
noncomputable def initLikelihood (f : Files) (ws : List (String × ℤ × ℝ)) (massBinCenter : ℝ) (useNormalizedAmps : Bool) (rank : ℕ) :
    Outcome (Option LikObj) :=
  runCalls LikObj.new ([.useNormalizedAmps useNormalizedAmps, .setPriorType f.prior, .setCauchyWidth f.cauchyWidth, .init ws rank massBinCenter,
      .addNormIntegral f.norm, .addAccIntegral f.acc f.accEventsOverride] ++
    ws.map (fun w => .addAmplitude w.1 (f.amps w.1)) ++ [.finishInit])

/-- likelihoodPointCalculator.py:73-92, calcCovMatrixForFitResult.py:74-93: the likelihood of a fit result. -/
noncomputable def rebuild (f : Files) (desc : Name → Option ℤ) (r : FitResult) : Outcome (Option LikObj) := do
  let ws ← getWaveDescThresFromFitResult desc r
  if ws.isEmpty then .ok none
  else initLikelihood f ws (massBinCenter r) (decide (r.normNmbEvents = 1)) r.rank.toNat

/-- the parameters of a likelihood that a result has: likelihoodPointCalculator.py:94-96. -/
noncomputable def parsFor (s : LikObj) (r : FitResult) : List ℝ := s.pars.params.map fun p => fitParameter r p.parName.toList

/-- likelihoodPointCalculator.py:66-98: the number that is printed; `none`: the script gives up. -/
noncomputable def likelihoodPoint (f : Files) (desc : Name → Option ℤ) (entries : List FitResult) : Outcome (Option ℝ) :=
  match getFitResultFromFile entries with
  | none => .ok none
  | some r => do
    let l ← rebuild f desc r
    match l with
    | none => .ok none
    | some s => do
      let v ← s.doEval fun i => (parsFor s r).getD i 0
      .ok (some v)

/-- a likelihood as the functions of `Model/PwaFit` see it. -/
noncomputable def likOf (s : LikObj) (thr : ℕ → ℕ → ℝ) : Lik :=
  ⟨s.data, ⟨s.nW, fun e w => s.name (e, w), thr⟩, s.pars, ⟨s.ints, s.phaseSpace, s.totAcc⟩⟩

/-- calcCovMatrixForFitResult.py:67-95: the result that is written; `addCovarianceMatrix` is `addMatrices` without integrals
(_fit.py:177-182). -/
noncomputable def calcCov (inv : ℕ → (ℕ → ℕ → ℝ) → (ℕ → ℕ → ℝ)) (eig : ℕ → (ℕ → ℕ → ℝ) → ℕ → (ℕ → ℝ) × ℝ) (f : Files)
    (desc : Name → Option ℤ) (entries : List FitResult) : Outcome (Option FitResult) :=
  match getFitResultFromFile entries with
  | none => .ok none
  | some r => do
    let l ← rebuild f desc r
    match l with
    | none => .ok none
    | some s => do
      let r' ← Attempts.addMatrices inv eig (likOf s fun _ _ => 0) none r
      .ok (some r')

end Rpwa.Refit
