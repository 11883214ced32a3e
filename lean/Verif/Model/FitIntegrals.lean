import Verif.Model.FitResult
import Verif.Model.IntegralMatrix
/-!
# Taking integral matrices out of fit results and putting them back

Models the loops over the tree of `partialWaveFit/addIntegralsToFitResult.cc` and `partialWaveFit/stripIntegralsFromFitResult.cc`.
A tree of fit results is the list of its entries.  Simplifications: command line, opening files and reading the integral matrices
(l.50-81) are not modelled; `double` is `ℝ` (division by 0 gives 0 and the root of a negative number is 0, where C++ gives `inf` or
NaN: the theorems exclude these cases); `unsigned` is `ℕ` but for the wrap-around of `nmbWaves - 1`; a tree that is not written
because of `return 1` is `none`. -/
namespace Rpwa.FitInts

open Rpwa.Fit Rpwa.Integral

/-- `for (i = 0; i < n; ++i)` whose body may `return` from `main` (`none`). -/
def forReturn {σ : Type} : ℕ → σ → (ℕ → σ → Outcome (Option σ)) → Outcome (Option σ)
  | 0, s, _ => .ok (some s)
  | n + 1, s, f => forReturn n s f >>= fun o => match o with
    | some s => f n s
    | none => .ok none

/-- `complexMatrix::set(i, j, z)`; all indices used here are inside of the matrix. -/
def setAt (m : Mat ℂ) (i j : ℕ) (z : ℂ) : Mat ℂ := ⟨m.nRows, m.nCols, fun a b => if a = i ∧ b = j then z else m.entry a b⟩

/-- `complexMatrix(n, n)`. -/
def zeros (n : ℕ) : Mat ℂ := ⟨n, n, fun _ _ => 0⟩

/-- `for (i = 0; i < n; ++i)` without abnormal endings. -/
def forPure {σ : Type} : ℕ → σ → (ℕ → σ → σ) → σ
  | 0, s, _ => s
  | n + 1, s, f => f n (forPure n s f)

/-- addIntegralsToFitResult.cc:208-210. -/
def hasIntegrals (r : FitResult) : Bool :=
  decide (r.normIntegral.nCols ≠ 0 ∨ r.normIntegral.nRows ≠ 0 ∨ r.accNormIntegral.nCols ≠ 0 ∨ r.accNormIntegral.nRows ≠ 0) || !r.phaseSpaceIntegral.isEmpty

/-- addIntegralsToFitResult.cc:233-246: one pair of waves. -/
noncomputable def copyElement (norm acc : IntMat) (r : FitResult) (wi : Name) (i j : ℕ) (s : Mat ℂ × Mat ℂ) : Outcome (Option (Mat ℂ × Mat ℂ)) := do
  let wj ← r.waveName j
  if wj = "flat".toList then .ok none
  else do
    let ei ← getReflectivity wi
    let ej ← getReflectivity wj
    if ei = ej then do
      let z ← norm.elementByName (String.ofList wi) (String.ofList wj)
      let w ← acc.elementByName (String.ofList wi) (String.ofList wj)
      .ok (some (setAt s.1 i j z, setAt s.2 i j w))
    else .ok (some (setAt s.1 i j 0, setAt s.2 i j 0))

/-- addIntegralsToFitResult.cc:227-247: the integrals of all pairs of waves but the last wave; `n1` is `nmbWaves - 1`. -/
noncomputable def copyLoop (norm acc : IntMat) (r : FitResult) (n1 : ℕ) (s : Mat ℂ × Mat ℂ) : Outcome (Option (Mat ℂ × Mat ℂ)) :=
  forReturn n1 s fun i s => do
    let wi ← r.waveName i
    if wi = "flat".toList then .ok none
    else forReturn n1 s (copyElement norm acc r wi i)

/-- addIntegralsToFitResult.cc:248-251: `phaseSpaceIntegral`, which starts as zeros. -/
noncomputable def phaseSpace (N : Mat ℂ) (n1 : ℕ) (ps : List ℝ) : List ℝ :=
  (forPure n1 ps fun i ps => ps.set i (Real.sqrt (N.entry i i).re)).set n1 1

/-- addIntegralsToFitResult.cc:254-259: one pair of waves. -/
noncomputable def rescaleAt (ps : List ℝ) (i j : ℕ) (s : Mat ℂ × Mat ℂ) : Mat ℂ × Mat ℂ :=
  let d : ℂ := ((ps.getD i 0 * ps.getD j 0 : ℝ) : ℂ)
  let N := if i = j then setAt s.1 i j 1 else setAt s.1 i j (s.1.entry i j / d)
  (N, setAt s.2 i j (s.2.entry i j / d))

/-- addIntegralsToFitResult.cc:262-267: the row and the column of the last wave; the matrix has `n` columns. -/
def clearLast (n : ℕ) (M : Mat ℂ) : Mat ℂ :=
  forPure n M fun i M => setAt (setAt M (n - 1) i 0) i (n - 1) 0

/-- addIntegralsToFitResult.cc:184-291: one entry; the result and the acceptance integral, whose number of events is overwritten (l.226). -/
noncomputable def addEntry (norm acc : IntMat) (force : Bool) (r : FitResult) : Outcome (Option (FitResult × IntMat)) :=
  if hasIntegrals r && !force then .ok none
  else do
    let n := r.waveNames.length
    let n1 := if n = 0 then 2 ^ 32 - 1 else n - 1
    let totalAcceptance : ℝ := (acc.nmbEvents : ℝ) / (norm.nmbEvents : ℝ)
    let acc' := { acc with nmbEvents := norm.nmbEvents }
    let st ← copyLoop norm acc' r n1 (zeros n, zeros n)
    match st with
    | none => .ok none
    | some s =>
      let ps := phaseSpace s.1 n1 (List.replicate n 0)
      let s := forPure n1 s fun i s => forPure n1 s fun j s => rescaleAt ps i j s
      let N := setAt (clearLast n s.1) n1 n1 1
      let A := setAt (clearLast n s.2) n1 n1 (totalAcceptance : ℂ)
      .ok (some (FitResult.new.fillA
        { nmbEvents := r.nmbEvents
          normNmbEvents := r.normNmbEvents
          multibin := r.multibin
          logLikelihood := r.logLikelihood
          rank := r.rank
          nmbProdAmps := r.nmbProdAmps
          prodAmps := r.prodAmps
          prodAmpNames := r.prodAmpNames
          cov := some r.cov
          nmbCovIdx := r.nmbCovIdx
          covIdx := r.covIdx
          normIntegral := some N
          accNormIntegral := some A
          phaseSpaceIntegral := some ps
          converged := r.converged
          hasHessian := r.hasHessian }, acc'))

/-- addIntegralsToFitResult.cc:184-296: the entries of the tree of the output file (`none`: `return 1`, no tree is written). -/
noncomputable def addMain (norm : IntMat) (force : Bool) : IntMat → List FitResult → Outcome (Option (List FitResult))
  | _, [] => .ok (some [])
  | acc, r :: rs => do
    let o ← addEntry norm acc force r
    match o with
    | none => .ok none
    | some (r', acc') => do
      let rest ← addMain norm force acc' rs
      .ok (rest.map (r' :: ·))

/-- stripIntegralsFromFitResult.cc:137-150. -/
noncomputable def stripMain (stripCov : Bool) (rs : List FitResult) : List FitResult :=
  rs.map fun r => FitResult.new.fillFrom r (!stripCov) false

end Rpwa.FitInts
