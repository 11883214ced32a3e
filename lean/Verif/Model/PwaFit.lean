import Verif.Model.LikTools
import Verif.Model.FitResult
/-!
# highLevelInterface/pwaFit.cc, pwaNloptFit.cc: one fit of the production amplitudes

Models the two fit functions, `fitResult::fitParameter` and `pwaLikelihood::getIntegralMatrices`.  Simplifications:
* `double` is `ℝ`, as in `Model/Likelihood`;
* the random number generator is the sequence of the numbers it returns for the given seed;
* Minuit2 and NLopt are parameters: functions of the start values (and of the likelihood function) that return a `MinResult`; what is
  assumed about them is in `Spec/PwaFit`; setting a variable never fails;
* ROOT's eigenvector routine and matrix inversion are parameters as in `Model/LikTools`;
* printing is omitted; an uncaught exception is `terminate`. -/
namespace Rpwa.PwaFit

open Rpwa.Lik Rpwa.Fit

/-! ### start values -/

/-- fitResult.cc:684-703 `fitParameter(name)`; 0 if there is no such amplitude.  `prodAmp(index)` exists for every index of a name. -/
noncomputable def fitParameter (r : FitResult) (parName : Name) : ℝ :=
  let realPart := hasSub "RE".toList parName || hasSub "flat".toList parName
  let name := if realPart then replaceAll "_RE".toList [] parName else replaceAll "_IM".toList [] parName
  match r.prodAmpIndex name with
  | some i => if realPart then (r.prodAmps i).re else (r.prodAmps i).im
  | none => 0

/-- fitResult.h:205 `massBinCenter()`: 0 if the bin has no mass (`operator[]` of a map). -/
noncomputable def massBinCenter (r : FitResult) : ℝ :=
  match r.multibin.lookup "mass".toList with
  | some b => (b.1 + b.2) / 2
  | none => 0

open Classical in
/-- pwaFit.cc:204-210: the loop over the entries of the tree; the state is `(bestIndex, bestMass)`. -/
noncomputable def bestStep (center : ℝ) (st : ℕ × ℝ) (e : FitResult × ℕ) : ℕ × ℝ :=
  if |center - massBinCenter e.1| ≤ |center - st.2| then (e.2, massBinCenter e.1) else st

/-- pwaFit.cc:202-211: the fit result that start values are taken from; an empty tree leaves the new object. -/
noncomputable def chooseStart (center : ℝ) (entries : List FitResult) : FitResult :=
  let best := entries.zipIdx.foldl (bestStep center) (0, 0)
  entries.getD best.1 FitResult.new

/-- a variable of the minimizer (`SetVariable`, `SetFixedVariable`). -/
structure Var where
  name : String
  value : ℝ
  fixed : Bool

/-- pwaFit.cc:243-246, 253-256: `±Uniform(0.01, sqrt(nmbEvents))`; `k` numbers have been used so far.  `TRandom::Uniform(a, b)` is
`a + (b - a) * Rndm()`. -/
noncomputable def randomStart (rnd : ℕ → ℝ) (sqrtN : ℝ) (k : ℕ) : ℝ :=
  let v := 0.01 + (sqrtN - 0.01) * rnd k
  if rnd (k + 1) > 0.5 then -v else v

open Classical in
/-- pwaFit.cc:234-266: one parameter; the state is the number of random numbers used and the variables set so far. -/
noncomputable def startStep (rnd : ℕ → ℝ) (sqrtN : ℝ) (start : Option FitResult) (st : ℕ × List Var) (p : FitPar) : ℕ × List Var :=
  let k := st.1
  let (v, k) := match start with
    | some r => (fitParameter r p.parName.toList, k)
    | none => (randomStart rnd sqrtN k, k + 2)
  if p.fixed then (k, st.2 ++ [⟨p.parName, 0, true⟩])
  else
    let (v, k) := if v = 0 then (randomStart rnd sqrtN k, k + 2) else (v, k)
    (k, st.2 ++ [⟨p.parName, v, false⟩])

/-- pwaFit.cc:232-267. -/
noncomputable def startValues (rnd : ℕ → ℝ) (nmbEvents : ℕ) (start : Option FitResult) (params : List FitPar) : List Var :=
  (params.foldl (startStep rnd (Real.sqrt nmbEvents) start) (0, [])).2

/-- where start values come from: no (usable) file, or the entries of the tree in the file (pwaFit.cc:174-215). -/
inductive StartFile where
  | unusable
  | entries (l : List FitResult)

/-- pwaFit.cc:174-215; the length of the file name is checked before the bin: a bin without mass ends in an exception (`at`). -/
noncomputable def readStart (file : Option StartFile) (multibin : List (Name × ℝ × ℝ)) : Outcome (Option FitResult) :=
  match file with
  | none => .ok none
  | some f =>
    match multibin.lookup "mass".toList with
    | none => .terminate
    | some b => match f with
      | .unusable => .ok none
      | .entries l => .ok (some (chooseStart ((b.1 + b.2) / 2) l))

/-! ### the integral matrices of a likelihood -/

/-- `_normMatrix`, `_accMatrix`, `_phaseSpaceIntegral`, `_totAcc`. -/
structure FitInts where
  ints : Ints
  phaseSpace : WaveIx → ℝ
  totAcc : ℝ

/-- pwaLikelihood.cc:1588-1604: the waves in the order of the loops. -/
def waveAt (nW : ℕ → ℕ) (i : ℕ) : WaveIx := (waveIxs nW).getD i (0, 0)

/-- pwaLikelihood.cc:1579-1618 `getIntegralMatrices(..., withFlat = true)`; `M` is the matrix, `flat` the element of the flat wave. -/
def integralMatrix (nW : ℕ → ℕ) (M : WaveIx → WaveIx → ℂ) (flat : ℂ) : Mat ℂ :=
  let n := nW 0 + nW 1
  ⟨n + 1, n + 1, fun i j => if i < n ∧ j < n then M (waveAt nW i) (waveAt nW j) else if i = n ∧ j = n then flat else 0⟩

/-! ### fits -/

/-- what a minimizer leaves: `Minimize()`, `X()`, `MinValue()`, `Hesse()`, `CovMatrix(i, j)` after `Hesse`. -/
structure MinResult where
  converged : Bool
  x : ℕ → ℝ
  minValue : ℝ
  hesse : Bool
  cov : ℕ → ℕ → ℝ

/-- the likelihood object of a fit. -/
structure Lik where
  fn : LikData
  waves : WaveList
  pars : ParData
  ints : FitInts

structure Options where
  checkHessian : Bool
  saveSpace : Bool

/-- names and indices as `fitResult` stores them. -/
def covIndex (p : ℕ × Option ℕ) : ℤ × ℤ := (p.1, match p.2 with | some k => k | none => -1)

/-- pwaFit.cc:381-425, pwaNloptFit.cc:345-383: the result. -/
noncomputable def fillFitResult (l : Lik) (o : Options) (multibin : List (Name × ℝ × ℝ)) (par : ℕ → ℝ) (value : ℝ) (cov : ℕ → ℕ → ℝ)
    (converged hasHessian : Bool) : FillArgs :=
  let amps := buildProdAmpArrays l.waves l.fn.rank par true
  { nmbEvents := l.fn.nmbEvents
    normNmbEvents := if l.fn.useNormalizedAmps then 1 else l.fn.nmbEvents
    multibin := multibin
    logLikelihood := value
    rank := l.fn.rank
    nmbProdAmps := amps.length
    prodAmps := fun i => ((amps[i]?).map (·.value)).getD 0
    prodAmpNames := amps.map (·.name.toList)
    cov := if o.saveSpace then none else some ⟨l.pars.nmbPars, l.pars.nmbPars, cov⟩
    nmbCovIdx := amps.length
    covIdx := fun i => ((amps[i]?).map fun a => covIndex a.parIndices).getD (0, 0)
    normIntegral := if o.saveSpace then none else some (integralMatrix l.waves.nW l.ints.ints.norm 1)
    accNormIntegral := if o.saveSpace then none else some (integralMatrix l.waves.nW l.ints.ints.acc l.ints.totAcc)
    phaseSpaceIntegral := if o.saveSpace then none else some ((waveIxs l.waves.nW).map l.ints.phaseSpace ++ [1])
    converged := converged
    hasHessian := hasHessian }

open Classical in
/-- pwaFit.cc:308-325, pwaNloptFit.cc:251-266: a non-positive eigenvalue of the Hessian. -/
noncomputable def badEigenvalue (eig : ℕ → (ℕ → ℕ → ℝ) → ℕ → (ℕ → ℝ) × ℝ) (l : Lik) (par : ℕ → ℝ) : Outcome Bool := do
  let es ← hessianEigenVectors eig l.pars (l.fn.hessian l.pars par)
  .ok (es.any fun e => decide (e.2 ≤ 0))

/-- pwaFit.cc:304: `if (checkHessian)`. -/
noncomputable def hessianCheck (eig : ℕ → (ℕ → ℕ → ℝ) → ℕ → (ℕ → ℝ) × ℝ) (l : Lik) (o : Options) (par : ℕ → ℝ) : Outcome Bool :=
  if o.checkHessian then badEigenvalue eig l par else .ok false

open Classical in
/-- pwaFit.cc:64-433 `pwaFit`: the arguments of the final `fill` of a new fit result. -/
noncomputable def pwaFit (minimize : List Var → MinResult) (eig : ℕ → (ℕ → ℕ → ℝ) → ℕ → (ℕ → ℝ) × ℝ) (rnd : ℕ → ℝ) (l : Lik)
    (o : Options) (multibin : List (Name × ℝ × ℝ)) (file : Option StartFile) : Outcome FillArgs := do
  let start ← readStart file multibin
  let r := minimize (startValues rnd l.fn.nmbEvents start l.pars.params)
  let par ← correctParamSigns l.fn.rank l.fn.nW l.pars r.x
  if r.minValue ≠ l.fn.doEval par then .terminate
  else do
    let bad ← hessianCheck eig l o par
    let converged := r.converged && !bad
    let hasHessian := !o.saveSpace && r.hesse
    let converged := converged && (o.saveSpace || r.hesse)
    .ok (fillFitResult l o multibin par r.minValue (fun i j => 0.5 * r.cov i j) converged hasHessian)

/-! ### NLopt -/

/-- pwaNloptFit.cc:390-402 `addFixedParams`: the loop; the state is `(iNlopt, array)`. -/
def addFixedStep (d : ParData) (p : ℕ → ℝ) (st : ℕ × (ℕ → ℝ)) (i : ℕ) : ℕ × (ℕ → ℝ) :=
  if LikData.fixedAt d i then (st.1, Function.update st.2 i 0) else (st.1 + 1, Function.update st.2 i (p st.1))

/-- pwaNloptFit.cc:383-402 `addFixedParams`, writing into the array `out`. -/
def addFixed (d : ParData) (p out : ℕ → ℝ) : ℕ → ℝ := ((List.range d.nmbPars).foldl (addFixedStep d p) (0, out)).2

/-- pwaNloptFit.cc:67-73: the loop that copies the gradient; the state is `(iNlopt, gradientNlopt)`. -/
def copyGradStep (d : ParData) (g : ℕ → ℝ) (st : ℕ × (ℕ → ℝ)) (i : ℕ) : ℕ × (ℕ → ℝ) :=
  if LikData.fixedAt d i then st else (st.1 + 1, Function.update st.2 st.1 (g i))

/-- the static buffers of pwaNloptFit.cc:56, 62: `none` before the first use, then their content and size. -/
structure Buffer where
  size : ℕ
  val : ℕ → ℝ

structure Buffers where
  pars : Option Buffer
  grad : Option Buffer

/-- the buffer of a static variable, allocated with `n` elements on first use. -/
noncomputable def Buffer.alloc (b : Option Buffer) (n : ℕ) (junk : ℕ → ℝ) : Buffer := b.getD ⟨n, junk⟩

/-- pwaNloptFit.cc:44-81 `rpwaNloptFunc`; `gradient` is the array of NLopt (if it wants one), `junk` what new memory holds.  The
buffers have static storage: they are shared by all fits of the process. -/
noncomputable def nloptFunc (fn : LikData) (d : ParData) (junk : ℕ → ℝ) (b : Buffers) (n : ℕ) (p : ℕ → ℝ) (gradient : Option (ℕ → ℝ)) :
    Outcome (Buffers × ℝ × Option (ℕ → ℝ)) :=
  if n ≠ d.nmbPars - d.nmbParsFixed then .terminate
  else do
    let (b, par) ← if d.nmbParsFixed ≠ 0 then
        let buf := Buffer.alloc b.pars d.nmbPars junk
        if buf.size < d.nmbPars then .ub
        else .ok ({ b with pars := some ⟨buf.size, addFixed d p buf.val⟩ }, addFixed d p buf.val)
      else .ok (b, p)
    match gradient with
    | none => .ok (b, fn.doEval par, none)
    | some g =>
      let buf := Buffer.alloc b.grad d.nmbPars junk
      if d.nmbParsFixed = 0 then
        let r := fn.fdf d par g
        .ok ({ b with grad := some buf }, r.1, some r.2)
      else if buf.size < d.nmbPars then .ub
      else
        let r := fn.fdf d par buf.val
        .ok ({ b with grad := some ⟨buf.size, r.2⟩ }, r.1, some ((List.range d.nmbPars).foldl (copyGradStep d r.2) (0, g)).2)

/-- `nlopt::result`; negative results are exceptions of the C++ interface. -/
inductive NloptCode where
  | success | stopvalReached | ftolReached | xtolReached | maxevalReached | maxtimeReached
  deriving DecidableEq

/-- the numbers of nlopt.h: 1 to 6. -/
def NloptCode.value : NloptCode → ℤ
  | .success => 1
  | .stopvalReached => 2
  | .ftolReached => 3
  | .xtolReached => 4
  | .maxevalReached => 5
  | .maxtimeReached => 6

/-- what `optimize` leaves; `none`: an exception. -/
structure NloptResult where
  code : NloptCode
  x : ℕ → ℝ
  minValue : ℝ

/-- pwaNloptFit.cc:186-214: start values of the free parameters; random numbers are used for the fixed ones, too. -/
noncomputable def nloptStartStep (rnd : ℕ → ℝ) (sqrtN : ℝ) (st : ℕ × List ℝ) (p : FitPar) : ℕ × List ℝ :=
  (st.1 + 2, if p.fixed then st.2 else st.2 ++ [randomStart rnd sqrtN st.1])

noncomputable def nloptStart (rnd : ℕ → ℝ) (nmbEvents : ℕ) (params : List FitPar) : List ℝ :=
  (params.foldl (nloptStartStep rnd (Real.sqrt nmbEvents)) (0, [])).2

open Classical in
/-- pwaNloptFit.cc:84-386 `pwaNloptFit`; `optimize` is NLopt applied to `rpwaNloptFunc` of the likelihood; a start file is refused.
The optimizer is made for `nmbPars() - nmbParsFixed()` parameters (l.139); `optimize` throws if the start vector has another length. -/
noncomputable def pwaNloptFit (optimize : List ℝ → Option NloptResult) (eig : ℕ → (ℕ → ℕ → ℝ) → ℕ → (ℕ → ℝ) × ℝ)
    (inv : ℕ → (ℕ → ℕ → ℝ) → (ℕ → ℕ → ℝ)) (rnd : ℕ → ℝ) (l : Lik) (o : Options) (multibin : List (Name × ℝ × ℝ))
    (file : Option StartFile) : Outcome FillArgs :=
  if file.isSome then .terminate
  else if (nloptStart rnd l.fn.nmbEvents l.pars.params).length ≠ l.pars.nmbPars - l.pars.nmbParsFixed then .terminate
  else match optimize (nloptStart rnd l.fn.nmbEvents l.pars.params) with
    | none => .terminate
    | some r => do
      let converged := decide (0 < r.code.value)
      let par ← correctParamSigns l.fn.rank l.fn.nW l.pars (addFixed l.pars r.x fun _ => 0)
      if r.minValue ≠ l.fn.doEval par then .terminate
      else if o.checkHessian || !o.saveSpace then do
        let bad ← badEigenvalue eig l par
        let converged := converged && !bad
        if o.saveSpace then .ok (fillFitResult l o multibin par r.minValue (fun _ _ => 0) converged false)
        else do
          let cov ← covarianceMatrix inv l.pars (l.fn.hessian l.pars par)
          .ok (fillFitResult l o multibin par r.minValue cov converged converged)
      else .ok (fillFitResult l o multibin par r.minValue (fun _ _ => 0) converged false)

end Rpwa.PwaFit
