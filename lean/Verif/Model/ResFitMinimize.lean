import Verif.Model.ResFitConfig

/-!
# `resonanceFit/minimizerRoot`: the steps of a resonance-model fit

Model of `minimizerRoot::minimize` and `minimizerRoot::initParameters`, and of the part of
`resonanceFitExe.cc` that writes the result.

Simplifications, for the whole file: the minimizer of ROOT is an arbitrary function of everything that
was asked of it before; the numbers it returns are finite; messages are left out.  The cache that is
passed in is invalidated by the import of the parameters and not used otherwise (`St.K`).
-/

namespace Rpwa.ResMin

open ResFit (Name Params St Component Channel Fsmd Model)
open ResCfg (Config Par Num)

/-! ## the variables of the minimizer -/

/-- how a variable is declared: `SetFixedVariable`, or `SetVariable`, `SetLimitedVariable`,
`SetLowerLimitedVariable`, `SetUpperLimitedVariable` -/
inductive VarKind where
  | fixed
  | free (step : ℝ) (lower upper : Option ℝ)

/-- a variable of the minimizer -/
structure Var where
  name : Name
  start : ℝ
  kind : VarKind

/-- may the minimizer change the variable? -/
def Var.isFree (v : Var) : Bool :=
  match v.kind with
  | .fixed => false
  | .free .. => true

/-- separators of the release order -/
def isSep (c : Char) : Bool := c == ' ' || c == '\t' || c == '\n'

/-- words of a step of the release order: `boost::tokenizer` with `char_separator(" \t\n")`, which drops
empty words (resonanceFit/minimizerRoot.cc:275-277) -/
def words (s : Name) : List Name := (s.splitOnP isSep).filter fun w => w ≠ []

/-- does one of the words occur? (the chains of `find(...) != tokenizeFreeParameters.end()`,
resonanceFit/minimizerRoot.cc:313-316, 391-393, 438-441) -/
def anyOf (ws keys : List Name) : Bool := keys.any fun k => ws.contains k

/-- a number in a name -/
def digits (n : ℕ) : Name := (toString n).toList

/-- part of the wave name behind the first `=`; the whole name if there is none
(`substr(find("=")+1)`, resonanceFit/minimizerRoot.cc:381) -/
def waveDecay (name : Name) : Name :=
  if '=' ∈ name then (name.dropWhile fun c => c ≠ '=').drop 1 else name

def sep : Name := "__".toList

/-- `prefixBin` (resonanceFit/minimizerRoot.cc:297-299) -/
def coupBinName (b : ℕ) : Name := "coupling__bin".toList ++ digits b

/-- `prefixName` of a coupling (resonanceFit/minimizerRoot.cc:300-310) -/
def coupName (c : Component) (k b : ℕ) : Name :=
  let w := (c.chan (c.maps.fromCoup.getD k 0)).waveName
  coupBinName b ++ sep ++ c.name ++ sep ++ (if c.maps.nrBr > 1 then ResFit.waveQN w else w)

/-- `prefixName` of a branching (resonanceFit/minimizerRoot.cc:379-388) -/
def brName (c : Component) (k : ℕ) : Name :=
  let w := (c.chan (c.maps.fromBr.getD k 0)).waveName
  "branching__".toList ++ c.name ++ sep ++ ResFit.waveQN w ++ sep ++ waveDecay w

/-- name of a parameter of a component (resonanceFit/minimizerRoot.cc:435) -/
def parName (c : Component) (p : Par) : Name := c.name ++ sep ++ p.name

/-- name of a parameter of the final-state mass dependence (resonanceFit/minimizerRoot.cc:500-504) -/
def fsmdName (b : ℕ) (p : Par) : Name := "fsmd__bin".toList ++ digits b ++ sep ++ p.name

def real_ : Name := "__real".toList
def imag_ : Name := "__imag".toList

/-- a variable without limits and with step size 0.1, or a fixed one
(resonanceFit/minimizerRoot.cc:323-365, 400-426) -/
noncomputable def plainVar (name : Name) (x : ℝ) (free : Bool) : Var :=
  ⟨name, x, if free then .free 0.1 none none else .fixed⟩

/-- a parameter that has a name, a step size and limits (resonanceFit/minimizerRoot.cc:451-489,
510-547) -/
def parVar (name : Name) (x : ℝ) (p : Par) (free : Bool) : Var :=
  ⟨name, x, if free then .free p.step p.lower p.upper else .fixed⟩

/-- is a coupling released (resonanceFit/minimizerRoot.cc:312-319)? -/
def coupFree (ws : List Name) (c : Component) (k b : ℕ) : Bool :=
  anyOf ws ["*".toList, "coupling".toList, coupBinName b, coupName c k b]

/-- is a branching released (resonanceFit/minimizerRoot.cc:390-396)? -/
def brFree (ws : List Name) (c : Component) (k : ℕ) : Bool :=
  anyOf ws ["*".toList, "branching".toList, brName c k]

/-- is a parameter of a component released (resonanceFit/minimizerRoot.cc:437-447)? -/
def parFree (ws : List Name) (c : Component) (p : Par) : Bool :=
  anyOf ws ["*".toList, c.name, p.name, parName c p] && !p.fixed

open Classical in
/-- `isAnchor(idxBin, channel.getWaveIndices()[idxBin], idxComponent)` (resonanceFit/model.h:80,
resonanceFit/minimizerRoot.cc:330, 351) -/
noncomputable def isAnchor (M : Model) (ic : ℕ) (ch : Channel) (b : ℕ) : Bool :=
  decide (ch.waveAt b = some (M.anchorWave.getD b 0) ∧ M.anchorComp.getD b 0 = ic)

/-- the variables of one coupling in one bin (resonanceFit/minimizerRoot.cc:296-366) -/
noncomputable def coupVars (M : Model) (P : Params) (ws : List Name) (ic k b : ℕ) : List Var :=
  let c := M.comp ic
  let free := coupFree ws c k b
  let x := P.coup ic k b
  [plainVar (coupName c k b ++ real_) x.re free,
    if isAnchor M ic (c.chan (c.maps.fromCoup.getD k 0)) b then plainVar (coupName c k b ++ imag_) 0 false
    else plainVar (coupName c k b ++ imag_) x.im free]

/-- the variables of one branching (resonanceFit/minimizerRoot.cc:374-427) -/
noncomputable def brVars (M : Model) (P : Params) (ws : List Name) (ic k : ℕ) : List Var :=
  let c := M.comp ic
  if c.maps.brFixed.getD k false then []
  else
    [plainVar (brName c k ++ real_) (P.br ic k).re (brFree ws c k),
      plainVar (brName c k ++ imag_) (P.br ic k).im (brFree ws c k)]

/-- the variables of the parameters of one component (resonanceFit/minimizerRoot.cc:432-491) -/
def compVars (P : Params) (ws : List Name) (ic : ℕ) (c : ResCfg.Comp) : List Var :=
  c.pars.zipIdx.map fun x => parVar (parName c.core x.1) (P.par ic x.2) x.1 (parFree ws c.core x.1)

/-- the variables of the final-state mass dependence in one bin: free unless fixed in the configuration,
whatever the release order says (resonanceFit/minimizerRoot.cc:497-550) -/
def fsmdVars (P : Params) (id : ℕ) (f : Fsmd) (i : ℕ) (b : ResCfg.FsmdBin) : List Var :=
  b.pars.zipIdx.map fun x =>
    parVar (fsmdName i x.1) (P.par id (f.parIndex.getD i 0 + x.2)) x.1 (!x.1.fixed)

/-- `initParameters` (resonanceFit/minimizerRoot.cc:271-554): the variables in the order of
`parcount`. -/
noncomputable def initVars (cfg : Config) (P : Params) (step : Name) : List Var :=
  let ws := words step
  let M := cfg.model
  ((List.range M.comps.length).flatMap fun ic =>
    (List.range (M.comp ic).maps.nrCoup).flatMap fun k =>
      ((M.comp ic).coupBins k).flatMap fun b => coupVars M P ws ic k b)
  ++ ((List.range M.comps.length).flatMap fun ic =>
    (List.range (M.comp ic).maps.nrBr).flatMap fun k => brVars M P ws ic k)
  ++ (cfg.comps.zipIdx.flatMap fun x => compVars P ws x.2 x.1)
  ++ (match cfg.fsmd with
    | none => []
    | some f => f.bins.zipIdx.flatMap fun x => fsmdVars P M.comps.length f.core x.2 x.1)

/-! ## the minimizer -/

/-- what is asked of the minimizer: to minimize after the variables were declared, or to calculate the
Hessian matrix, with a maximal number of function calls -/
inductive Call where
  | minimize (vars : List Var) (maxCalls : ℕ)
  | hesse (maxCalls : ℕ)

/-- what it returns: `X()`, `Errors()`, `GetCovMatrix()`, `NCalls()`, `Status()`, `CovMatrixStatus()`,
`Edm()` -/
structure Res where
  X : ℕ → ℝ
  errors : ℕ → ℝ
  cov : ℕ → ℕ → ℝ
  calls : ℕ
  status : ℤ
  covStatus : ℤ
  edm : ℝ

/-- a minimizer: any function of the history and the call -/
abbrev Minimizer := List (Call × Res) → Call → Res

/-- state of the loop over the steps -/
structure Run where
  /-- `freeParameters` -/
  order : List Name
  removed : ℕ
  /-- `_maxNmbOfFunctionCalls` -/
  budget : ℕ
  fit : St
  err : Params
  hist : List (Call × Res)
  /-- covariance matrix; `none` is the matrix of size 0 -/
  cov : Option (ℕ → ℕ → ℝ)

def kHesse : Name := "hesse".toList

/-- the default release order (resonanceFit/minimizerRoot.cc:131-139) -/
def defaultOrder : List Name :=
  ["coupling branching".toList, "coupling branching mass m0".toList, "*".toList, kHesse]

/-- the loop that removes finished steps (resonanceFit/minimizerRoot.cc:190-196): `d` is
`step - removedSteps`; the new list, and how many were removed -/
def dropDone : ℕ → List Name → List Name × ℕ
  | 0, l => (l, 0)
  | d + 1, l => if l[d + 1]? = some kHesse then (l, 0) else ((dropDone d (l.drop 1)).1, (dropDone d (l.drop 1)).2 + 1)

/-- ask the minimizer and import its answer: errors first, then values
(resonanceFit/minimizerRoot.cc:157, 172, 181-188) -/
noncomputable def ask (M : Model) (mz : Minimizer) (call : Call) (r : Run) : Run :=
  let a := mz r.hist call
  let e := (M.importAll a.errors ⟨r.err, r.fit.K⟩).2
  { r with
    fit := (M.importAll a.X ⟨r.fit.P, e.K⟩).2
    err := e.P
    hist := r.hist ++ [(call, a)]
    cov := some a.cov }

/-- the call of one step (resonanceFit/minimizerRoot.cc:147-179) -/
noncomputable def callOf (cfg : Config) (r : Run) (step : Name) : Call :=
  if step = kHesse then .hesse r.budget else .minimize (initVars cfg r.fit.P step) r.budget

/-- calls of the last answer -/
def Run.calls (r : Run) : ℕ := (r.hist.getLast?.map fun x => x.2.calls).getD 0

/-- end of the body of the loop: finished steps are removed (resonanceFit/minimizerRoot.cc:190-196) -/
def Run.finish (r : Run) (step : ℕ) : Run :=
  let d := dropDone (step - r.removed) r.order
  { r with order := d.1, removed := r.removed + d.2 }

/-- the loop over the steps (resonanceFit/minimizerRoot.cc:146-209): `n` steps are left, the next one has
number `step` -/
noncomputable def loop (cfg : Config) (mz : Minimizer) : ℕ → ℕ → Run → Outcome Run
  | 0, _, r => .ok r
  | n + 1, step, r =>
    match r.order[step - r.removed]? with
    | none => .ub
    | some s =>
      if s = kHesse ∧ step = 0 then .terminate
      else
        let r := (ask cfg.model mz (callOf cfg r s) r).finish step
        if r.calls ≥ r.budget then .ok { r with budget := 0, cov := none }
        else loop cfg mz n (step + 1) { r with budget := r.budget - r.calls }

/-- the budget of function calls (resonanceFit/minimizerRoot.cc:93), an `unsigned int` -/
def budgetOf (maxCalls nrPar : ℕ) : ℕ := if maxCalls > 0 then maxCalls else (5 * 20000 * nrPar) % 2 ^ 32

/-- variables a call declares -/
def Call.vars? : Call → Option (List Var)
  | .minimize vars _ => some vars
  | .hesse _ => none

/-- variables of the last minimization: those the minimizer has -/
def lastVars (h : List (Call × Res)) : List Var := (h.reverse.findSome? fun x => x.1.vars?).getD []

/-! ## the whole fit -/

/-- quotient of two `double`s -/
noncomputable def quot (x y : ℝ) : Num :=
  if y ≠ 0 then .fin (x / y) else if x > 0 then .inf else if x < 0 then .ninf else .nan

/-- `_functionAdaptor.NPoint() - _minimizer->NFree()`, two `unsigned int`
(resonanceFit/minimizerRoot.cc:259) -/
def ndf (points free : ℕ) : ℕ := (points % 2 ^ 32 + 2 ^ 32 - free % 2 ^ 32) % 2 ^ 32

/-- an integer as a `double` -/
def ofInt (z : ℤ) : Num := .fin (z : ℝ)

/-- the fit quality (resonanceFit/minimizerRoot.cc:236-265): entries of the map in the order of their
keys; `a` is the last answer, `chi2` the function that is minimized, `points` the number of data
points -/
noncomputable def qualityOf (chi2 : (ℕ → ℝ) → ℝ) (points : ℕ) (a : Res) (r : Run) : List (Name × Num) :=
  let hesse := r.order.getLast? = some kHesse ∧ r.budget ≠ 0
  let n := ndf points ((lastVars r.hist).countP (·.isFree))
  [("chi2".toList, .fin (chi2 a.X))]
  ++ (if r.budget = 0 then [("continue".toList, .fin 1)] else [])
  ++ (if hesse then [("covMatrixStatus".toList, ofInt a.covStatus)] else [])
  ++ [("edm".toList, .fin a.edm)]
  ++ (if hesse then [("hesseStatus".toList, ofInt (a.status.tdiv 100))] else [])
  ++ [("minStatus".toList, ofInt (a.status.tmod 10)), ("ndf".toList, ofInt n),
    ("redchi2".toList, quot (chi2 a.X) (n : ℝ))]

/-- the release order that is used (resonanceFit/minimizerRoot.cc:131-139) -/
def orderOf (free : List Name) : List Name := if free.length = 0 then defaultOrder else free

/-- `minimizerRoot::minimize` (resonanceFit/minimizerRoot.cc:124-268): fit quality and final state -/
noncomputable def minimize (cfg : Config) (mz : Minimizer) (chi2 : (ℕ → ℝ) → ℝ) (points maxCalls : ℕ)
    (free : List Name) (st : St) (err : Params) : Outcome (List (Name × Num) × Run) := do
  let order := orderOf free
  let r ← loop cfg mz order.length 0
    ⟨order, 0, budgetOf maxCalls cfg.model.nrParameters, st, err, [], none⟩
  match r.hist.getLast? with
  | none => .ub
  | some x => .ok (qualityOf chi2 points x.2 r, r)

/-- the stores that are written after the fit (resonanceFit/resonanceFitExe.cc:348-354) -/
def Run.store (r : Run) : ResCfg.Store := ⟨r.fit.P, fun i k => .fin (r.err.par i k)⟩

end Rpwa.ResMin
