import Verif.Model.ResFitMinimize
import Verif.Spec.ResonanceFit

/-!
# Specification of the steps of a resonance-model fit (C78)
-/

namespace Rpwa.ResMin.Spec

open ResFit (Name Params St Component Fsmd Model)
open ResFit.Spec (Entry layout entry startOf IsAnchor)
open ResCfg (Config Par Num)

/-- the parameter of the configuration behind number `k` of row `id` of the parameter store: parameter
`k` of component `id`, or, for the row behind the components, the parameters of the final-state mass
dependence, those of the first bin first -/
def parOf (cfg : Config) (id k : ℕ) : Option Par :=
  match cfg.comps[id]? with
  | some c => c.pars[k]?
  | none =>
    match cfg.fsmd with
    | some f => if id = cfg.comps.length then (f.bins.flatMap (·.pars))[k]? else none
    | none => none

/-- may the fit change a number in a step of the release order with these words?

* couplings: with `*`, `coupling`, `coupling__bin<b>`, or the name of the coupling; never the imaginary
  part of the coupling of an anchor wave;
* branchings: with `*`, `branching`, or the name of the branching;
* parameters of a component: with `*`, the name of the component, of the parameter, or both joined by
  `__`, unless fixed in the configuration;
* parameters of the final-state mass dependence: unless fixed in the configuration. -/
def Released (cfg : Config) (ws : List Name) : Entry → Prop
  | .coupRe id k b => ∃ w ∈ ws, w = "*".toList ∨ w = "coupling".toList ∨ w = coupBinName b ∨
      w = coupName (cfg.model.comp id) k b
  | .coupIm id k b => ¬ IsAnchor cfg.model id k b ∧ ∃ w ∈ ws, w = "*".toList ∨ w = "coupling".toList ∨
      w = coupBinName b ∨ w = coupName (cfg.model.comp id) k b
  | .brRe id k | .brIm id k => ∃ w ∈ ws, w = "*".toList ∨ w = "branching".toList ∨
      w = brName (cfg.model.comp id) k
  | .par id k => ∃ p, parOf cfg id k = some p ∧ p.fixed = false ∧
      (id < cfg.comps.length → ∃ w ∈ ws, w = "*".toList ∨ w = (cfg.model.comp id).name ∨ w = p.name ∨
        w = parName (cfg.model.comp id) p)

/-- step size and limits of a number -/
noncomputable def limitsOf (cfg : Config) : Entry → ℝ × Option ℝ × Option ℝ
  | .par id k =>
    match parOf cfg id k with
    | some p => (p.step, p.lower, p.upper)
    | none => (0, none, none)
  | _ => (0.1, none, none)

/-- `v` is the variable of number `e` in a step with words `ws` that starts from `P` -/
structure IsVar (cfg : Config) (P : Params) (ws : List Name) (e : Entry) (v : Var) : Prop where
  start : v.start = startOf cfg.model P e
  free : v.isFree = true ↔ Released cfg ws e
  limits : v.isFree = true →
    v.kind = .free (limitsOf cfg e).1 (limitsOf cfg e).2.1 (limitsOf cfg e).2.2

/-- a value respects limits -/
def Within (lower upper : Option ℝ) (x : ℝ) : Prop := (∀ l ∈ lower, l ≤ x) ∧ ∀ u ∈ upper, x ≤ u

/-- what is required of an answer of the minimizer: fixed variables keep their values, limited ones that
start within their limits stay there -/
structure Respects (vars : List Var) (a : Res) : Prop where
  fixed : ∀ i v, vars[i]? = some v → v.kind = .fixed → a.X i = v.start
  limits : ∀ i v s lo up, vars[i]? = some v → v.kind = .free s lo up →
    Within lo up v.start → Within lo up (a.X i)

/-- a minimizer that does what the interface promises; the Hessian matrix is calculated with the
variables of the last minimization -/
def Sound (mz : Minimizer) : Prop :=
  ∀ h call, Respects ((call.vars?).getD (lastVars h)) (mz h call)

/-- index of the last step before step `n` that is a minimization -/
def lastMin (order : List Name) : ℕ → ℕ
  | 0 => 0
  | n + 1 => if order[n]? = some kHesse then lastMin order n else n

/-- function calls of a history -/
def callsOf (h : List (Call × Res)) : ℕ := (h.map fun x => x.2.calls).sum

/-- `P` are the values after the history `h` of a fit that started with `P0`: those the last answer gives
for the numbers of the layout -/
def Current (M : Model) (P0 : Params) (h : List (Call × Res)) (P : Params) : Prop :=
  match h.getLast? with
  | none => P = P0
  | some x => ∀ j e, (layout M)[j]? = some e → entry P e = x.2.X j

/-- step `s` of the release order as it is asked for with values `P` and `n` function calls left -/
noncomputable def callFor (cfg : Config) (P : Params) (s : Name) (n : ℕ) : Call :=
  if s = "hesse".toList then .hesse n else .minimize (initVars cfg P s) n

/-- what a fit with release order `order`, start values `P0` and `budget` function calls leaves behind -/
structure Done (cfg : Config) (mz : Minimizer) (order : List Name) (P0 : Params) (budget : ℕ) (r : Run) :
    Prop where
  /-- at least one step has been done, none twice -/
  started : 0 < r.hist.length
  most : r.hist.length ≤ order.length
  /-- the steps are those of the release order, each from the values of the last one, with the function
  calls that are left -/
  steps : ∀ i c a, r.hist[i]? = some (c, a) → a = mz (r.hist.take i) c ∧ ∃ s P, order[i]? = some s ∧
    Current cfg.model P0 (r.hist.take i) P ∧ c = callFor cfg P s (budget - callsOf (r.hist.take i))
  /-- no step is started when all function calls have been used -/
  limit : ∀ i, 0 < i → i < r.hist.length → callsOf (r.hist.take i) < budget
  left : r.budget = budget - callsOf r.hist
  /-- all steps have been done unless the function calls have been used -/
  all : r.budget ≠ 0 → r.hist.length = order.length
  values : Current cfg.model P0 r.hist r.fit.P
  errors : ∀ x, r.hist.getLast? = some x → ∀ j e, (layout cfg.model)[j]? = some e →
    entry r.err e = x.2.errors j
  /-- the covariance matrix is that of the last step, and empty if the fit was interrupted -/
  cov : ∀ x, r.hist.getLast? = some x → r.cov = if r.budget = 0 then none else some x.2.cov
  /-- what is left of the release order begins with the last minimization -/
  rest : r.order = order.drop (lastMin order r.hist.length)

end Rpwa.ResMin.Spec
