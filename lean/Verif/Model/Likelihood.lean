import Verif.Model.FitParameters
import Mathlib.Analysis.SpecialFunctions.Log.Basic
import Mathlib.Analysis.Complex.Basic
import Mathlib.Algebra.BigOperators.Group.Finset.Basic
/-!
# partialWaveFit/pwaLikelihood.cc: likelihood function, gradient, Hessian

`double` is `ℝ`, complex numbers are `ℂ`.  The loops with (compensated) `boost::accumulators` are finite sums (they are exact in `ℝ`,
cf. C07).  CUDA and timers are not modelled, `USE_FDF` is undefined (pwaLikelihood.cc:63).  Division by zero (giving infinities and
NaN in C++) is excluded by hypotheses of the theorems. -/
namespace Rpwa.Lik

open Finset Complex

/-- pwaLikelihood.h:99-104 `priorEnum`. -/
inductive Prior where
  | flat
  | halfCauchy
  deriving DecidableEq

/-- the members of `pwaLikelihood` that enter the function: `_rank`, `_nmbWavesRefl`, `_nmbEvents`, `_decayAmps[refl][event][wave]`,
`_accMatrix[refl][i][refl][j]`, `_totAcc`, `_useNormalizedAmps`, `_priorType`, `_cauchyWidth`. -/
structure LikData where
  rank : ℕ
  nW : ℕ → ℕ
  nmbEvents : ℕ
  decayAmps : ℕ → ℕ → ℕ → ℂ
  accMatrix : ℕ → ℕ → ℕ → ℂ
  totAcc : ℝ
  useNormalizedAmps : Bool
  prior : Prior
  cauchyWidth : ℝ

/-- pwaLikelihood.cc:78-84 `cauchyFunction`. -/
noncomputable def cauchyFunction (x g : ℝ) : ℝ := 1 / (1 + x * x / (g * g))
/-- pwaLikelihood.cc:86-92 `cauchyFunctionDerivative`. -/
noncomputable def cauchyFunctionDerivative (x g : ℝ) : ℝ := (-2 * x * g * g) / ((g * g + x * x) * (g * g + x * x))
/-- pwaLikelihood.cc:94-102 `cauchyFunctionSecondDerivative`. -/
noncomputable def cauchyFunctionSecondDerivative (x g : ℝ) : ℝ :=
  let x2 := x * x
  let gamma2 := g * g
  gamma2 / ((gamma2 + x2) * (gamma2 + x2)) * (-2 + 8 * x2 / (gamma2 + x2))

namespace LikData
variable (L : LikData)

/-- `sum(ampProdAcc)`, pwaLikelihood.cc:370-374: coherent sum over the waves of one rank and reflectivity. -/
noncomputable def ampSum (V : Amps) (ev r e : ℕ) : ℂ := ∑ w ∈ range (L.nW e), V (r, e, w) * L.decayAmps e ev w

/-- `sum(likelihoodAcc)`, pwaLikelihood.cc:367-378. -/
noncomputable def sigma (V : Amps) (flat : ℝ) (ev : ℕ) : ℝ :=
  (∑ r ∈ range L.rank, ∑ e ∈ range 2, normSq (L.ampSum V ev r e)) + flat * flat

/-- pwaLikelihood.cc:389 `nmbEvt`. -/
noncomputable def nmbEvt : ℝ := if L.useNormalizedAmps then 1 else L.nmbEvents

/-- `sum(normFactorAcc)`, pwaLikelihood.cc:388-400. -/
noncomputable def normFactor (V : Amps) (flat : ℝ) : ℝ :=
  (∑ r ∈ range L.rank, ∑ e ∈ range 2, ∑ i ∈ range (L.nW e), ∑ j ∈ range (L.nW e),
    ((V (r, e, i) * (starRingEnd ℂ) (V (r, e, j))) * L.accMatrix e i j).re) + flat * flat * L.totAcc

/-- `priorValue`, pwaLikelihood.cc:405-421. -/
noncomputable def priorValue (V : Amps) : ℝ :=
  match L.prior with
  | .flat => 0
  | .halfCauchy => ∑ r ∈ range L.rank, ∑ e ∈ range 2, ∑ w ∈ range (L.nW e),
      -Real.log (cauchyFunction ‖V (r, e, w)‖ L.cauchyWidth)

/-- `funcVal` as a function of the production amplitudes, pwaLikelihood.cc:379, 424. -/
noncomputable def eval (V : Amps) (flat : ℝ) : ℝ :=
  (∑ ev ∈ range L.nmbEvents, -Real.log (L.sigma V flat ev)) + L.nmbEvt * L.normFactor V flat + L.priorValue V

/-- pwaLikelihood.cc:318-440 `DoEval`. -/
noncomputable def doEval (par : ℕ → ℝ) : ℝ :=
  let p := copyFromParArray L.rank L.nW par
  L.eval p.1 p.2

/-- `derivative[iRank][iRefl][iWave]` of one event, pwaLikelihood.cc:559-569: amplitude sum times conjugated decay amplitude. -/
noncomputable def evtDeriv (V : Amps) (ev : ℕ) (s : Slot) : ℂ :=
  L.ampSum V ev s.1 s.2.1 * (starRingEnd ℂ) (L.decayAmps s.2.1 ev s.2.2)

/-- prior part subtracted from the derivative, pwaLikelihood.cc:617-621.  For a zero amplitude the code computes `(1/0) * (-0)`, i.e.
NaN. -/
noncomputable def priorDeriv (V : Amps) (s : Slot) : ℂ :=
  match L.prior with
  | .flat => 0
  | .halfCauchy =>
    let r := ‖V s‖
    let factor := (1 / (r * cauchyFunction r L.cauchyWidth)) * cauchyFunctionDerivative r L.cauchyWidth
    ⟨factor * (V s).re, factor * (V s).im⟩

/-- `derivatives[iRank][iRefl][iWave]` at the end of `Gradient`, pwaLikelihood.cc:571-624 (`FdF`: 214-286, same formulas). -/
noncomputable def derivatives (V : Amps) (flat : ℝ) (s : Slot) : ℂ :=
  (∑ ev ∈ range L.nmbEvents, -((2 / L.sigma V flat ev : ℝ) : ℂ) * L.evtDeriv V ev s)
    + (∑ j ∈ range (L.nW s.2.1), V (s.1, s.2.1, j) * (starRingEnd ℂ) (L.accMatrix s.2.1 s.2.2 j)) * ((2 * L.nmbEvt : ℝ) : ℂ)
    - L.priorDeriv V s

/-- `derivativeFlat`, pwaLikelihood.cc:578, 585, 604. -/
noncomputable def derivativeFlat (V : Amps) (flat : ℝ) : ℝ :=
  (∑ ev ∈ range L.nmbEvents, -(2 / L.sigma V flat ev) * flat) + flat * (2 * L.nmbEvt) * L.totAcc

/-- pwaLikelihood.cc:461-637 `Gradient`, writing into `out`. -/
noncomputable def gradient (d : ParData) (par out : ℕ → ℝ) : ℕ → ℝ :=
  let p := copyFromParArray L.rank L.nW par
  copyToParArray L.rank L.nW d (L.derivatives p.1 p.2) (L.derivativeFlat p.1 p.2) out

/-- state of the loops of `FdF`: sum of the log likelihood (later: of the normalisation, of the prior), `derivatives`,
`derivativeFlat`. -/
structure FdfState where
  value : ℝ
  derivatives : Slot → ℂ
  derivativeFlat : ℝ

/-- body of the event loop, pwaLikelihood.cc:214-246: the intensity of the event is accumulated along with the derivatives. -/
noncomputable def fdfEvent (V : Amps) (flat : ℝ) (st : FdfState) (ev : ℕ) : FdfState :=
  let likelihood := (∑ r ∈ range L.rank, ∑ e ∈ range 2, normSq (L.ampSum V ev r e)) + flat * flat
  let factor := 2 / likelihood
  ⟨st.value + -Real.log likelihood, fun s => st.derivatives s + -(factor : ℂ) * L.evtDeriv V ev s, st.derivativeFlat + -factor * flat⟩

/-- `x[s] += z`. -/
noncomputable def addAt (x : Slot → ℂ) (s : Slot) (z : ℂ) : Slot → ℂ := fun t => if t = s then x t + z else x t

/-- body of the normalisation loop, pwaLikelihood.cc:260-272. -/
noncomputable def fdfNorm (V : Amps) (st : FdfState) (s : Slot) : FdfState :=
  { st with
    value := (st.value + ∑ j ∈ range (L.nW s.2.1), ((V s * (starRingEnd ℂ) (V (s.1, s.2.1, j))) * L.accMatrix s.2.1 s.2.2 j).re)
    derivatives := addAt st.derivatives s
      ((∑ j ∈ range (L.nW s.2.1), V (s.1, s.2.1, j) * (starRingEnd ℂ) (L.accMatrix s.2.1 s.2.2 j)) * ((2 * L.nmbEvt : ℝ) : ℂ)) }

/-- body of the prior loop, pwaLikelihood.cc:287-299. -/
noncomputable def fdfPrior (V : Amps) (st : FdfState) (s : Slot) : FdfState :=
  let r := ‖V s‖
  let factor := (1 / (r * cauchyFunction r L.cauchyWidth)) * cauchyFunctionDerivative r L.cauchyWidth
  { st with
    value := st.value - Real.log (cauchyFunction r L.cauchyWidth)
    derivatives := addAt st.derivatives s (-⟨factor * (V s).re, factor * (V s).im⟩) }

/-- pwaLikelihood.cc:171-313 `FdF`: function value and gradient in one pass. -/
noncomputable def fdf (d : ParData) (par out : ℕ → ℝ) : ℝ × (ℕ → ℝ) :=
  let p := copyFromParArray L.rank L.nW par
  let V := p.1
  let flat := p.2
  let evts := (List.range L.nmbEvents).foldl (L.fdfEvent V flat) ⟨0, fun _ => 0, 0⟩
  let norm := (slots L.rank L.nW).foldl (L.fdfNorm V) { evts with value := 0 }
  let normFactor := norm.value + flat * flat * L.totAcc
  let derivativeFlat := norm.derivativeFlat + flat * (2 * L.nmbEvt) * L.totAcc
  let prior := match L.prior with
    | .flat => { norm with value := 0 }
    | .halfCauchy => (slots L.rank L.nW).foldl (L.fdfPrior V) { norm with value := 0 }
  (evts.value + L.nmbEvt * normFactor + prior.value, copyToParArray L.rank L.nW d prior.derivatives derivativeFlat out)

/-- `hessian[s][t][c]`, pwaLikelihood.cc:698-801, `c = 0, 1, 2`: (re, re), (re, im), (im, im) derivative. -/
noncomputable def hess (V : Amps) (flat : ℝ) (s t : Slot) (c : ℕ) : ℝ :=
  let pick : ℂ → ℂ → ℝ := fun x y =>     -- `derivative[j]` part times `derivative[i]` part
    if c = 0 then y.re * x.re else if c = 1 then y.im * x.re else y.im * x.im
  let same : Prop := s.1 = t.1 ∧ s.2.1 = t.2.1
  let part1 : ℂ → ℝ := fun z => if c = 1 then z.im else z.re
  (∑ ev ∈ range L.nmbEvents,
    ((2 / L.sigma V flat ev) * (2 / L.sigma V flat ev) * pick (L.evtDeriv V ev s) (L.evtDeriv V ev t)
      + (if same then -(2 / L.sigma V flat ev) *
          part1 ((starRingEnd ℂ) (L.decayAmps t.2.1 ev t.2.2) * L.decayAmps s.2.1 ev s.2.2) else 0)))
    + (if same then part1 (L.accMatrix s.2.1 s.2.2 t.2.2) * (2 * L.nmbEvt) else 0)
    - (match L.prior with
       | .flat => 0
       | .halfCauchy =>
         if s = t then
           let r := ‖V s‖
           let f := cauchyFunction r L.cauchyWidth
           let f' := cauchyFunctionDerivative r L.cauchyWidth
           let f'' := cauchyFunctionSecondDerivative r L.cauchyWidth
           let a1 := f'' / (f * r * r)
           let a2 := f' * f' / (f * f * r * r)
           let a3 := f' / (f * r)
           let a4 := f' / (f * r * r * r)
           let a124 := a1 - a2 - a4
           let re := (V s).re
           let im := (V s).im
           if c = 0 then a124 * re * re + a3 else if c = 1 then a124 * re * im else a124 * im * im + a3
         else 0)

/-- `flatTerms[s]`, pwaLikelihood.cc:719, 738. -/
noncomputable def flatTerms (V : Amps) (flat : ℝ) (s : Slot) : ℂ :=
  ∑ ev ∈ range L.nmbEvents, (((2 / L.sigma V flat ev) * (2 / L.sigma V flat ev) * flat : ℝ) : ℂ) * L.evtDeriv V ev s

/-- `hessianFlat`, pwaLikelihood.cc:724, 743, 763. -/
noncomputable def hessianFlat (V : Amps) (flat : ℝ) : ℝ :=
  (∑ ev ∈ range L.nmbEvents,
    ((2 / L.sigma V flat ev) * (2 / L.sigma V flat ev) * (flat * flat) - 2 / L.sigma V flat ev)) + 2 * L.nmbEvt * L.totAcc

/-- matrix element assignment. -/
def setEntry (M : ℕ → ℕ → ℝ) (i j : ℕ) (x : ℝ) : ℕ → ℕ → ℝ := fun a b => if a = i ∧ b = j then x else M a b

/-- assignment to an element whose indices may be negative (`none`): guarded by `if (i1 >= 0)`. -/
def setEntry? (M : ℕ → ℕ → ℝ) (i j : Option ℕ) (x : ℝ) : ℕ → ℕ → ℝ :=
  match i, j with
  | some i, some j => setEntry M i j x
  | _, _ => M

/-- `_parameters[i].fixed()` for a parameter of the list. -/
def fixedAt (d : ParData) (i : ℕ) : Bool := ((d.params[i]?).map (·.fixed)).getD false

/-- inner loop body pwaLikelihood.cc:821-841. -/
noncomputable def hessInner (d : ParData) (V : Amps) (flat : ℝ) (s : Slot) (r1 : ℕ) (i1 : Option ℕ) (M : ℕ → ℕ → ℝ) (t : Slot) : ℕ → ℕ → ℝ :=
  match (d.map t).1 with
  | none => M
  | some r2 =>
    if fixedAt d r2 then M
    else
      let i2 := (d.map t).2
      let M := setEntry M r1 r2 (L.hess V flat s t 0)
      let M := setEntry? M (some r1) i2 (L.hess V flat s t 1)
      let M := setEntry? M i1 (some r2) (L.hess V flat t s 1)
      setEntry? M i1 i2 (L.hess V flat s t 2)

/-- outer loop body pwaLikelihood.cc:808-853. -/
noncomputable def hessOuter (d : ParData) (V : Amps) (flat : ℝ) (M : ℕ → ℕ → ℝ) (s : Slot) : ℕ → ℕ → ℝ :=
  match (d.map s).1 with
  | none => M
  | some r1 =>
    if fixedAt d r1 then M
    else
      let i1 := (d.map s).2
      let M := (slots L.rank L.nW).foldl (L.hessInner d V flat s r1 i1) M
      let M := setEntry M r1 (d.nmbPars - 1) (L.flatTerms V flat s).re
      let M := setEntry M (d.nmbPars - 1) r1 (L.flatTerms V flat s).re
      let M := setEntry? M i1 (some (d.nmbPars - 1)) (L.flatTerms V flat s).im
      setEntry? M (some (d.nmbPars - 1)) i1 (L.flatTerms V flat s).im

/-- pwaLikelihood.cc:641-862 `Hessian` (a new `TMatrixT` is zero). -/
noncomputable def hessian (d : ParData) (par : ℕ → ℝ) : ℕ → ℕ → ℝ :=
  let p := copyFromParArray L.rank L.nW par
  let M := (slots L.rank L.nW).foldl (L.hessOuter d p.1 p.2) (fun _ _ => 0)
  setEntry M (d.nmbPars - 1) (d.nmbPars - 1) (L.hessianFlat p.1 p.2)

end LikData

end Rpwa.Lik
