import Verif.Model.ResonanceFit
import Mathlib.Algebra.BigOperators.Group.Finset.Basic
import Mathlib.Algebra.BigOperators.Group.Finset.Piecewise

/-!
# Specification of the resonance fit (C42, C43)

What the chi-square of a resonance fit *should* be: a function of the current parameter array alone,
without any cache, and which number of the array is which parameter of the model.
-/

namespace Rpwa.ResFit.Spec

open Rpwa.ResFit

/-! ## the parameter array -/

/-- the real numbers a resonance model depends on: real and imaginary part of coupling `k` of the
component with number `id` in bin `b`, of branching `k`, shape parameter `k` -/
inductive Entry where
  | coupRe (id k b : ℕ)
  | coupIm (id k b : ℕ)
  | brRe (id k : ℕ)
  | brIm (id k : ℕ)
  | par (id k : ℕ)
  deriving DecidableEq

/-- value of an entry in a parameter store -/
def entry (P : Params) : Entry → ℝ
  | .coupRe id k b => (P.coup id k b).re
  | .coupIm id k b => (P.coup id k b).im
  | .brRe id k => (P.br id k).re
  | .brIm id k => (P.br id k).im
  | .par id k => P.par id k

/-- the couplings of a component: for each coupling and each bin of its master channel a real and an
imaginary part -/
def coupEntries (c : Component) : List Entry :=
  (List.range c.maps.nrCoup).flatMap fun k =>
    (c.coupBins k).flatMap fun b => [.coupRe c.id k b, .coupIm c.id k b]

/-- the branchings of a component that are not fixed to 1 -/
def brEntries (c : Component) : List Entry :=
  (List.range c.maps.nrBr).flatMap fun k =>
    if c.maps.brFixed.getD k false then [] else [.brRe c.id k, .brIm c.id k]

/-- the shape parameters of a component -/
def parEntries (c : Component) : List Entry :=
  (List.range c.shape.nrParams).map fun k => .par c.id k

/-- the parameters of the final-state mass dependence: those of the only function, or those of the
functions of all bins one after the other -/
def fsmdEntries (f : Fsmd) : List Entry :=
  (List.range f.nrFn).flatMap fun b =>
    (List.range (f.fn b).npar).map fun j => .par f.id (f.parIndex.getD b 0 + j)

/-- layout of the parameter array: couplings of all components, branchings of all components, shape
parameters of all components, final-state mass dependence -/
def layout (M : Model) : List Entry :=
  M.comps.flatMap coupEntries ++ M.comps.flatMap brEntries ++ M.comps.flatMap parEntries
    ++ (match M.fsmd with
      | none => []
      | some f => fsmdEntries f)

open Classical in
/-- the model parameters described by the array `par`: the entry at position `i` of the layout has the
value `par i`, a fixed branching is 1, everything else is 0. -/
noncomputable def valueOf (M : Model) (par : ℕ → ℝ) (e : Entry) : ℝ :=
  if e ∈ layout M then par ((layout M).idxOf e)
  else if ∃ c ∈ M.comps, ∃ k < c.maps.nrBr, c.maps.brFixed.getD k false = true ∧ e = .brRe c.id k
  then 1
  else 0

/-- the parameter store described by the array `par` -/
noncomputable def paramsOf (M : Model) (par : ℕ → ℝ) : Params where
  coup id k b := ⟨valueOf M par (.coupRe id k b), valueOf M par (.coupIm id k b)⟩
  br id k := ⟨valueOf M par (.brRe id k), valueOf M par (.brIm id k)⟩
  par id k := valueOf M par (.par id k)

/-! ## amplitudes and chi-square without cache -/

/-- factor of the final-state mass dependence -/
noncomputable def fsmdFactor (M : Model) (P : Params) (b : ℕ) (mass : ℝ) : ℂ :=
  match M.fsmd with
  | none => 1
  | some f => f.pure P b mass

/-- contribution of the channel `ch` of a component: dynamic amplitude times coupling times branching
times phase space -/
noncomputable def channelTerm (c : Component) (P : Params) (ch b : ℕ) (mass : ℝ)
    (idxMass : Option ℕ) : ℂ :=
  c.shape.value (P.par c.id) b mass
    * (P.coup c.id (c.maps.chanCoup.getD ch 0) b * P.br c.id (c.maps.chanBr.getD ch 0)
      * (((c.chan ch).phaseSpaceIntegral b mass idxMass : ℝ) : ℂ))

/-- production amplitude of wave `w` in bin `b`: sum over all channels of all components that have the
name of the wave, times the final-state mass dependence -/
noncomputable def amp (M : Model) (P : Params) (w b : ℕ) (mass : ℝ) (idxMass : Option ℕ) : ℂ :=
  (M.comps.map fun c =>
      ∑ ch ∈ Finset.range c.channels.length,
        if (c.chan ch).waveName = (M.input.wavesOf b).getD w [] then
          channelTerm c P ch b mass idxMass
        else 0).sum
    * fsmdFactor M P b mass

/-- production amplitude at a mass-bin centre -/
noncomputable def ampAt (M : Model) (P : Params) (w b m : ℕ) : ℂ :=
  amp M P w b (M.input.center b m) (some m)

/-- weighted squared deviation of one element of the spin-density matrix -/
noncomputable def rhoChi2 (D : Data) (b m i j : ℕ) (d : ℂ) : ℝ :=
  if i = j then D.rhoCovInv b m i j 0 0 * d.re ^ 2
  else if D.useCov = .diagonalOnly then
    D.rhoCovInv b m i j 0 0 * d.re ^ 2 + D.rhoCovInv b m i j 1 1 * d.im ^ 2
  else
    D.rhoCovInv b m i j 0 0 * d.re ^ 2 + D.rhoCovInv b m i j 1 1 * d.im ^ 2
      + (D.rhoCovInv b m i j 0 1 + D.rhoCovInv b m i j 1 0) * (d.re * d.im)

/-- is the mass bin within the limits of the pair of waves? -/
def inLimits (D : Data) (b m i j : ℕ) : Prop := (D.limits b i j).1 ≤ m ∧ m ≤ (D.limits b i j).2

open Classical in
/-- chi-square of a fit to the spin-density matrix: sum over bins, mass bins and pairs `i ≤ j` of waves
with the mass bin within the limits of the pair -/
noncomputable def chi2Rho (F : Fn) (P : Params) : ℝ :=
  ∑ b ∈ Finset.range F.M.input.nrBins, ∑ m ∈ Finset.range (F.M.input.nrMassOf b),
    ∑ i ∈ Finset.range (F.nrWaves b), ∑ j ∈ Finset.range (F.nrWaves b),
      if i ≤ j ∧ inLimits F.D b m i j then
        rhoChi2 F.D b m i j
          (ampAt F.M P i b m * star (ampAt F.M P j b m) - F.D.rho b m i j)
      else 0

open Classical in
/-- component `r` of the vector of differences of the production amplitudes (real part of wave `w` at
`2w`, imaginary part at `2w + 1`): production amplitudes are compared after rotation by the phase of
the anchor wave; waves outside of their mass limits and the imaginary part of the anchor wave do not
contribute. -/
noncomputable def ampDiff (F : Fn) (P : Params) (b m r : ℕ) : ℝ :=
  let w := r / 2
  let a := ampAt F.M P (F.M.anchorWave.getD b 0) b m
  let d := ampAt F.M P w b m / (a / ((‖a‖ : ℝ) : ℂ)) - F.D.amps b m w
  if inLimits F.D b m w w then
    if r % 2 = 0 then d.re else if w = F.M.anchorWave.getD b 0 then 0 else d.im
  else 0

/-- chi-square of a fit to the production amplitudes -/
noncomputable def chi2Amps (F : Fn) (P : Params) : ℝ :=
  ∑ b ∈ Finset.range F.M.input.nrBins, ∑ m ∈ Finset.range (F.M.input.nrMassOf b),
    ∑ r ∈ Finset.range (2 * F.nrWaves b), ∑ s ∈ Finset.range (2 * F.nrWaves b),
      ampDiff F P b m r * F.D.ampsCovInv b m r s * ampDiff F P b m s

/-- chi-square of a resonance fit for the parameter array `par`, from scratch -/
noncomputable def chi2 (F : Fn) (par : ℕ → ℝ) : ℝ :=
  if F.useProdAmps then chi2Amps F (paramsOf F.M par) else chi2Rho F (paramsOf F.M par)

open Classical in
/-- number of real numbers compared in the fit: the diagonal elements of the spin-density matrix are
real, each off-diagonal pair `i < j` has a real and an imaginary part; in a fit to the production
amplitudes each wave has a real and an imaginary part, except for the anchor wave, which is real. -/
noncomputable def dataPoints (F : Fn) : ℕ :=
  ∑ b ∈ Finset.range F.M.input.nrBins, ∑ m ∈ Finset.range (F.M.input.nrMassOf b),
    if F.useProdAmps then
      ∑ w ∈ Finset.range (F.nrWaves b),
        if inLimits F.D b m w w then (if w = F.M.anchorWave.getD b 0 then 1 else 2) else 0
    else
      ∑ i ∈ Finset.range (F.nrWaves b), ∑ j ∈ Finset.range (F.nrWaves b),
        if i ≤ j ∧ inLimits F.D b m i j then (if i = j then 1 else 2) else 0

/-- the mass bin `m` is used for a wave with the mass limits `lim` -/
def usesBin (lim : ℝ × ℝ) (center : ℝ) : Prop :=
  (lim.1 < 0 ∨ lim.1 ≤ center) ∧ (lim.2 < 0 ∨ center ≤ lim.2)

/-- channels of a component with the same quantum numbers are used in the same bins -/
def SameBins (I : Input) (names : List Name) : Prop :=
  ∀ w ∈ names, ∀ w' ∈ names, waveQN w = waveQN w' →
    ∀ b < I.nrBins, w ∈ I.wavesOf b ↔ w' ∈ I.wavesOf b

/-! ## start values -/

/-- coupling `k` of component number `id` is the coupling of the anchor wave of bin `b` -/
def IsAnchor (M : Model) (id k b : ℕ) : Prop :=
  ∃ c, M.comps[id]? = some c ∧ M.anchorComp.getD b 0 = id ∧
    (c.chan (c.maps.fromCoup.getD k 0)).waveAt b = some (M.anchorWave.getD b 0)

open Classical in
/-- start value of a parameter of the fit: the value of the stored parameters, except that the
imaginary part of the coupling of the anchor wave is 0 -/
noncomputable def startOf (M : Model) (P : Params) (e : Entry) : ℝ :=
  if ∃ id k b, e = .coupIm id k b ∧ IsAnchor M id k b then 0 else entry P e

/-! ## histories -/

/-- state after the evaluation of the chi-square for a list of parameter arrays by one function object
in one thread; `none` if the program ended. -/
noncomputable def after (F : Fn) : St → List (ℕ → ℝ) → Option St
  | st, [] => some st
  | st, p :: ps => (F.chiSquare st p).bind fun r => after F r.2 ps

end Rpwa.ResFit.Spec
