import Verif.Model.PhaseSpace
import Verif.Model.Frames
import Verif.Model.Basic
import Mathlib.Analysis.SpecialFunctions.Log.Basic
/-!
# Sampling of events according to a model

Models `generators/importanceSampler.{h,cc}`. The Bayesian Analysis Toolkit (BAT), which calls these functions, is not part of the repository: it samples points of the
parameter box with a probability proportional to `exp (LogAPrioriProbability + LogLikelihood)`, the latter only where the former is finite.
Simplifications: `double` is `ℝ`; the model, the beam generator, the picker function and the prior for the mass are functions; statistics of calls are omitted; the random
azimuth of `calculateXSystemLab` is an argument; a point is a function of the index of the parameter. -/
namespace Rpwa.ISamp
open Rpwa.Gen

/-- what `std::log` returns. -/
inductive Log where
  | negInf
  | fin (x : ℝ)
  | nan

open Classical in
/-- `std::log`; `none`: the argument is no number. -/
noncomputable def clog : Option ℝ → Log
  | none => .nan
  | some x => if x = 0 then .negInf else if x < 0 then .nan else .fin (Real.log x)

/-- members (importanceSampler.h:60-72). -/
structure Sampler where
  masses : List ℝ
  phaseSpaceOnly : Bool
  massPrior : Option (ℝ → ℝ)
  model : List V3 → Outcome ℝ

/-- a parameter of BAT: fixed or with limits. -/
inductive Par where
  | fix (x : ℝ)
  | range (lo hi : ℝ)

open Classical in
/-- limits of the parameter for the mass of the first `i + 1` particles (importanceSampler.cc:94-123); `lo` is the sum of the masses. -/
noncomputable def massPar (n i : ℕ) (lo mMin mMax : ℝ) : Par :=
  if i = n - 1 then (if mMin = mMax then .fix mMax else .range mMin mMax) else .range lo mMax

/-- the parameters (importanceSampler.cc:94-140). -/
noncomputable def parameters (masses : List ℝ) (mMin mMax : ℝ) : List Par :=
  (List.range (masses.length - 1)).flatMap fun i => [massPar masses.length (i + 1) (PS.sums (fun j => masses.getD j 0) (i + 1)) mMin mMax, .range (-1) 1, .range 0 (2 * Real.pi)]

/-- the constructor (importanceSampler.cc:52-157): less than two particles and an inverted mass range end the program. -/
noncomputable def new (masses : List ℝ) (mMin mMax : ℝ) (model : List V3 → Outcome ℝ) : Outcome (Sampler × List Par) :=
  if masses.length < 2 then .terminate
  else if mMin > mMax then .terminate
  else .ok (⟨masses, false, none, model⟩, parameters masses mMin mMax)

/-- the masses of the subsystems (importanceSampler.cc:386-390). -/
def sub (masses : List ℝ) (p : ℕ → ℝ) (i : ℕ) : ℝ := if i = 0 then masses.getD 0 0 else p (3 * i - 3)

/-- an option that is not given ends the program (`throw` without exception). -/
def need {α : Type} : Option α → Outcome α
  | some x => .ok x
  | none => .terminate

open Classical in
/-- `initializeNBodyPhaseSpace` (importanceSampler.cc:372-407); the inner `none`: false is returned. -/
noncomputable def initPS (masses : List ℝ) (p : ℕ → ℝ) (angles : Bool) : Outcome (Option PS) :=
  let g := ((PS.new.setWeightType .chung).setKinematicsType .block).setDecay masses
  if g.2 = false then .ok none
  else if ∃ i, i + 1 < masses.length ∧ sub masses p i + masses.getD (i + 1) 0 > sub masses p (i + 1) then .ok none
  else (need (g.1.setMasses ((List.range masses.length).map (sub masses p)))).bind fun g =>
    if angles then (need (g.setAngles ((List.range masses.length).map fun i => if i = 0 then 0 else p (3 * i - 2))
      ((List.range masses.length).map fun i => if i = 0 then 0 else p (3 * i - 1)))).bind fun g => .ok (some g)
    else .ok (some g)

/-- the mass of the X (importanceSampler.cc:174, 214, 260). -/
def mX (s : Sampler) (p : ℕ → ℝ) : ℝ := p (3 * s.masses.length - 6)

open Classical in
/-- `LogAPrioriProbability` (importanceSampler.cc:160-194). -/
noncomputable def logPrior (s : Sampler) (p : ℕ → ℝ) : Outcome Log :=
  (initPS s.masses p false).bind fun g => match g with
    | none => .ok .negInf
    | some g => (need g.calcWeight).bind fun g =>
      let x := div? g.weight ((mX s p - s.masses.sum) ^ (s.masses.length - 2))
      .ok (clog (match s.massPrior with | none => x | some f => x.map fun y => y * f (mX s p)))

/-- decay of an X at rest (importanceSampler.cc:207-216, 253-262). -/
noncomputable def decay (s : Sampler) (p : ℕ → ℝ) : Outcome PS :=
  (initPS s.masses p true).bind fun g => (need g).bind fun g => (need g.calcBreakupMomenta).bind fun g => .ok (g.calcEventKinematics ⟨0, 0, 0, mX s p⟩)

/-- `LogLikelihood` (importanceSampler.cc:197-239). -/
noncomputable def logLikelihood (s : Sampler) (p : ℕ → ℝ) : Outcome Log :=
  if s.phaseSpaceOnly then .ok (.fin 0)
  else (decay s p).bind fun g => (s.model ((List.range s.masses.length).map fun i => (g.daughters i).vect)).bind fun x => .ok (clog (some x))

/-- `TLorentzRotation::Inverse`: transposed matrix with the signs of the metric. -/
def invert (L : LV → LV) (q : LV) : LV :=
  let pr (a b : LV) : ℝ := a.t * b.t - (a.x * b.x + a.y * b.y + a.z * b.z)
  ⟨-pr (L ⟨1, 0, 0, 0⟩) q, -pr (L ⟨0, 1, 0, 0⟩) q, -pr (L ⟨0, 0, 1, 0⟩) q, pr (L ⟨0, 0, 0, 1⟩) q⟩

/-- what BAT and the file writer know when `CalculateObservables` is called. -/
structure Now where
  writerReady : Bool
  phase : ℤ
  iteration : ℕ
  lag : ℕ
  storeMassAndTPrime : Bool

/-- production kinematics (importanceSampler.cc:341-369): the beam generator gives a beam particle or fails, the picker a `t'` or fails; `none` for X: all components are
no numbers, which the program does not notice. -/
noncomputable def production (beam : Option LV) (tPrime : Option ℝ) (mt mr x phi : ℝ) : Outcome (ℝ × LV × Option LV) :=
  (need beam).bind fun b => (need tPrime).bind fun t => .ok (t, b, calculateXSystemLab b mt x mr (b + ⟨0, 0, 0, mt⟩).m2 t phi)

/-- an event in the file; `none` for `decay`: all components are no numbers; `none` in `vars`: no number. -/
structure Stored where
  prod : List V3
  decay : Option (List V3)
  vars : List (Option ℝ)

/-- `CalculateObservables` (importanceSampler.cc:242-338): squared masses of all pairs, and the event that is written, if any. A lag of 0 is a division by zero. -/
noncomputable def observables (s : Sampler) (w : Now) (beam : Option LV) (tPrime : Option ℝ) (mt mr phi : ℝ) (p : ℕ → ℝ) : Outcome (List ℝ × Option Stored) :=
  (decay s p).bind fun g =>
    let pairs := (List.range s.masses.length).flatMap fun a => (List.range a).map fun b => (g.daughters a + g.daughters b).m2
    if w.writerReady = true ∧ w.phase > 0 then
      if w.lag = 0 then .ub
      else if w.iteration % w.lag ≠ 0 then .ok (pairs, none)
      else (production beam tPrime mt mr (mX s p) phi).bind fun r =>
        .ok (pairs, some ⟨[r.2.1.vect], r.2.2.map fun X => (List.range s.masses.length).map fun i => (invert (Amp.gjTransform r.2.1 X) (g.daughters i)).vect,
          if w.storeMassAndTPrime then [r.2.2.map fun X => Real.sqrt X.m2, some r.1] else []⟩)
    else .ok (pairs, none)

end Rpwa.ISamp
