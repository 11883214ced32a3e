import Verif.Model.LikSetup
import Verif.Spec.IntegralMatrix
import Verif.Spec.Likelihood
/-!
# Specification of setting up a likelihood (C63)
-/
namespace Rpwa.Lik

open Rpwa.Integral

/-- what a likelihood is made from. -/
structure SetupInput where
  ws : List (String × ℤ × ℝ)
  rank : ℕ
  mass : ℝ
  norm : IntMat
  acc : IntMat
  accEventsOverride : ℕ
  amps : String → List ℂ
  useNorm : Bool
  prior : Prior
  cauchyWidth : ℝ

namespace SetupInput
variable (inp : SetupInput)

/-- wave names by reflectivity and index. -/
noncomputable def waves : WaveList := readWaveList inp.ws

/-- `i` is the index of a wave. -/
def IsWave (i : WaveIx) : Prop := i.1 < 2 ∧ i.2 < inp.waves.nW i.1

/-- name of a wave. -/
noncomputable def waveName (i : WaveIx) : String := inp.waves.name i.1 i.2

/-- the number of Monte Carlo events before acceptance: that of the normalisation integral unless it is given. -/
def genEvents : ℕ := if inp.accEventsOverride = 0 then inp.norm.nmbEvents else inp.accEventsOverride

open Classical in
/-- the integrals per generated event; waves of different reflectivity do not interfere. -/
noncomputable def ints : Ints where
  norm := fun i j => if i.1 = j.1 ∧ inp.IsWave i ∧ inp.IsWave j then inp.norm.entry (inp.waveName i) (inp.waveName j) / (inp.norm.nmbEvents : ℂ) else 0
  acc := fun i j => if i.1 = j.1 ∧ inp.IsWave i ∧ inp.IsWave j then inp.acc.entry (inp.waveName i) (inp.waveName j) / (inp.genEvents : ℂ) else 0

open Classical in
/-- the decay amplitudes. -/
noncomputable def decayAmps : WaveIx → ℕ → ℂ := fun i ev => if inp.IsWave i then (inp.amps (inp.waveName i)).getD ev 0 else 0

/-- the fraction of accepted events. -/
noncomputable def totAcc : ℝ := (inp.acc.nmbEvents : ℝ) / inp.genEvents

/-- a wave without any amplitude and without acceptance integral. -/
def Empty (i : WaveIx) : Prop := (inp.ints.acc i i = 0) ∧ ∀ a ∈ inp.amps (inp.waveName i), a = 0

/-- the calls of `pyRootPwa.initLikelihood` (_likelihood.py:17-69); the amplitudes of the waves are added in some order. -/
def protocol (order : List String) : List SetupCall :=
  [.useNormalizedAmps inp.useNorm, .setPriorType inp.prior, .setCauchyWidth inp.cauchyWidth, .init inp.ws inp.rank inp.mass,
    .addNormIntegral inp.norm, .addAccIntegral inp.acc inp.accEventsOverride] ++
  order.map (fun w => .addAmplitude w (inp.amps w)) ++ [.finishInit]

/-- diagonal elements of an integral matrix are real and not negative (C19). -/
def DiagOk : Prop := ∀ i, inp.IsWave i → 0 ≤ (inp.ints.norm i i).re ∧ (inp.ints.norm i i).im = 0

/-- input that can be used. -/
structure Usable (N : ℕ) : Prop where
  hrefl : ∀ w ∈ inp.ws, w.2.1 = 1 ∨ w.2.1 = -1
  hwaves : inp.ws ≠ []
  hnodup : (inp.ws.map (·.1)).Nodup
  hnormWF : inp.norm.WF
  haccWF : inp.acc.WF
  hnorm : ∀ w ∈ inp.ws, w.1 ∈ inp.norm.names
  hacc : ∀ w ∈ inp.ws, w.1 ∈ inp.acc.names
  hevents : 0 < N
  hamps : ∀ w ∈ inp.ws, (inp.amps w.1).length = N
  hzero : inp.useNorm = true → ∀ i, inp.IsWave i → inp.ints.norm i i = 0 → ∀ a ∈ inp.amps (inp.waveName i), a = 0

/-- the factor between the amplitudes of a wave and those the likelihood uses: the square root of its normalisation integral if amplitudes are
normalised (and the integral is not zero). -/
noncomputable def scale (i : WaveIx) : ℝ :=
  if inp.useNorm = false ∨ Real.sqrt (inp.ints.norm i i).re = 0 then 1 else Real.sqrt (inp.ints.norm i i).re

/-- what a user expects of a finished likelihood of `N` events. -/
structure Finished (N : ℕ) (s : LikObj) : Prop where
  hevents : s.data.nmbEvents = N
  hrank : s.data.rank = inp.rank
  hnW : s.data.nW = inp.waves.nW
  hnorm : s.data.useNormalizedAmps = inp.useNorm
  hprior : s.data.prior = inp.prior
  hwidth : s.data.cauchyWidth = inp.cauchyWidth
  hevaluable : s.initFinished = true
  hamps : ∀ i, inp.IsWave i → (inp.amps (inp.waveName i)).length = N ∧
    ∀ ev, s.data.decayAmps i.1 ev i.2 * (inp.scale i : ℂ) = (inp.amps (inp.waveName i)).getD ev 0
  hacc : ∀ i j, inp.IsWave i → inp.IsWave j → i.1 = j.1 →
    s.data.accMatrix i.1 i.2 j.2 * ((inp.scale i : ℂ) * (inp.scale j : ℂ)) * (inp.genEvents : ℂ) = inp.acc.entry (inp.waveName i) (inp.waveName j)
  htot : s.data.totAcc * inp.genEvents = inp.acc.nmbEvents
  hphase : ∀ i, inp.IsWave i → s.phaseSpace i = Real.sqrt (inp.ints.norm i i).re
  hpars : ∃ d, buildParDataStruct inp.waves inp.rank inp.mass = .ok (some d) ∧ s.pars.nmbPars = d.nmbPars ∧ s.pars.map = d.map ∧
    s.pars.nmbParsFixed = d.nmbParsFixed ∧ s.pars.params.length = d.params.length ∧
    ∀ (k : ℕ) (p : FitPar), d.params[k]? = some p → ∃ q : FitPar, s.pars.params[k]? = some q ∧ q.waveName = p.waveName ∧ q.rank = p.rank ∧
      q.threshold = p.threshold ∧ q.realPart = p.realPart ∧
      (q.fixed = true ↔ p.fixed = true ∨ ∃ i, inp.IsWave i ∧ inp.waveName i = p.waveName ∧ inp.Empty i)

end SetupInput

/-- a sequence of calls of which every one reports success. -/
inductive Succeeds : LikObj → List SetupCall → LikObj → Prop
  | nil (s) : Succeeds s [] s
  | cons {s t u c cs} : s.step c = .ok (true, t) → Succeeds t cs u → Succeeds s (c :: cs) u

/-- states that any sequence of calls can reach, successful or not. -/
inductive SetupReach : LikObj → List SetupCall → LikObj → Prop
  | nil (s) : SetupReach s [] s
  | cons {s t u c cs} {b : Bool} : s.step c = .ok (b, t) → SetupReach t cs u → SetupReach s (c :: cs) u

end Rpwa.Lik
