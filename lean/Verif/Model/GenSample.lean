import Verif.Model.ImportanceSampler
/-!
# The number of events of genPseudoDataImportanceSampling.py

Simplifications: BAT is an outside program: its main run counts `N` iterations one by one from some first number (`start`), and in each calls
`CalculateObservables` once for every chain, with a point that it chose; the phase is then positive.  Opening of files and the command line are not modelled. -/
namespace Rpwa.ISamp

open Rpwa.Phys Rpwa.Gen

/-- what is drawn for one call: beam particle, `t'`, target and recoil masses, azimuth, and the point of BAT. -/
structure Draw where
  beam : Option LV
  tPrime : Option ℝ
  mt : ℝ
  mr : ℝ
  az : ℝ
  point : ℕ → ℝ

/-- genPseudoDataImportanceSampling.py:155 `args.nEvents/args.nChains*args.lag`; `ZeroDivisionError` without chains. -/
def iterations (nEvents nChains lag : ℕ) : Outcome ℕ := if nChains = 0 then .terminate else .ok (nEvents / nChains * lag)

/-- the calls of the main run in order: iterations, and chains within an iteration. -/
def calls (start n nChains : ℕ) : List (ℕ × ℕ) := (List.range' start n).flatMap fun it => (List.range nChains).map fun c => (it, c)

/-- importanceSampler.cc:242-338 for these calls: the events in the file. -/
noncomputable def runCalls (s : Sampler) (lag : ℕ) (store : Bool) (draw : ℕ → ℕ → Draw) : List (ℕ × ℕ) → Outcome (List Stored)
  | [] => .ok []
  | x :: xs => do
    let d := draw x.1 x.2
    let r ← observables s ⟨true, 1, x.1, lag, store⟩ d.beam d.tPrime d.mt d.mr d.az d.point
    let rest ← runCalls s lag store draw xs
    .ok (r.2.toList ++ rest)

/-- genPseudoDataImportanceSampling.py:154-158: the events in the file. -/
noncomputable def generate (s : Sampler) (start nEvents nChains lag : ℕ) (store : Bool) (draw : ℕ → ℕ → Draw) : Outcome (List Stored) := do
  let n ← iterations nEvents nChains lag
  runCalls s lag store draw (calls start n nChains)

end Rpwa.ISamp
