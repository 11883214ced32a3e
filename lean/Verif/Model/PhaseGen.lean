import Verif.Model.Storage
/-!
# Phase-space Monte Carlo files

Models pyInterface/scripts/generatePhaseSpace.py.  Simplifications: reading of the reaction file and the generator itself (GeneratorManager) are replaced by
the events it gives; the output file is new; the Comgeant file, messages and the command line are omitted; the choice of the file name is
`freeName`; particle names of the generator do not change. -/
namespace Rpwa.PhaseGen

open Rpwa.Storage

/-- the options and what the generator says about itself: generatePhaseSpace.py:19, 20, 28-31, 126-142; `varNames` is the option split at commas. -/
structure Opts where
  nEvents : ℤ
  maxAttempts : ℤ
  aux : String
  varNames : List String
  noStore : Bool
  massRange : ℝ × ℝ
  tPrimeRange : ℝ × ℝ
  beamName : String
  finalNames : List String

/-- what one call of `generatorManager.event()` gives: number of attempts, momenta, mass and t'. -/
structure Made where
  attempts : ℕ
  beam : Vec3
  final : List Vec3
  mass : Dbl
  tPrime : Dbl

/-- generatePhaseSpace.py:51-53: the limit that is used, zero stands for none. -/
def Opts.limit (o : Opts) : ℤ := if o.maxAttempts ≠ 0 ∧ o.maxAttempts < o.nEvents then 0 else o.maxAttempts

/-- generatePhaseSpace.py:126-137: names and limits of the additional variables; `none`: the option has the wrong format.  The dictionary keeps the later of
two equal keys. -/
def Opts.variables (o : Opts) : Option (List String × Bounds) :=
  if o.noStore then some ([], fun _ => none)
  else match o.varNames with
    | [a, b] => some ([a, b], fun v => if v = b then some o.tPrimeRange else if v = a then some o.massRange else none)
    | _ => none

/-- how the script ends. -/
inductive End where
  | exit
  | interrupted
  | zeroDivision
  | done (events attempts : ℕ) (efficiency : ℚ)

/-- the state when the loop is left: writer, attempts, events; `stopped` is false if it was interrupted. -/
structure LoopOut where
  writer : EventWriter
  attempts : ℕ
  events : ℕ
  stopped : Bool

/-- generatePhaseSpace.py:155-174: the loop; when no events are left in the list the script is interrupted (or stopped by an exception) in `event()`. -/
def loop (o : Opts) : EventWriter → ℕ → ℕ → List Made → Outcome LoopOut
  | w, a, n, [] => .ok ⟨w, a, n, decide (¬ (n : ℤ) < o.nEvents)⟩
  | w, a, n, m :: ms =>
    if ¬ (n : ℤ) < o.nEvents then .ok ⟨w, a, n, true⟩
    else if o.limit ≠ 0 ∧ (o.limit < a + m.attempts) then .ok ⟨w, a + m.attempts, n, true⟩
    else do
      let w' ← w.addEvent [m.beam] m.final (if o.noStore then [] else [m.mass, m.tPrime])
      loop o w' (a + m.attempts) (n + 1) ms

/-- generatePhaseSpace.py:112-185: the metadata in the file (`none`: none are written) and the end; the file is finalized in any case. -/
noncomputable def script (md5 : Hashor → String) (o : Opts) (made : List Made) : Outcome (Option EventMeta × End) :=
  match o.variables with
  | none => .ok ((EventWriter.new.finalize md5).1, .exit)
  | some v =>
    let i := EventWriter.new.initialize ⟨o.aux, .generated, [o.beamName], o.finalNames, v.2, v.1⟩
    if !i.1 then .ok ((i.2.finalize md5).1, .exit)
    else do
      let l ← loop o i.2 0 0 made
      .ok ((l.writer.finalize md5).1,
        if !l.stopped then .interrupted
        else if l.attempts = 0 then .zeroDivision
        else .done l.events l.attempts ((l.events : ℚ) / l.attempts))

/-- generatePhaseSpace.py:85-90: the number in the file name; `taken` are the numbers of existing files, `fuel` bounds the search. -/
def freeName (taken : ℕ → Bool) : ℕ → ℕ → Option ℕ
  | 0, _ => none
  | fuel + 1, index => if taken index then freeName taken fuel (index + 1) else some index

end Rpwa.PhaseGen
