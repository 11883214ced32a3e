import Verif.Model.Amplitude
import Verif.Model.Basic
/-!
# Consistency checks of key files

Models decayAmplitude/checkKeyFile.cc, `processTree` (decayAmplitude/evtTreeHelper.cc:635-714) and the eigenvalues of
decayAmplitude/decayTopology.cc:210-236.  Simplifications:
* a wave description is what the checks see of it: whether topology and amplitude can be built, the results of the two checks of the topology,
  parity and reflectivity of X, the product of the parities of the final state, and the value of the amplitude for each event and setting of
  the switches;
* numbers are real; the 32-bit counters do not overflow; events that ROOT cannot load do not occur;
* the messages are omitted; command line, opening of the data and reading of the particle table are omitted. -/
namespace Rpwa.CheckKey

open Rpwa.Amp

/-- the messages that are collected (checkKeyFile.cc:95, 110, 116, 120, 285, 291, 295, 299). -/
inductive Err where
  | parsing | topology | inconsistent | zero | deviation | spaceInv | refl
  deriving DecidableEq

/-- what the checks use of a wave description; `E` are events. -/
structure Wave (E : Type) where
  /-- `constructDecayTopology` succeeds -/
  built : Bool
  checkTopology : Bool
  checkConsistency : Bool
  /-- `constructAmplitude` gives an amplitude -/
  hasAmp : Bool
  /-- `initKinematicsData` succeeds for the particles of the data -/
  initOk : Bool
  /-- `readKinematicsData` succeeds -/
  readable : E → Bool
  amp : Switches → E → ℂ
  P : ℤ
  refl : ℤ
  fsParity : ℤ

/-- decayTopology.cc:222-227 `spaceInvEigenValue`; integer division by zero is undefined. -/
def Wave.spaceInvEigenValue {E : Type} (w : Wave E) : Outcome ℤ :=
  if w.fsParity = 0 then .ub else .ok (w.P.tdiv w.fsParity)

/-- decayTopology.cc:230-236 `reflectionEigenValue`. -/
def Wave.reflectionEigenValue {E : Type} (w : Wave E) : Outcome ℤ :=
  if w.refl * w.fsParity = 0 then .ub else .ok ((-1 : ℤ).tdiv (w.refl * w.fsParity))

/-- evtTreeHelper.cc:678-680: number of events. -/
def nmbEvents (maxNmbEvents : ℤ) (n : ℕ) : ℕ := if maxNmbEvents > 0 then min maxNmbEvents.toNat n else n

/-- evtTreeHelper.cc:683-704: the loop over the events. -/
noncomputable def ampLoop {E : Type} (w : Wave E) (sw : Switches) : List E → Bool × List ℂ
  | [] => (true, [])
  | e :: es =>
    if w.readable e then ((ampLoop w sw es).1, w.amp sw e :: (ampLoop w sw es).2) else (false, (ampLoop w sw es).2)

/-- evtTreeHelper.cc:635-714 `processTree`. -/
noncomputable def processTree {E : Type} (w : Wave E) (sw : Switches) (maxNmbEvents : ℤ) (events : List E) : Bool × List ℂ :=
  if !w.hasAmp then (false, [])
  else if !w.initOk then (false, [])
  else ampLoop w sw (events.take (nmbEvents maxNmbEvents events.length))

open Classical in
/-- checkKeyFile.cc:212-216, 245-249: the ratio of one component. -/
noncomputable def ratio (a b : ℝ) : ℝ := if b ≠ 0 then a / b else 0

open Classical in
/-- checkKeyFile.cc:218-219, 251-252: the ratios are too large. -/
noncomputable def ratioBad (maxDelta : ℝ) (r : ℝ × ℝ) : Bool := decide (|r.1| - 1 > maxDelta ∨ |r.2| - 1 > maxDelta)

open Classical in
/-- checkKeyFile.cc:226-229, 259-262: the sign of a ratio is not the eigenvalue. -/
noncomputable def eigenBad (eig : ℤ) (r : ℝ × ℝ) : Bool :=
  decide ((r.1 ≠ 0 ∧ r.1 / |r.1| ≠ eig) ∨ (r.2 ≠ 0 ∧ r.2 / |r.2| ≠ eig))

/-- the counters of checkKeyFile.cc:187-190. -/
structure Counts where
  ampZero : ℕ
  ratioNotOk : ℕ
  spaceInvNotOk : ℕ
  reflNotOk : ℕ

open Classical in
/-- checkKeyFile.cc:191-278: one event; the three amplitudes. -/
noncomputable def countEvent (maxDelta : ℝ) (sEig rEig : ℤ) (c : Counts) (a : ℂ × ℂ × ℂ) : Counts :=
  let s := (ratio a.1.re a.2.1.re, ratio a.1.im a.2.1.im)
  let r := (ratio a.1.re a.2.2.re, ratio a.1.im a.2.2.im)
  { ampZero := c.ampZero + (if a.1 = 0 then 1 else 0)
    ratioNotOk := c.ratioNotOk + (if ratioBad maxDelta s then 1 else 0) + (if ratioBad maxDelta r then 1 else 0)
    spaceInvNotOk := c.spaceInvNotOk + (if eigenBad sEig s then 1 else 0)
    reflNotOk := c.reflNotOk + (if eigenBad rEig r then 1 else 0) }

/-- checkKeyFile.cc:284-301: the errors for the counters. -/
def Counts.errors (c : Counts) : List Err :=
  (if c.ampZero > 0 then [.zero] else []) ++ (if c.ratioNotOk > 0 then [.deviation] else []) ++
    (if c.spaceInvNotOk > 0 then [.spaceInv] else []) ++ (if c.reflNotOk > 0 then [.refl] else [])

/-- checkKeyFile.cc:139-302: the amplitudes of a wave are calculated and compared; `none`: `continue`. -/
noncomputable def checkAmps {E : Type} (maxNmbEvents : ℤ) (maxDelta : ℝ) (events : List E) (w : Wave E) : Outcome (Option (List Err)) :=
  let a := processTree w {} maxNmbEvents events
  if !a.1 then .ok none
  else if a.2.length < 1 then .ok none
  else
    let s := processTree w { spaceInversion := true } maxNmbEvents events
    if !s.1 then .ok none
    else
      let r := processTree w { reflection := true } maxNmbEvents events
      if !r.1 then .ok none
      else if a.2.length ≠ s.2.length ∨ a.2.length ≠ r.2.length then .ok none
      else do
        let sEig ← w.spaceInvEigenValue
        let rEig ← w.reflectionEigenValue
        .ok (some ((a.2.zip (s.2.zip r.2)).foldl (countEvent maxDelta sEig rEig) ⟨0, 0, 0, 0⟩).errors)

/-- checkKeyFile.cc:99-303: one wave; the errors, and whether it was found wrong (`successAll &= success` is not reached after `continue`). -/
noncomputable def checkWave {E : Type} (maxNmbEvents : ℤ) (maxDelta : ℝ) (data : Option (List E)) (w : Wave E) : Outcome (List Err × Bool) :=
  if !w.built then .ok ([.parsing], true)
  else
    let errs := (if !w.checkTopology then [Err.topology] else []) ++ (if !w.checkConsistency then [Err.inconsistent] else [])
    if errs ≠ [] then .ok (errs, true)
    else match data with
      | none => .ok ([], true)
      | some events => do
        let e ← checkAmps maxNmbEvents maxDelta events w
        match e with
        | none => .ok ([], true)
        | some e => .ok (e, decide (e = []))

/-- checkKeyFile.cc:98-304: the loop over the waves. -/
noncomputable def waveLoop {E : Type} (maxNmbEvents : ℤ) (maxDelta : ℝ) (data : Option (List E)) : List (Wave E) → Outcome (List Err × Bool)
  | [] => .ok ([], true)
  | w :: ws => do
    let r ← checkWave maxNmbEvents maxDelta data w
    let rest ← waveLoop maxNmbEvents maxDelta data ws
    .ok (r.1 ++ rest.1, r.2 && rest.2)

/-- checkKeyFile.cc:78-306 `testAmplitude`: the errors and the returned value. -/
noncomputable def testAmplitude {E : Type} (maxNmbEvents : ℤ) (maxDelta : ℝ) (data : Option (List E)) (waves : List (Wave E)) : Outcome (List Err × Bool) :=
  if waves.length = 0 then .ok ([.parsing], false)
  else waveLoop maxNmbEvents maxDelta data waves

/-- what the program reports: exit status, number of files that failed, and, unless all passed, the files for every error. -/
structure Report where
  exit : ℕ
  failed : ℕ
  files : Err → List String

/-- checkKeyFile.cc:401-416: the loop over the key files. -/
noncomputable def fileLoop {E : Type} (maxNmbEvents : ℤ) (maxDelta : ℝ) (data : Option (List E)) :
    ℕ → (Err → List String) → List (String × List (Wave E)) → Outcome (ℕ × (Err → List String))
  | n, m, [] => .ok (n, m)
  | n, m, f :: fs => do
    let r ← testAmplitude maxNmbEvents maxDelta data f.2
    fileLoop maxNmbEvents maxDelta data (if r.2 then n else n + 1) (r.1.foldl (fun m e => Function.update m e (m e ++ [f.1])) m) fs

/-- checkKeyFile.cc:398-441: the rest of `main`. -/
noncomputable def checkKeyFiles {E : Type} (maxNmbEvents : ℤ) (maxDelta : ℝ) (data : Option (List E)) (files : List (String × List (Wave E))) :
    Outcome Report := do
  let r ← fileLoop maxNmbEvents maxDelta data 0 (fun _ => []) files
  if r.1 = 0 then .ok ⟨0, 0, fun _ => []⟩ else .ok ⟨1, r.1, r.2⟩

end Rpwa.CheckKey
