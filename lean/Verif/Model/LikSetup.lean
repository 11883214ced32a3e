import Verif.Model.LikTools
import Verif.Model.IntegralMatrix
/-!
# partialWaveFit/pwaLikelihood.cc: setting up a likelihood

Models the object with all members that `init`, `addNormIntegral`, `addAccIntegral`, `addAmplitude` and `finishInit` use, and these calls.
Simplifications:
* `double` is `ℝ`; matrices with zero events (NaN in C++) are excluded by hypotheses of the theorems;
* `addAmplitude` gets the name of the wave and the decay amplitudes that were read from the files; reading and the checks of the event files
  are modelled in `Model/OtfBin` (C48);
* a wave description is the reflectivity of its topology; the CUDA interface and printing are omitted. -/
namespace Rpwa.Lik

open Rpwa.Integral

/-- pwaLikelihood.h:286-330: members of the object. -/
structure LikObj where
  nW : ℕ → ℕ
  name : WaveIx → String
  waveParams : List (String × WaveIx)
  ampAdded : WaveIx → Bool
  rank : ℕ
  pars : ParData
  initialized : Bool
  normIntAdded : Bool
  accIntAdded : Bool
  initFinished : Bool
  numbAccEvents : ℕ
  totAcc : ℝ
  ints : Ints
  phaseSpace : WaveIx → ℝ
  nmbEvents : ℕ
  decayAmps : WaveIx → ℕ → ℂ
  useNorm : Bool
  prior : Prior
  cauchyWidth : ℝ

/-- pwaLikelihood.cc:134-160: a new object; `_totAcc` and `_nmbParsFixed` are not initialised (0 here). -/
noncomputable def LikObj.new : LikObj :=
  { nW := fun _ => 0, name := fun _ => "", waveParams := [], ampAdded := fun _ => false, rank := 1,
    pars := ⟨0, [], fun _ => (some 0, some 0), 0⟩, initialized := false, normIntAdded := false, accIntAdded := false, initFinished := false,
    numbAccEvents := 0, totAcc := 0, ints := ⟨fun _ _ => 0, fun _ _ => 0⟩, phaseSpace := fun _ => 0, nmbEvents := 0,
    decayAmps := fun _ _ => 0, useNorm := true, prior := .flat, cauchyWidth := 0.5 }

/-- pwaLikelihood.cc:1481: `_waveParams.insert(...)`; an existing name keeps its index. -/
def insertParam (m : List (String × WaveIx)) (n : String) (i : WaveIx) : List (String × WaveIx) :=
  if (m.lookup n).isSome then m else m ++ [(n, i)]

/-- pwaLikelihood.cc:1050-1063 `init` with `readWaveList` (l.1443-1484) and `buildParDataStruct`; waves are `(name, reflectivity, threshold)`.
The numbers of waves are not reset (l.1463, 1467): for an object that has waves already the loop l.1476-1482 reads behind the end of the local
vectors. -/
noncomputable def LikObj.init (s : LikObj) (ws : List (String × ℤ × ℝ)) (rank : ℕ) (massBinCenter : ℝ) : Outcome (Bool × LikObj) :=
  if ¬ ∀ w ∈ ws, w.2.1 = 1 ∨ w.2.1 = -1 then .terminate
  else if s.nW 0 ≠ 0 ∨ s.nW 1 ≠ 0 then .ub
  else do
    let wl := readWaveList ws
    let s := { s with
      nW := wl.nW, name := fun i => wl.name i.1 i.2, ampAdded := fun i => if i ∈ waveIxs wl.nW then false else s.ampAdded i,
      waveParams := (waveIxs wl.nW).foldl (fun m i => insertParam m (wl.name i.1 i.2) i) s.waveParams }
    let d ← buildParDataStruct wl rank massBinCenter
    match d with
    | none => .ok (false, s)
    | some d => .ok (true, { s with rank := rank, pars := d, initialized := true })

/-- pairs of waves of the same reflectivity (pwaLikelihood.cc:1568-1570). -/
def wavePairs (nW : ℕ → ℕ) : List (WaveIx × WaveIx) :=
  (List.range 2).flatMap fun e => (List.range (nW e)).flatMap fun i => (List.range (nW e)).map fun j => ((e, i), (e, j))

/-- pwaLikelihood.cc:1560-1575 `reorderIntegralMatrix`; `resize` keeps the elements of the array. -/
noncomputable def reorderIntegralMatrix (nW : ℕ → ℕ) (name : WaveIx → String) (m : IntMat) (M : WaveIx → WaveIx → ℂ) :
    Outcome (WaveIx → WaveIx → ℂ) :=
  (wavePairs nW).foldlM (fun M p => do
    let z ← m.elementByName (name p.1) (name p.2)
    .ok (setIx M p.1 p.2 z)) M

/-- pwaLikelihood.cc:1066-1083 `addNormIntegral`. -/
noncomputable def LikObj.addNormIntegral (s : LikObj) (m : IntMat) : Outcome (Bool × LikObj) :=
  if !s.initialized then .ok (false, s)
  else do
    let M ← reorderIntegralMatrix s.nW s.name m s.ints.norm
    .ok (true, { s with numbAccEvents := m.nmbEvents, ints := { s.ints with norm := M }, normIntAdded := true })

/-- pwaLikelihood.cc:1086-1107 `addAccIntegral`; also returns the matrix of the caller, whose number of events is changed (l.1100). -/
noncomputable def LikObj.addAccIntegral (s : LikObj) (m : IntMat) (accEventsOverride : ℕ) : Outcome (Bool × LikObj × IntMat) :=
  if !s.normIntAdded then .ok (false, s, m)
  else do
    let n := if accEventsOverride = 0 then s.numbAccEvents else accEventsOverride
    let totAcc : ℝ := (m.nmbEvents : ℝ) / n
    let m := { m with nmbEvents := n }
    let M ← reorderIntegralMatrix s.nW s.name m s.ints.acc
    .ok (true, { s with numbAccEvents := n, totAcc := totAcc, ints := { s.ints with acc := M }, accIntAdded := true }, m)

open Classical in
/-- pwaLikelihood.cc:1248-1262: the loop over the events, from event `ev` on; the state is the array of amplitudes of the wave and `fixPar`; the
first component is false if the call is refused. -/
noncomputable def loadLoop (useNorm : Bool) (normInt : ℂ) : List ℂ → ℕ → (ℕ → ℂ) × Bool → Bool × (ℕ → ℂ) × Bool
  | [], _, st => (true, st)
  | a :: as, ev, st =>
    if useNorm ∧ normInt = 0 ∧ a ≠ 0 then (false, st)
    else
      let a := if useNorm ∧ normInt ≠ 0 then a / ((Real.sqrt normInt.re : ℝ) : ℂ) else a
      loadLoop useNorm normInt as (ev + 1) (Function.update st.1 ev a, if a ≠ 0 then false else st.2)

/-- pwaLikelihood.cc:1225-1240: the first wave sets the number of events and the size of the array of amplitudes. -/
noncomputable def LikObj.setEvents (s : LikObj) (n : ℕ) : LikObj :=
  if s.nmbEvents = 0 then { s with nmbEvents := n, decayAmps := fun _ _ => 0 } else s

open Classical in
/-- pwaLikelihood.cc:1110-1285 `addAmplitude`; `amps` are the amplitudes read from the files. -/
noncomputable def LikObj.addAmplitude (s : LikObj) (wave : String) (amps : List ℂ) : Bool × LikObj :=
  if !s.accIntAdded then (false, s)
  else match s.waveParams.lookup wave with
    | none => (false, s)
    | some i =>
      if amps.length = 0 then (false, s)
      else
        let s := s.setEvents amps.length
        if amps.length ≠ s.nmbEvents then (false, s)
        else
          let r := loadLoop s.useNorm (s.ints.norm i i) amps 0 (s.decayAmps i, decide (s.ints.acc i i = 0))
          let s := { s with decayAmps := Function.update s.decayAmps i r.2.1 }
          if !r.1 then (false, s)
          else (true, { s with
            pars := if r.2.2 then fixWave s.pars wave else s.pars
            ampAdded := Function.update s.ampAdded i true })

/-- pwaLikelihood.cc:1291-1388 `finishInit`; the rescaling of the integrals is `rescaleIntegrals`. -/
noncomputable def LikObj.finishInit (s : LikObj) : Bool × LikObj :=
  if (waveIxs s.nW).any fun i => !s.ampAdded i then (false, s)
  else (true, { s with
    phaseSpace := fun i => if i ∈ waveIxs s.nW then Real.sqrt (s.ints.norm i i).re else s.phaseSpace i
    ints := if s.useNorm then rescaleIntegrals s.nW s.ints else s.ints
    initFinished := true })

/-- what the likelihood function uses. -/
def LikObj.data (s : LikObj) : LikData :=
  ⟨s.rank, s.nW, s.nmbEvents, fun e ev w => s.decayAmps (e, w) ev, fun e i j => s.ints.acc (e, i) (e, j), s.totAcc, s.useNorm, s.prior,
    s.cauchyWidth⟩

/-- pwaLikelihood.cc:318-326 `DoEval`: refused before `finishInit`. -/
noncomputable def LikObj.doEval (s : LikObj) (par : ℕ → ℝ) : Outcome ℝ := if !s.initFinished then .terminate else .ok (s.data.doEval par)

/-- the calls of a user. -/
inductive SetupCall where
  | useNormalizedAmps (b : Bool)
  | setPriorType (p : Prior)
  | setCauchyWidth (w : ℝ)
  | init (ws : List (String × ℤ × ℝ)) (rank : ℕ) (massBinCenter : ℝ)
  | addNormIntegral (m : IntMat)
  | addAccIntegral (m : IntMat) (accEventsOverride : ℕ)
  | addAmplitude (wave : String) (amps : List ℂ)
  | finishInit

/-- pwaLikelihood.h:210, 212, 214 and the functions above: result and new object. -/
noncomputable def LikObj.step (s : LikObj) : SetupCall → Outcome (Bool × LikObj)
  | .useNormalizedAmps b => .ok (true, { s with useNorm := b })
  | .setPriorType p => .ok (true, { s with prior := p })
  | .setCauchyWidth w => .ok (true, { s with cauchyWidth := w })
  | .init ws rank m => s.init ws rank m
  | .addNormIntegral m => s.addNormIntegral m
  | .addAccIntegral m n => (s.addAccIntegral m n).map fun r => (r.1, r.2.1)
  | .addAmplitude w a => .ok (s.addAmplitude w a)
  | .finishInit => .ok s.finishInit

end Rpwa.Lik
