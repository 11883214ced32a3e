import Verif.Model.Generator
import Verif.Model.Pickers
import Verif.Model.BeamVertex
/-!
# Generator manager

Models `generators/generatorManager.{h,cc}` and the setters of `generators/generator.h`, on top of the models of `diffractivePhaseSpace` (Generator), the
picker functions (Pickers) and `beamAndVertexGenerator` (BeamVertex).  Simplifications:
* particles are of type `P` with a mass; the particle data table is a function from names; Lorentz vectors of particles are kept in the events;
* the reaction file is given by its settings (`none`: it cannot be parsed), beam files are a function from names; a setting that cannot be converted ends the
  program (the exception of libconfig is not caught);
* picker functions are objects on a heap and the manager and the generators hold addresses (`shared_ptr`); the beam-and-vertex generator is one object that is
  created with the manager and shared with all generators;
* an inner `none` of an outcome: the event generator model gives no result (the program ends, or more random numbers are needed);
* debug output, printing and the removed features (warnings only) are omitted. -/
namespace Rpwa.Mgr

open Rpwa.Pick (Cfg CfgType Group allThere Ranges ExpPicker PolyPicker)
open Rpwa.Gen (V3 LV Diff PS)

/-- `Beam` (generatorParameters.hpp:10-17). -/
structure BeamPar (P : Type) where
  particle : P
  momentum : ℝ
  momentumSigma : ℝ
  dxdz : ℝ
  dxdzSigma : ℝ
  dydz : ℝ
  dydzSigma : ℝ

/-- `Target` (generatorParameters.hpp:41-47). -/
structure TargetPar (P : Type) where
  target : P
  recoil : P
  posX : ℝ
  posY : ℝ
  posZ : ℝ
  length : ℝ
  radius : ℝ
  interactionLength : ℝ

/-- a picker function: one of the three classes of generatorPickerFunctions.h. -/
inductive Picker where
  | exp (p : ExpPicker)
  | poly (p : PolyPicker)
  | uniform (r : Ranges)

def Picker.ranges : Picker → Ranges
  | .exp p => p.ranges
  | .poly p => p.ranges
  | .uniform r => r

def Picker.setRanges (r : Ranges) : Picker → Picker
  | .exp p => .exp { p with ranges := r }
  | .poly p => .poly { p with ranges := r }
  | .uniform _ => .uniform r

/-- generatorPickerFunctions.cc:18-26. -/
def Picker.overrideMassRange (p : Picker) (lo hi : ℝ) : Outcome Picker := do
  let r ← p.ranges.overrideMassRange lo hi
  .ok (p.setRanges r)

/-- the virtual function `init`. -/
noncomputable def Picker.init (p : Picker) (g : Group) : Outcome (Bool × Picker) :=
  match p with
  | .exp p => do
    let r ← p.init g
    .ok (r.1, .exp r.2)
  | .poly p => do
    let r ← p.init g
    .ok (r.1, .poly r.2)
  | .uniform p => do
    let r ← Pick.uniformInit p g
    .ok (r.1, .uniform r.2)

/-- generatorManager.cc:310-319: the picker function of a name. -/
def newPicker (dblMax : ℝ) (name : String) : Option Picker :=
  if name = "uniformMassExponentialT" then some (.exp (ExpPicker.new dblMax))
  else if name = "polynomialMassAndTPrime" then some (.poly ⟨Ranges.new dblMax, [], []⟩)
  else if name = "uniformMassAndT" then some (.uniform (Ranges.new dblMax))
  else none

/-- the members of a generator that the manager made (generator.h:81-88, diffractivePhaseSpace.h:77-82); `diff.range` is not used, see `event`. -/
structure GenObj (P : Type) where
  beam : BeamPar P
  target : TargetPar P
  picker : Option ℕ
  products : List P
  diff : Diff

/-- the members of `generatorManager` (generatorManager.h:47-62) and the heap of picker functions; `_beam` and `_target` are uninitialised at first. -/
structure Mgr (P : Type) where
  beam : Option (BeamPar P)
  target : Option (TargetPar P)
  finalState : List P
  bv : BeamGen.Gen
  heap : List Picker
  picker : Option ℕ
  beamFileName : String
  fileRead : Bool
  gen : Option (GenObj P)

/-- generatorManager.cc:25-31. -/
def Mgr.new {P : Type} : Mgr P := ⟨none, none, [], BeamGen.Gen.new, [], none, "", false, none⟩

/-- the surroundings: particle data table, beam files, `numeric_limits<double>::max()`, masses. -/
structure Env (P : Type) where
  table : String → Option P
  files : String → BeamGen.File
  dblMax : ℝ
  mass : P → ℝ

/-- libConfigUtils.hpp:92-114 `findLibConfigGroup`. -/
def findGroup (g : Group) (n : String) : Option Group :=
  match g n with
  | some (.group l) => some fun k => l.lookup k
  | _ => none

/-- `lookupValue(name, string)`. -/
def lookupStr (g : Group) (n : String) : Option String :=
  match g n with
  | some (.str s) => some s
  | _ => none

variable {P : Type}

/-- generatorManager.cc:87-123: beam settings. -/
def beamStage (e : Env P) (root : Group) (s : Mgr P) : Outcome (Bool × Mgr P) :=
  match findGroup root "beam" with
  | none => .ok (false, s)
  | some g =>
    if !allThere g [("name", .str), ("momentum", .float), ("momentumSigma", .float), ("DxDz", .float), ("DxDzSigma", .float), ("DyDz", .float),
        ("DyDzSigma", .float)] then .ok (false, s)
    else match e.table ((lookupStr g "name").getD "") with
      | none => .ok (false, s)
      | some p => do
        let a ← g.double "momentum"
        let b ← g.double "momentumSigma"
        let c ← g.double "DxDz"
        let d ← g.double "DxDzSigma"
        let x ← g.double "DyDz"
        let y ← g.double "DyDzSigma"
        .ok (true, { s with beam := some ⟨p, a, b, c, d, x, y⟩ })

/-- generatorManager.cc:160-175: the target once all settings are there. -/
noncomputable def makeTarget (g : Group) (pos : Cfg) (t r : P) (s : Mgr P) : Outcome (Bool × Mgr P) := do
  let il ← g.double "interactionLength"
  if il < 0 then .ok (false, s)
  else do
    let x ← (← pos.at 0).toDouble
    let y ← (← pos.at 1).toDouble
    let z ← (← pos.at 2).toDouble
    let radius ← g.double "radius"
    let length ← g.double "length"
    .ok (true, { s with target := some ⟨t, r, x, y, z, length, radius, il⟩ })

/-- generatorManager.cc:126-177: target settings. -/
noncomputable def targetStage (e : Env P) (root : Group) (s : Mgr P) : Outcome (Bool × Mgr P) :=
  match findGroup root "target" with
  | none => .ok (false, s)
  | some g =>
    if !allThere g [("targetParticleName", .str), ("recoilParticleName", .str), ("pos", .array), ("radius", .float), ("length", .float),
        ("interactionLength", .float)] then .ok (false, s)
    else match g "pos" with
      | none => .terminate
      | some pos =>
        if pos.length ≠ 3 then .ok (false, s)
        else do
          let p0 ← pos.at 0
          if !p0.isNumber then .ok (false, s)
          else match e.table ((lookupStr g "targetParticleName").getD ""), e.table ((lookupStr g "recoilParticleName").getD "") with
            | some t, some r => makeTarget g pos t r s
            | _, _ => .ok (false, s)

/-- an optional setting: default if it is missing, `none` if it has the wrong type. -/
def optDouble (g : Group) (n : String) (default : ℝ) : Option ℝ :=
  match g n with
  | none => some default
  | some (.float x) => some x
  | some _ => none

/-- the same for flags. -/
def optBool (g : Group) (n : String) (default : Bool) : Option Bool :=
  match g n with
  | none => some default
  | some (.bool x) => some x
  | some _ => none

/-- generatorManager.cc:252-259: set up the beam-and-vertex generator. -/
noncomputable def loadBeam (e : Env P) (s : Mgr P) (scale : ℝ) (takeZ : Bool) (res sigma mean : ℝ) : Outcome (Bool × Mgr P) := do
  let r ← ((s.bv.setScale scale).setCorrection res sigma mean).loadBeamFile s.beamFileName (e.files s.beamFileName)
  if !r.1 then .ok (false, { s with bv := r.2 })
  else do
    let bv ← r.2.setTakeZ takeZ
    .ok (true, { s with bv := bv })

open Classical in
/-- generatorManager.cc:201-251: settings of the active beam package, once the name of the beam file is known. -/
noncomputable def beamSettings (e : Env P) (g : Group) (s : Mgr P) : Outcome (Bool × Mgr P) :=
  match optDouble g "sigmaScalingFactor" 1 with
  | none => .ok (false, s)
  | some scale =>
    if scale < 0 then .ok (false, s)
    else match optBool g "takeZpositionFromData" false, optDouble g "momentumResolution" 0, optDouble g "momentumPDFSigma" 0, optDouble g "momentumPDFMean" 0 with
      | some takeZ, some res, some sigma, some mean => loadBeam e s scale takeZ res sigma mean
      | _, _, _, _ => .ok (false, s)

/-- generatorManager.cc:193-200: name of the beam file. -/
def beamName (g : Group) (s : Mgr P) : Option (Mgr P) :=
  if s.beamFileName = "" then
    match lookupStr g "beamFile" with
    | none => none
    | some f => some { s with beamFileName := f }
  else some s

/-- generatorManager.cc:180-264: settings of the beam simulation. -/
noncomputable def beamSimStage (e : Env P) (root : Group) (s : Mgr P) : Outcome (Bool × Mgr P) :=
  match findGroup root "beamSimulation" with
  | none => .ok (true, s)
  | some g =>
    match g "active" with
    | some (.bool true) =>
      match beamName g s with
      | none => .ok (false, s)
      | some s => beamSettings e g s
    | some (.bool false) => .ok (true, s)
    | _ => .ok (false, s)

/-- the loop generatorManager.cc:287-295. -/
def pushParticles (e : Env P) : List Cfg → Mgr P → Outcome (Bool × Mgr P)
  | [], s => .ok (true, s)
  | .str n :: cs, s => match e.table n with
    | none => .ok (false, s)
    | some p => pushParticles e cs { s with finalState := s.finalState ++ [p] }
  | _ :: _, _ => .terminate

/-- generatorManager.cc:267-297: final-state settings. -/
def finalStage (e : Env P) (root : Group) (s : Mgr P) : Outcome (Bool × Mgr P) :=
  match findGroup root "finalstate" with
  | none => .ok (false, s)
  | some g =>
    match g "particles" with
    | some (.array l) => match l with
      | .str n :: cs => pushParticles e (.str n :: cs) s
      | _ => .ok (false, s)
    | _ => .ok (false, s)

/-- generatorManager.cc:310-326: create the picker function and initialise it. -/
noncomputable def makePicker (e : Env P) (name : String) (settings : Group) (s : Mgr P) : Outcome (Bool × Mgr P) :=
  match newPicker e.dblMax name with
  | none => .ok (false, s)
  | some p => do
    let r ← p.init settings
    if r.1 then .ok (true, { s with heap := s.heap ++ [r.2], picker := some s.heap.length, fileRead := true })
    else .ok (false, { s with picker := none })

/-- generatorManager.cc:300-341: t' and mass dependence, and the end of the function. -/
noncomputable def pickerStage (e : Env P) (root : Group) (s : Mgr P) : Outcome (Bool × Mgr P) :=
  match findGroup root "t_and_m_dependence" with
  | none => .ok (false, s)
  | some g =>
    match g "function", g "settings" with
    | some (.str name), some (.group l) => makePicker e name (fun k => l.lookup k) s
    | _, _ => .ok (false, s)

/-- go on only if the part before succeeded. -/
def andThen (x : Outcome (Bool × Mgr P)) (f : Mgr P → Outcome (Bool × Mgr P)) : Outcome (Bool × Mgr P) :=
  match x with
  | .ok (true, s) => f s
  | x => x

/-- generatorManager.cc:69-342 `readReactionFile`: return value and new state. -/
noncomputable def readReactionFile (e : Env P) (file : Option Group) (s : Mgr P) : Outcome (Bool × Mgr P) :=
  match file with
  | none => .ok (false, s)
  | some root =>
    andThen (andThen (andThen (andThen (beamStage e root s) (targetStage e root)) (beamSimStage e root)) (finalStage e root)) (pickerStage e root)

/-- `massRange()` of the picker function with address `a`; a picker function the manager keeps is initialised, so that the check of l.31-34 has no effect. -/
def Mgr.rangeAt (s : Mgr P) (a : Option ℕ) : Option (ℝ × ℝ) :=
  match a with
  | none => none
  | some i => (s.heap[i]?).map fun p => (p.ranges.massLo, p.ranges.massHi)

/-- generatorManager.cc:345-368 `initializeGenerator` (beam and target have been read); `rnds` are the random numbers for the estimates of the weights. -/
noncomputable def initializeGenerator (e : Env P) (rnds : ℕ → List PS.Randoms) (s : Mgr P) : Outcome (Option (Bool × Mgr P)) :=
  if !s.fileRead then .ok (some (false, s))
  else match s.beam, s.target with
    | some b, some t =>
      match ({ Diff.new with range := s.rangeAt s.picker } : Diff).setDecayProducts (s.finalState.map e.mass) rnds with
      | none => .ok none
      | some d => .ok (some (true, { s with gen := some ⟨b, t, s.picker, s.finalState, d⟩ }))
    | _, _ => .ub

/-- generatorManager.cc:371-379 `overrideMassRange`. -/
def overrideMassRange (lo hi : ℝ) (s : Mgr P) : Outcome (Mgr P) :=
  if !s.fileRead then .terminate
  else match s.picker with
    | none => .terminate
    | some i => match s.heap[i]? with
      | none => .ub
      | some p => do
        let q ← p.overrideMassRange lo hi
        .ok { s with heap := s.heap.set i q }

/-- generatorManager.h:36. -/
def overrideBeamFile (name : String) (s : Mgr P) : Mgr P := { s with beamFileName := name }

/-- generatorManager.cc:382-394. -/
def readSequentially (b : Bool) (s : Mgr P) : Outcome (Mgr P) :=
  if !s.fileRead then .terminate else .ok { s with bv := s.bv.setSequential b }

/-- generatorManager.cc:397-409. -/
noncomputable def randomizeStart (u : ℝ) (s : Mgr P) : Outcome (Mgr P) :=
  if !s.fileRead then .terminate
  else do
    let bv ← s.bv.randomizeStart u
    .ok { s with bv := bv }

/-- the random numbers for one choice of mass and t'; `polyMass` is the mass from `TF1::GetRandom`. -/
structure PickRandoms where
  mass : ℝ
  polyMass : ℝ
  t : List ℝ
  t1 : ℝ

/-- `operator()` of the picker functions; `none`: more random numbers are needed, `some none`: returns false. -/
noncomputable def Picker.pick (eps : ℝ) (p : Picker) (r : PickRandoms) : Outcome (Option (Option (ℝ × ℝ))) :=
  match p with
  | .exp p => (p.pick eps r.mass r.t).bind fun x => .ok (some x)
  | .poly p => match p.pickT r.polyMass r.t with
    | none => .ok (some none)
    | some none => .ok none
    | some (some t) => .ok (some (some (r.polyMass, t)))
  | .uniform u => .ok (some (Pick.uniformPick u r.mass r.t1))

open Classical in
/-- the loop diffractivePhaseSpace.cc:200-205; inner `none`: more random numbers are needed. -/
noncomputable def pickLoop (eps : ℝ) (p : Picker) (mr sqrtS : ℝ) : List PickRandoms → Outcome (Option (ℝ × ℝ))
  | [] => .ok none
  | r :: rs => do
    let x ← p.pick eps r
    match x with
    | none => .ok none
    | some none => .terminate
    | some (some x) => if x.1 + mr > sqrtS ∨ x.2 < 0 then pickLoop eps p mr sqrtS rs else .ok (some x)

/-- all random numbers of one event. -/
structure EvRandoms where
  beam : BeamGen.Randoms
  picks : List PickRandoms
  phi : ℝ
  tries : List PS.Randoms

/-- what the generator gives after an event (generator.h:33-38). -/
structure EventOut (P : Type) where
  vertex : V3
  beam : P × LV
  recoil : P × LV
  final : List (P × LV)
  xMass : ℝ
  tPrime : ℝ

def BeamPar.toGen (e : Env P) (b : BeamPar P) : BeamGen.Beam :=
  ⟨e.mass b.particle, b.momentum, b.momentumSigma, b.dxdz, b.dxdzSigma, b.dydz, b.dydzSigma⟩

def TargetPar.toGen (t : TargetPar P) : BeamGen.Target := ⟨t.posX, t.posY, t.posZ, t.length, t.radius, t.interactionLength⟩

/-- diffractivePhaseSpace.cc:190-262 for the chosen mass and t'. -/
noncomputable def finishEvent (e : Env P) (s : Mgr P) (g : GenObj P) (bv : BeamGen.Gen) (range : ℝ × ℝ) (x : ℝ × ℝ) (r : EvRandoms) :
    Outcome (Option (EventOut P × Mgr P)) :=
  match ({ g.diff with range := some range } : Diff).event bv.beam (e.mass g.target.target) (e.mass g.target.recoil) [x] r.phi r.tries with
  | none => .ok none
  | some ev => .ok (some (⟨bv.vertex, (g.beam.particle, bv.beam), (g.target.recoil, ev.recoil), g.products.zipIdx.map fun p => (p.1, ev.daughters p.2),
      ev.xMass, ev.tPrime⟩, { s with bv := bv, gen := some { g with diff := ev.gen } }))

open Classical in
/-- diffractivePhaseSpace.cc:180-205: check of the mass range and choice of mass and t'. -/
noncomputable def pickAndFinish (e : Env P) (eps : ℝ) (s : Mgr P) (g : GenObj P) (bv : BeamGen.Gen) (r : EvRandoms) : Outcome (Option (EventOut P × Mgr P)) :=
  match g.picker with
  | none => .terminate
  | some i => match s.heap[i]? with
    | none => .ub
    | some p =>
      let cm := bv.beam + (⟨0, 0, 0, e.mass g.target.target⟩ : LV)
      if p.ranges.massHi + e.mass g.target.target > Real.sqrt cm.m2 then .terminate
      else do
        let x ← pickLoop eps p (e.mass g.target.recoil) (Real.sqrt cm.m2) r.picks
        match x with
        | none => .ok none
        | some x => finishEvent e s g bv (p.ranges.massLo, p.ranges.massHi) x r

/-- generatorManager.cc:59-66 and diffractivePhaseSpace.cc:162-262 `event`. -/
noncomputable def event (e : Env P) (eps : ℝ) (eig : (Fin 4 → Fin 4 → ℝ) → (Fin 4 → ℝ) × (Fin 4 → Fin 4 → ℝ)) (r : EvRandoms) (s : Mgr P) :
    Outcome (Option (EventOut P × Mgr P)) :=
  if !s.fileRead then .terminate
  else match s.gen with
    | none => .ub
    | some g => do
      let bv ← s.bv.event eig g.target.toGen (g.beam.toGen e) r.beam
      match bv with
      | none => .ok none
      | some bv => pickAndFinish e eps s g bv r

/-- the calls of the interface. -/
inductive Call where
  | read (file : Option Group)
  | initGen (rnds : ℕ → List PS.Randoms)
  | overrideRange (lo hi : ℝ)
  | overrideFile (name : String)
  | sequential (b : Bool)
  | randomize (u : ℝ)
  | event (r : EvRandoms)

/-- one call; the result is the new state (`none`: no result), for a call of `event` with the generated event. -/
noncomputable def step (e : Env P) (eps : ℝ) (eig : (Fin 4 → Fin 4 → ℝ) → (Fin 4 → ℝ) × (Fin 4 → Fin 4 → ℝ)) (s : Mgr P) :
    Call → Outcome (Option (Option (EventOut P) × Mgr P))
  | .read f => (readReactionFile e f s).bind fun r => .ok (some (none, r.2))
  | .initGen rnds => (initializeGenerator e rnds s).bind fun r => .ok (r.map fun r => (none, r.2))
  | .overrideRange lo hi => (overrideMassRange lo hi s).bind fun r => .ok (some (none, r))
  | .overrideFile n => .ok (some (none, overrideBeamFile n s))
  | .sequential b => (readSequentially b s).bind fun r => .ok (some (none, r))
  | .randomize u => (randomizeStart u s).bind fun r => .ok (some (none, r))
  | .event r => (event e eps eig r s).bind fun x => .ok (x.map fun x => (some x.1, x.2))

/-- a sequence of calls; the events and the final state. -/
noncomputable def run (e : Env P) (eps : ℝ) (eig : (Fin 4 → Fin 4 → ℝ) → (Fin 4 → ℝ) × (Fin 4 → Fin 4 → ℝ)) : Mgr P → List Call →
    Outcome (Option (List (EventOut P) × Mgr P))
  | s, [] => .ok (some ([], s))
  | s, c :: cs => (step e eps eig s c).bind fun r => match r with
    | none => .ok none
    | some r => (run e eps eig r.2 cs).bind fun q => .ok (q.map fun q => (r.1.toList ++ q.1, q.2))

end Rpwa.Mgr
