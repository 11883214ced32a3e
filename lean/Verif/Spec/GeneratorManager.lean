import Verif.Model.GeneratorManager
import Verif.Spec.BeamVertex
import Verif.Spec.Kinematics
/-! # Specification: what a reaction file says -/
namespace Rpwa.Mgr

open Rpwa.Pick (Cfg Group ExpPicker PolyPicker Ranges)
open Rpwa.Gen (LV)

/-- a section of the file. -/
def Section (root : Group) (name : String) (g : Group) : Prop := ∃ l, root name = some (.group l) ∧ g = fun k => l.lookup k

/-- the settings of the beam package. -/
structure Sim where
  file : String
  scale : ℝ
  takeZ : Bool
  resolution : ℝ
  pdfSigma : ℝ
  pdfMean : ℝ

/-- the content of a reaction file. -/
structure Reaction (P : Type) where
  beam : BeamPar P
  target : TargetPar P
  sim : Option Sim
  final : List P
  picker : Picker

variable {P : Type}

/-- a setting with the name of a particle of the table. -/
def IsParticle (e : Env P) (g : Group) (key : String) (p : P) : Prop := ∃ n, g key = some (.str n) ∧ e.table n = some p

structure IsBeam (e : Env P) (root : Group) (b : BeamPar P) (g : Group) : Prop where
  hsection : Section root "beam" g
  hname : IsParticle e g "name" b.particle
  hmomentum : g "momentum" = some (.float b.momentum)
  hmomentumSigma : g "momentumSigma" = some (.float b.momentumSigma)
  hdxdz : g "DxDz" = some (.float b.dxdz)
  hdxdzSigma : g "DxDzSigma" = some (.float b.dxdzSigma)
  hdydz : g "DyDz" = some (.float b.dydz)
  hdydzSigma : g "DyDzSigma" = some (.float b.dydzSigma)

structure IsTarget (e : Env P) (root : Group) (t : TargetPar P) (g : Group) : Prop where
  hsection : Section root "target" g
  htarget : IsParticle e g "targetParticleName" t.target
  hrecoil : IsParticle e g "recoilParticleName" t.recoil
  hpos : g "pos" = some (.array [.float t.posX, .float t.posY, .float t.posZ])
  hradius : g "radius" = some (.float t.radius)
  hlength : g "length" = some (.float t.length)
  hinteraction : g "interactionLength" = some (.float t.interactionLength)
  hnonneg : 0 ≤ t.interactionLength

/-- a setting that may be missing. -/
def OptFloat (g : Group) (key : String) (default x : ℝ) : Prop := g key = some (.float x) ∨ g key = none ∧ x = default
def OptBool (g : Group) (key : String) (default x : Bool) : Prop := g key = some (.bool x) ∨ g key = none ∧ x = default

/-- the beam package; `override` is the name of the beam file that was given before (empty: none). -/
structure IsSim (override : String) (g : Group) (m : Sim) : Prop where
  hactive : g "active" = some (.bool true)
  hfile : if override = "" then g "beamFile" = some (.str m.file) else m.file = override
  hscale : OptFloat g "sigmaScalingFactor" 1 m.scale
  hscale0 : 0 ≤ m.scale
  htakeZ : OptBool g "takeZpositionFromData" false m.takeZ
  hres : OptFloat g "momentumResolution" 0 m.resolution
  hsigma : OptFloat g "momentumPDFSigma" 0 m.pdfSigma
  hmean : OptFloat g "momentumPDFMean" 0 m.pdfMean

/-- the section on the beam package: missing (or no section), disabled, or enabled. -/
def SimOf (override : String) (root : Group) (m : Option Sim) : Prop :=
  (m = none ∧ ∀ g, Section root "beamSimulation" g → g "active" = some (.bool false)) ∨
  ∃ g m', m = some m' ∧ Section root "beamSimulation" g ∧ IsSim override g m'

/-- the final-state particles, in the order of the file. -/
def FinalOf (e : Env P) (root : Group) (ps : List P) : Prop :=
  ∃ g names, Section root "finalstate" g ∧ g "particles" = some (.array (names.map .str)) ∧ names ≠ [] ∧ names.map e.table = ps.map some

/-- the picker function (what `init` accepts and makes of its settings is C66). -/
def PickerOf (e : Env P) (root : Group) (p : Picker) : Prop :=
  ∃ g name settings, Section root "t_and_m_dependence" g ∧ g "function" = some (.str name) ∧ Section g "settings" settings ∧
    ((name = "uniformMassExponentialT" ∧ ∃ q, (ExpPicker.new e.dblMax).init settings = .ok (true, q) ∧ p = .exp q) ∨
     (name = "polynomialMassAndTPrime" ∧ ∃ q, (⟨Ranges.new e.dblMax, [], []⟩ : PolyPicker).init settings = .ok (true, q) ∧ p = .poly q) ∨
     (name = "uniformMassAndT" ∧ ∃ q, Pick.uniformInit (Ranges.new e.dblMax) settings = .ok (true, q) ∧ p = .uniform q))

/-- the file describes the reaction. -/
structure Describes (e : Env P) (override : String) (root : Group) (R : Reaction P) : Prop where
  hbeam : ∃ g, IsBeam e root R.beam g
  htarget : ∃ g, IsTarget e root R.target g
  hsim : SimOf override root R.sim
  hfinal : FinalOf e root R.final
  hpicker : PickerOf e root R.picker

/-- the beam-and-vertex generator after the settings of the beam package were used. -/
def Prepared (e : Env P) (old : BeamGen.Gen) (m : Option Sim) (new : BeamGen.Gen) : Prop :=
  match m with
  | none => new = old
  | some m => ∃ b, ((old.setScale m.scale).setCorrection m.resolution m.pdfSigma m.pdfMean).loadBeamFile m.file (e.files m.file) = .ok (true, b) ∧
      new = { b with takeZ := m.takeZ } ∧ (m.takeZ = true → m.file ≠ "")

/-- sum of four-momenta. -/
def sumLV (l : List LV) : LV := l.foldr (· + ·) 0

/-- an event of the reaction `beam target → recoil final`: the particles are those of the reaction (final state in order), every particle is on its mass
shell, energy and momentum are conserved for a target at rest, and the reported mass and t' are those of the final state. -/
structure GoodEvent (e : Env P) (B : BeamPar P) (T : TargetPar P) (F : List P) (ev : EventOut P) : Prop where
  hbeam : ev.beam.1 = B.particle ∧ BeamGen.OnShell (e.mass B.particle) ev.beam.2
  hrecoil : ev.recoil.1 = T.recoil ∧ BeamGen.OnShell (e.mass T.recoil) ev.recoil.2
  hfinal : ev.final.map Prod.fst = F
  hshell : ∀ q ∈ ev.final, BeamGen.OnShell (e.mass q.1) q.2
  hconserved : sumLV (ev.final.map Prod.snd) + ev.recoil.2 = ev.beam.2 + ⟨0, 0, 0, e.mass T.target⟩
  hmass : (sumLV (ev.final.map Prod.snd)).m2 = ev.xMass ^ 2 ∧ 0 ≤ ev.xMass
  htPrime : Gen.Spec.IsTPrime ev.beam.2 (e.mass T.target) ev.xMass (e.mass T.recoil) (sumLV (ev.final.map Prod.snd)) ev.tPrime ∧ 0 ≤ ev.tPrime

end Rpwa.Mgr
