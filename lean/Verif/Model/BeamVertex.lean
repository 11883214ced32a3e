import Verif.Model.Basic
import Verif.Model.Kinematics
import Mathlib.Analysis.SpecialFunctions.Log.Basic
import Mathlib.Analysis.SpecialFunctions.Trigonometric.Basic
import Mathlib.Algebra.BigOperators.Fin
/-!
# Beam and vertex generator

Models `generators/beamAndVertexGenerator.{h,cc}`.  Simplifications:
* a beam file is what `TFile::Open` and `Get` give: no file, no tree, or a tree with branches and rows;
* real numbers are exact, random numbers are arguments: `Rndm` gives `u`, `Uniform(a, b) = a + (b - a) u`, `Exp(tau) = -tau log u`,
  `Gaus(m, s) = m + s g`, `Circle(x, y, r)` gives `r cos(2 pi u), r sin(2 pi u)`;
* the eigenvalue decomposition of ROOT (`TMatrixDSymEigen`) is a parameter;
* the memory of the tree is that of the file: `TFile::Close` deletes the tree, so a later `delete` of the tree is undefined. -/
namespace Rpwa.BeamGen
open Rpwa.Gen (V3 LV)

/-- `Target` (generatorParameters.hpp:43-49) without the particles. -/
structure Target where
  posX : ℝ
  posY : ℝ
  posZ : ℝ
  length : ℝ
  radius : ℝ
  interactionLength : ℝ

/-- `Beam` (generatorParameters.hpp:10-17); of the particle only the mass. -/
structure Beam where
  mass : ℝ
  momentum : ℝ
  momentumSigma : ℝ
  dxdz : ℝ
  dxdzSigma : ℝ
  dydz : ℝ
  dydzSigma : ℝ

/-- the values of one entry of a beam file, and the members they are read into (beamAndVertexGenerator.h:103-124). -/
structure Row where
  vx : ℝ
  vy : ℝ
  vz : ℝ
  px : ℝ
  py : ℝ
  pz : ℝ
  dxdz : ℝ
  dydz : ℝ
  mom : ℝ
  vxSigma : ℝ
  vySigma : ℝ
  pxSigma : ℝ
  pySigma : ℝ
  pzSigma : ℝ
  momSigma : ℝ
  cov : Fin 4 → Fin 4 → ℝ

/-- a tree: names of its branches and its entries. -/
structure Tree where
  branches : List String
  rows : List Row

/-- what opening a file gives. -/
inductive File where
  | missing
  | noTree
  | tree (t : Tree)

inductive Mode where
  | simple | momenta | inclinations | momentaCorrected
  deriving DecidableEq

/-- the members of `beamAndVertexGenerator`; `linkZ`, `linkSigma`: the branch addresses set for the current tree. -/
structure Gen where
  fileName : String
  vertex : V3
  beam : LV
  sequential : Bool
  current : ℤ
  mode : Mode
  tree : Option Tree
  linkZ : Bool
  linkSigma : Bool
  linkIncl : Bool
  row : Row
  sigmasPresent : Bool
  scale : ℝ
  takeZ : Bool
  resolution : ℝ
  pdfSigma : ℝ
  pdfMean : ℝ

def Row.zero : Row := ⟨0, 0, 0, 0, 0, 0, 0, 0, 0, 0, 0, 0, 0, 0, 0, fun _ _ => 0⟩

/-- beamAndVertexGenerator.cc:28-60. -/
def Gen.new : Gen := ⟨"", ⟨0, 0, 0⟩, ⟨0, 0, 0, 0⟩, false, 0, .simple, none, false, false, false, Row.zero, false, 1, false, 0, 0, 0⟩

open Classical in
/-- beamAndVertexGenerator.cc:223-239 `check`. -/
noncomputable def Gen.check (s : Gen) : Bool :=
  if ¬ (s.tree.isSome ∨ s.mode = .simple) then false
  else if s.pdfMean ≠ 0 then
    if s.mode ≠ .momentaCorrected then false
    else if s.pdfSigma = 0 ∨ s.resolution = 0 then false
    else true
  else true

def Tree.has (t : Tree) (b : String) : Bool := t.branches.contains b

def momentaBranches : List String := ["vertex_x_position", "vertex_y_position", "beam_momentum_x", "beam_momentum_y", "beam_momentum_z"]
def sigmaBranches : List String :=
  ["vertex_x_position_sigma", "vertex_y_position_sigma", "beam_momentum_x_sigma", "beam_momentum_y_sigma", "beam_momentum_z_sigma"]
def inclinationBranches : List String :=
  ["vertex_x_position", "vertex_y_position", "vertex_z_position", "beam_dXdZ", "beam_dYdZ", "beam_momentum", "vertex_XYdXdY_cov", "beam_momentum_sigma"]

open Classical in
/-- beamAndVertexGenerator.cc:100-166 `loadBeamFileWithMomenta`; a missing branch deletes the tree twice. -/
noncomputable def Gen.loadMomenta (s : Gen) (t : Tree) : Outcome (Bool × Gen) :=
  if !momentaBranches.all t.has then .ub
  else
    let z := t.has "vertex_z_position"
    let sigmas := sigmaBranches.all t.has
    let s' : Gen := { s with
      linkZ := z, linkSigma := sigmas, linkIncl := false, sigmasPresent := sigmas,
      row := if z then s.row else { s.row with vz := 0 },
      mode := if s.pdfMean = 0 then .momenta else .momentaCorrected }
    .ok (s'.check, s')

/-- beamAndVertexGenerator.cc:169-208 `loadBeamFileWithInclinations`. -/
noncomputable def Gen.loadInclinations (s : Gen) (t : Tree) : Outcome (Bool × Gen) :=
  if !inclinationBranches.all t.has then .ub
  else
    let s' : Gen := { s with linkZ := true, linkSigma := false, linkIncl := true, sigmasPresent := true, mode := .inclinations }
    .ok (s'.check, s')

/-- beamAndVertexGenerator.cc:70-97 `loadBeamFile`: if the file cannot be opened, the previous tree is kept. -/
noncomputable def Gen.loadBeamFile (s : Gen) (name : String) : File → Outcome (Bool × Gen)
  | .missing => .ok (false, { s with fileName := name })
  | .noTree => .ok (false, { s with fileName := name, tree := none })
  | .tree t =>
    let s := { s with fileName := name, tree := some t }
    if t.has "beam_momentum_x" then s.loadMomenta t
    else if t.has "beam_dXdZ" then s.loadInclinations t
    else .ok (false, s)

/-- `GetEntry`: the values of the linked branches are read; nothing happens if there is no such entry. -/
def Gen.getEntry (s : Gen) (t : Tree) (i : ℤ) : Gen :=
  if i < 0 then s
  else match t.rows[i.toNat]? with
    | none => s
    | some r => { s with row :=
        { vx := r.vx, vy := r.vy, vz := if s.linkZ then r.vz else s.row.vz,
          px := if s.linkIncl then s.row.px else r.px, py := if s.linkIncl then s.row.py else r.py, pz := if s.linkIncl then s.row.pz else r.pz,
          dxdz := if s.linkIncl then r.dxdz else s.row.dxdz, dydz := if s.linkIncl then r.dydz else s.row.dydz,
          mom := if s.linkIncl then r.mom else s.row.mom,
          vxSigma := if s.linkSigma then r.vxSigma else s.row.vxSigma, vySigma := if s.linkSigma then r.vySigma else s.row.vySigma,
          pxSigma := if s.linkSigma then r.pxSigma else s.row.pxSigma, pySigma := if s.linkSigma then r.pySigma else s.row.pySigma,
          pzSigma := if s.linkSigma then r.pzSigma else s.row.pzSigma, momSigma := if s.linkIncl then r.momSigma else s.row.momSigma,
          cov := if s.linkIncl then r.cov else s.row.cov } }

/-- truncation of a non-negative real number to an integer. -/
noncomputable def trunc (x : ℝ) : ℤ := if 0 ≤ x then ⌊x⌋ else ⌈x⌉

/-- beamAndVertexGenerator.cc:211-220 `randomizeBeamfileStartingPosition`; `u` is the random number. -/
noncomputable def Gen.randomizeStart (s : Gen) (u : ℝ) : Outcome Gen :=
  match s.tree with
  | none => .ub
  | some t =>
    let n : ℝ := t.rows.length
    .ok { s with current := trunc (-(-n + (0 - -n) * u)) }

/-- beamAndVertexGenerator.cc:400-418 `loadNextEventFromBeamfile`. -/
noncomputable def Gen.loadNext (s : Gen) (u : ℝ) : Outcome Gen :=
  match s.tree with
  | none => .ub
  | some t =>
    let n : ℤ := t.rows.length
    if s.sequential then
      let i := if n ≤ s.current then 0 else s.current
      .ok { s.getEntry t i with current := i + 1 }
    else
      let i := trunc (0 + ((t.rows.length : ℝ) - 0) * u)
      .ok { s.getEntry t i with current := i }

open Classical in
/-- the loop beamAndVertexGenerator.cc:429-431 on a list of random numbers. -/
noncomputable def expLoop (tau len : ℝ) : List ℝ → Option ℝ
  | [] => none
  | u :: us =>
    let z := -tau * Real.log u
    if len < z then expLoop tau len us else some z

/-- beamAndVertexGenerator.cc:421-435 `getVertexZ`; `none`: more random numbers are needed. -/
noncomputable def Gen.vertexZ (s : Gen) (tg : Target) (us : List ℝ) : Option ℝ :=
  if s.takeZ then some s.row.vz
  else (expLoop tg.interactionLength tg.length us).map fun z => (tg.posZ - tg.length * (1 / 2)) + z

open Classical in
/-- `TLorentzVector::SetXYZM`. -/
noncomputable def setXYZM (x y z m : ℝ) : LV :=
  ⟨x, y, z, if 0 ≤ m then Real.sqrt (x * x + y * y + z * z + m * m) else Real.sqrt (max (x * x + y * y + z * z - m * m) 0)⟩

/-- the random numbers of one event: for the entry, the vertex position along the beam, the radius, the angle, and Gaussian ones. -/
structure Randoms where
  entry : ℝ
  z : List ℝ
  rad : ℝ
  phi : ℝ
  g : ℕ → ℝ

/-- beamAndVertexGenerator.cc:269-293 `eventSimple`; `none`: more random numbers are needed. -/
noncomputable def Gen.eventSimple (s : Gen) (tg : Target) (b : Beam) (r : Randoms) : Option Gen :=
  (s.vertexZ tg r.z).map fun z =>
    let radius := Real.sqrt (0 + (tg.radius * tg.radius - 0) * r.rad)
    let x := radius * Real.cos (2 * Real.pi * r.phi)
    let y := radius * Real.sin (2 * Real.pi * r.phi)
    let pBeam := b.momentum + b.momentumSigma * r.g 0
    let dxdz := b.dxdz + b.dxdzSigma * r.g 1
    let dydz := b.dydz + b.dydzSigma * r.g 2
    let pz := pBeam / Real.sqrt (1 + dxdz * dxdz + dydz * dydz)
    { s with vertex := ⟨tg.posX + x, tg.posY + y, z⟩,
             beam := ⟨dxdz * pz, dydz * pz, pz, Real.sqrt (pBeam * pBeam + b.mass * b.mass)⟩ }

open Classical in
/-- beamAndVertexGenerator.cc:306-330: vertex and beam from the momentum that has been read. -/
noncomputable def Gen.fromMomenta (s : Gen) (b : Beam) (z : ℝ) (g : ℕ → ℝ) : Gen :=
  let x := s.row.vx + s.row.px / s.row.pz * (z - s.row.vz)
  let y := s.row.vy + s.row.py / s.row.pz * (z - s.row.vz)
  if s.sigmasPresent ∧ s.scale ≠ 0 then
    { s with vertex := ⟨x + s.scale * s.row.vxSigma * g 0, y + s.scale * s.row.vySigma * g 1, z⟩,
             beam := setXYZM (s.row.px + s.scale * s.row.pxSigma * g 2) (s.row.py + s.scale * s.row.pySigma * g 3)
               (s.row.pz + s.scale * s.row.pzSigma * g 4) b.mass }
  else
    { s with vertex := ⟨x, y, z⟩, beam := setXYZM s.row.px s.row.py s.row.pz b.mass }

/-- beamAndVertexGenerator.cc:351-353: width of the distribution of the true momentum. -/
noncomputable def Gen.truthSigma (s : Gen) : ℝ := 1 / Real.sqrt (1 / (s.resolution * s.resolution) + 1 / (s.pdfSigma * s.pdfSigma))

/-- beamAndVertexGenerator.cc:354-355: its mean. -/
noncomputable def Gen.truthMean (s : Gen) (p : ℝ) : ℝ :=
  s.truthSigma * s.truthSigma * (p / (s.resolution * s.resolution) + s.pdfMean / (s.pdfSigma * s.pdfSigma))

/-- beamAndVertexGenerator.cc:344-366: the same with correction for the momentum resolution. -/
noncomputable def Gen.fromMomentaCorrected (s : Gen) (b : Beam) (z : ℝ) (g : ℕ → ℝ) : Gen :=
  let dxdz := s.row.px / s.row.pz
  let dydz := s.row.py / s.row.pz
  let p := Real.sqrt (s.row.px * s.row.px + s.row.py * s.row.py + s.row.pz * s.row.pz)
  let truth := s.truthMean p + s.truthSigma * g 0
  let norm := Real.sqrt (dxdz * dxdz + dydz * dydz + 1)
  { s with vertex := ⟨s.row.vx + dxdz * (z - s.row.vz), s.row.vy + dydz * (z - s.row.vz), z⟩,
           beam := setXYZM (truth * dxdz / norm) (truth * dydz / norm) (truth / norm) b.mass,
           row := { s.row with mom := p } }

/-- beamAndVertexGenerator.cc:480-505 `multivariateGauss`; `eig` gives eigenvalues and the matrix of eigenvectors. -/
noncomputable def multivariateGauss (eig : (Fin 4 → Fin 4 → ℝ) → (Fin 4 → ℝ) × (Fin 4 → Fin 4 → ℝ)) (mean : Fin 4 → ℝ) (cov : Fin 4 → Fin 4 → ℝ) (scale : ℝ)
    (g : ℕ → ℝ) : Fin 4 → ℝ :=
  fun i => (∑ k : Fin 4, (eig cov).2 i k * (scale * Real.sqrt ((eig cov).1 k) * g k)) + mean i

open Classical in
/-- beamAndVertexGenerator.cc:379-406: vertex and beam from the inclinations that have been read. -/
noncomputable def Gen.fromInclinations (eig : (Fin 4 → Fin 4 → ℝ) → (Fin 4 → ℝ) × (Fin 4 → Fin 4 → ℝ)) (s : Gen) (b : Beam) (z : ℝ) (g : ℕ → ℝ) : Gen :=
  let mean : Fin 4 → ℝ := ![s.row.vx, s.row.vy, s.row.dxdz, s.row.dydz]
  let v := if s.sigmasPresent ∧ s.scale ≠ 0 then multivariateGauss eig mean s.row.cov s.scale g else mean
  let norm := Real.sqrt (v 2 * v 2 + v 3 * v 3 + 1)
  let p := if s.sigmasPresent ∧ s.scale ≠ 0 then s.row.mom + s.scale * s.row.momSigma * g 4 else s.row.mom
  { s with vertex := ⟨v 0 + v 2 * (z - s.row.vz), v 1 + v 3 * (z - s.row.vz), z⟩,
           beam := setXYZM (p * v 2 / norm) (p * v 3 / norm) (p / norm) b.mass }

/-- beamAndVertexGenerator.cc:296-406: read the next entry, choose the position along the beam, compute vertex and beam. -/
noncomputable def Gen.eventFile (f : Gen → ℝ → Gen) (s : Gen) (tg : Target) (r : Randoms) : Outcome (Option Gen) := do
  let s ← s.loadNext r.entry
  .ok ((s.vertexZ tg r.z).map (f s))

/-- beamAndVertexGenerator.cc:242-266 `event`; `none`: more random numbers are needed. -/
noncomputable def Gen.event (eig : (Fin 4 → Fin 4 → ℝ) → (Fin 4 → ℝ) × (Fin 4 → Fin 4 → ℝ)) (s : Gen) (tg : Target) (b : Beam) (r : Randoms) :
    Outcome (Option Gen) :=
  match s.mode with
  | .simple => .ok (s.eventSimple tg b r)
  | .momenta => s.eventFile (fun s z => s.fromMomenta b z r.g) tg r
  | .momentaCorrected => s.eventFile (fun s z => s.fromMomentaCorrected b z r.g) tg r
  | .inclinations => s.eventFile (fun s z => s.fromInclinations eig b z r.g) tg r

/-- the calls of `event` for one event after the other (generatorManager.cc:59-66); `none`: more random numbers are needed. -/
noncomputable def Gen.run (eig : (Fin 4 → Fin 4 → ℝ) → (Fin 4 → ℝ) × (Fin 4 → Fin 4 → ℝ)) (tg : Target) (b : Beam) : Gen → List Randoms → Outcome (Option Gen)
  | s, [] => .ok (some s)
  | s, r :: rs =>
    match s.event eig tg b r with
    | .ok (some s') => Gen.run eig tg b s' rs
    | .ok none => .ok none
    | .ub => .ub
    | .terminate => .terminate

/-- beamAndVertexGenerator.cc:438-446 `setTakeZpositionFromData`. -/
def Gen.setTakeZ (s : Gen) (b : Bool) : Outcome Gen :=
  if b && s.fileName.length == 0 then .terminate else .ok { s with takeZ := b }

/-- beamAndVertexGenerator.cc:449-457, beamAndVertexGenerator.h:40, 51. -/
def Gen.setCorrection (s : Gen) (res sigma mean : ℝ) : Gen := { s with resolution := res, pdfSigma := sigma, pdfMean := mean }
def Gen.setScale (s : Gen) (x : ℝ) : Gen := { s with scale := x }
def Gen.setSequential (s : Gen) (b : Bool) : Gen := { s with sequential := b }

end Rpwa.BeamGen
