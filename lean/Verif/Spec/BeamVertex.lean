import Verif.Model.BeamVertex
import Verif.Spec.VariedAmps
/-! # Specification: beam and vertex -/
namespace Rpwa.BeamGen
open Rpwa.Gen (V3 LV)

/-- a point in the target cylinder. -/
structure InTarget (tg : Target) (v : V3) : Prop where
  hradius : (v.x - tg.posX) ^ 2 + (v.y - tg.posY) ^ 2 ≤ tg.radius ^ 2
  hfront : tg.posZ - tg.length / 2 ≤ v.z
  hback : v.z ≤ tg.posZ + tg.length / 2

/-- a four-momentum of a particle of mass `m`. -/
def OnShell (m : ℝ) (p : LV) : Prop := p.m2 = m ^ 2 ∧ 0 ≤ p.t

/-- a point on the straight line through `(x, y, z)` with the slopes `dx`, `dy`. -/
def OnLine (x y z dx dy : ℝ) (v : V3) : Prop := v.x - x = dx * (v.z - z) ∧ v.y - y = dy * (v.z - z)

/-- the Gaussian distribution (not normalized). -/
noncomputable def gauss (mean sigma x : ℝ) : ℝ := Real.exp (-(x - mean) ^ 2 / (2 * sigma ^ 2))

/-- what an eigenvalue decomposition of a symmetric matrix is: an orthogonal matrix of eigenvectors. -/
structure IsEigen (C : Fin 4 → Fin 4 → ℝ) (ev : Fin 4 → ℝ) (V : Fin 4 → Fin 4 → ℝ) : Prop where
  hdecomp : ∀ i j, ∑ k, V i k * ev k * V j k = C i j
  hnonneg : ∀ k, 0 ≤ ev k

/-- the members hold the values of a row, as far as the tree has them (`z`: the position along the beam is in the file). -/
structure Holds (s : Gen) (z : Bool) (r : Row) : Prop where
  hx : s.row.vx = r.vx ∧ s.row.vy = r.vy
  hz : s.row.vz = if z then r.vz else 0
  hp : s.mode ≠ .inclinations → s.row.px = r.px ∧ s.row.py = r.py ∧ s.row.pz = r.pz
  hsigma : s.mode ≠ .inclinations → s.sigmasPresent = true → s.row.vxSigma = r.vxSigma ∧ s.row.vySigma = r.vySigma ∧ s.row.pxSigma = r.pxSigma ∧
    s.row.pySigma = r.pySigma ∧ s.row.pzSigma = r.pzSigma
  hincl : s.mode = .inclinations → s.row.dxdz = r.dxdz ∧ s.row.dydz = r.dydz ∧ s.row.mom = r.mom ∧ s.row.momSigma = r.momSigma ∧ s.row.cov = r.cov

/-- the generator reads from a tree. -/
structure Linked (s : Gen) (t : Tree) : Prop where
  htree : s.tree = some t
  hlinkZ : s.linkZ = t.has "vertex_z_position"
  hz0 : t.has "vertex_z_position" = false → s.row.vz = 0
  hmode : s.mode ≠ .simple
  hincl : s.linkIncl = decide (s.mode = .inclinations)
  hsig : s.mode ≠ .inclinations → s.sigmasPresent = s.linkSigma

/-- the beam file can be used with the settings of the generator. -/
def Usable (s : Gen) (t : Tree) : Prop :=
  ((∀ b ∈ momentaBranches, b ∈ t.branches) ∧ (s.pdfMean ≠ 0 → s.pdfSigma ≠ 0 ∧ s.resolution ≠ 0)) ∨
  ("beam_momentum_x" ∉ t.branches ∧ (∀ b ∈ inclinationBranches, b ∈ t.branches) ∧ s.pdfMean = 0)

end Rpwa.BeamGen
