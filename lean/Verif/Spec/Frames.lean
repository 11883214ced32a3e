import Verif.Model.Kinematics
import Mathlib.LinearAlgebra.Matrix.Determinant.Basic

/-!
# What a Gottfried-Jackson frame is

A change of reference frame keeps scalar products of four-vectors and their orientation. The Gottfried-Jackson frame of
a system `X` produced by a beam is the frame in which `X` is at rest, the beam goes along the positive z-axis, and the
y-axis is the normal `beam × X` of the production plane as seen in the laboratory.
-/

namespace Rpwa.Amp.Spec

open Rpwa.Gen

/-- scalar product of four-vectors, metric (+, -, -, -) -/
def prod (p q : LV) : ℝ := p.t * q.t - (p.x * q.x + p.y * q.y + p.z * q.z)

/-- oriented four-volume -/
def vol (a b c d : LV) : ℝ :=
  Matrix.det !![a.x, a.y, a.z, a.t; b.x, b.y, b.z, b.t; c.x, c.y, c.z, c.t; d.x, d.y, d.z, d.t]

/-- a change of reference frame (proper Lorentz transformation) -/
structure Frame (L : LV → LV) : Prop where
  onto : ∀ p, ∃ q, L q = p
  keeps_prod : ∀ p q, prod (L p) (L q) = prod p q
  keeps_vol : ∀ a b c d, vol (L a) (L b) (L c) (L d) = vol a b c d

/-- the normal of the production plane, a purely spatial four-vector -/
def normal (beam X : LV) : LV :=
  ⟨beam.y * X.z - beam.z * X.y, beam.z * X.x - beam.x * X.z, beam.x * X.y - beam.y * X.x, 0⟩

/-- `L` leads to the Gottfried-Jackson frame -/
structure IsGJ (beam X : LV) (L : LV → LV) : Prop where
  frame : Frame L
  rest : ∃ m, 0 < m ∧ L X = ⟨0, 0, 0, m⟩
  beam_z : ∃ k e, 0 < k ∧ L beam = ⟨0, 0, k, e⟩
  normal_y : ∃ n, 0 < n ∧ L (normal beam X) = ⟨0, n, 0, 0⟩

/-- `L` leads to the helicity frame of a daughter with momentum `d` in its parent's rest frame: the daughter is at
rest, what is at rest in the parent's frame moves along the negative z-axis (the daughter's direction of flight is the
z-axis), and the y-axis is `z × d` -/
structure IsHF (d : LV) (L : LV → LV) : Prop where
  frame : Frame L
  rest : ∃ m, 0 < m ∧ L d = ⟨0, 0, 0, m⟩
  parent_z : ∃ k e, 0 < k ∧ L ⟨0, 0, 0, 1⟩ = ⟨0, 0, -k, e⟩
  normal_y : ∃ n, 0 < n ∧ L ⟨-d.y, d.x, 0, 0⟩ = ⟨0, n, 0, 0⟩

end Rpwa.Amp.Spec
