import Verif.Model.Kinematics
import Mathlib.Order.Bounds.Basic

/-!
# Specification of two-body scattering kinematics (C44)
-/

namespace Rpwa.Gen.Spec

/-- a target particle at rest -/
def target (m : ℝ) : LV := ⟨0, 0, 0, m⟩

/-- `X` can be the outgoing system of mass `mx` in `beam + target → X + recoil`: it has that mass and the
rest of energy and momentum belongs to a particle of mass `mr` -/
def Allowed (beam : LV) (mt mx mr : ℝ) (X : LV) : Prop :=
  X.m2 = mx ^ 2 ∧ 0 ≤ X.t ∧ (beam + target mt - X).m2 = mr ^ 2 ∧ 0 ≤ (beam + target mt - X).t

/-- squared four-momentum transfer -/
def mandelT (beam X : LV) : ℝ := (X - beam).m2

/-- `t'` of `X`: by how much `t` is below the largest value `t0` that is possible in the reaction -/
def IsTPrime (beam : LV) (mt mx mr : ℝ) (X : LV) (t' : ℝ) : Prop :=
  ∃ t0, IsGreatest {t | ∃ X', Allowed beam mt mx mr X' ∧ t = mandelT beam X'} t0 ∧
    mandelT beam X = t0 - t'

/-- a physical beam particle that moves, on a target at rest, with enough energy to produce masses `mx`
and `mr` -/
structure Physical (beam : LV) (mt mx mr : ℝ) : Prop where
  targetMass : 0 < mt
  xMass : 0 ≤ mx
  recoilMass : 0 ≤ mr
  energy : 0 < beam.t
  mass : 0 ≤ beam.m2
  moving : 0 < beam.P
  threshold : (mx + mr) ^ 2 ≤ (beam + target mt).m2

end Rpwa.Gen.Spec
