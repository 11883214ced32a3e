import Verif.Model.PhysUtils
import Mathlib.Analysis.Complex.Basic
import Mathlib.Analysis.SpecialFunctions.Sqrt
/-!
# Mass shapes of the isobars of a decay (highLevelInterface/getMassShapes.cc)

Particles are numbers, their Lorentz vectors are the state. The amplitude of the mass dependence of a vertex is a function of the vectors of
its three particles (`isobarDecayVertex::massDepAmplitude` gives it the vertex). Real numbers instead of floating-point numbers.
-/
namespace Rpwa.MassShapes

/-- momentum along z and energy; the other components are zero. -/
structure LV where
  pz : ℝ
  E : ℝ

/-- a vertex: parent, daughters with their masses, orbital angular momentum, mass dependence -/
structure Vertex where
  parent : ℕ
  d1 : ℕ
  d2 : ℕ
  m1 : ℝ
  m2 : ℝ
  L : ℤ
  amp : LV → LV → LV → ℂ

/-- what a particle decays to -/
inductive Tree where
  | fs : Tree
  | iso (v : Vertex) (t1 t2 : Tree) : Tree

/-- vectors of all particles -/
abbrev St := ℕ → LV

/-- assignment of the vector of a particle -/
def set (st : St) (p : ℕ) (x : LV) : St := fun k => if k = p then x else st k

/-- getMassShapes.cc:15 -/
def kallen (M m1 m2 : ℝ) : ℝ :=
  M * M * M * M + m1 * m1 * m1 * m1 + m2 * m2 * m2 * m2 - 2 * (M * M * m1 * m1 + M * M * m2 * m2 + m1 * m1 * m2 * m2)

/-- getMassShapes.cc:20 -/
noncomputable def momentum (M m1 m2 : ℝ) : ℝ := Real.sqrt (kallen M m1 m2) / (2 * M)

open Classical in
/-- getMassShapes.cc:6-33: amplitude of one vertex and the vectors afterwards -/
noncomputable def single (v : Vertex) (mass : ℝ) (useBarrier : Bool) (st : St) : ℂ × St :=
  let st1 := set st v.parent ⟨0, mass⟩
  if kallen mass v.m1 v.m2 < 0 then (0, st1)
  else
    let q := momentum mass v.m1 v.m2
    let st2 := set st1 v.d1 ⟨q, Real.sqrt (v.m1 * v.m1 + q * q)⟩
    let st3 := set st2 v.d2 ⟨-q, Real.sqrt (v.m2 * v.m2 + q * q)⟩
    let a := v.amp (st3 v.parent) (st3 v.d1) (st3 v.d2)
    (if useBarrier then a * ((Phys.barrierFactor v.L q : ℝ) : ℂ) else a, st3)

/-- getMassShapes.cc:36-59: the vertex, then those of the first daughter, then those of the second one -/
noncomputable def shapes (mass : ℝ) (useBarrier : Bool) : Tree → St → List ℂ × St
  | .fs, st => ([], st)
  | .iso v t1 t2, st =>
    let r := single v mass useBarrier st
    let r1 := shapes mass useBarrier t1 r.2
    let r2 := shapes mass useBarrier t2 r1.2
    ([r.1] ++ r1.1 ++ r2.1, r2.2)

end Rpwa.MassShapes
