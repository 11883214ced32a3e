import Verif.Model.MassShapes
/-! # Specification: mass shapes of the isobars of a decay (C104) -/
namespace Rpwa.MassShapes

/-- vertices of a decay: each before those that its daughters decay at, the first daughter first. -/
def vertices : Tree → List Vertex
  | .fs => []
  | .iso v t1 t2 => v :: (vertices t1 ++ vertices t2)

/-- parent and daughters are different particles. -/
def Distinct (v : Vertex) : Prop := v.parent ≠ v.d1 ∧ v.parent ≠ v.d2 ∧ v.d1 ≠ v.d2

/-- a particle of this mass at rest decays to two daughters with momentum `q` and energies `e1`, `e2`. -/
def Decays (M m1 m2 q e1 e2 : ℝ) : Prop :=
  0 ≤ q ∧ 0 ≤ e1 ∧ 0 ≤ e2 ∧ e1 ^ 2 = m1 ^ 2 + q ^ 2 ∧ e2 ^ 2 = m2 ^ 2 + q ^ 2 ∧ e1 + e2 = M

/-- the value for one vertex: the amplitude of its mass dependence in the decay of a particle of this mass at rest to two daughters with
their nominal masses, and the barrier factor; zero below threshold. -/
def IsShape (mass : ℝ) (useBarrier : Bool) (v : Vertex) (a : ℂ) : Prop :=
  (v.m1 + v.m2 ≤ mass → ∃ q e1 e2, Decays mass v.m1 v.m2 q e1 e2 ∧
    a = v.amp ⟨0, mass⟩ ⟨q, e1⟩ ⟨-q, e2⟩ * (if useBarrier then ((Phys.barrierFactor v.L q : ℝ) : ℂ) else 1)) ∧
  (|v.m1 - v.m2| < mass → mass < v.m1 + v.m2 → a = 0)

end Rpwa.MassShapes
