import Verif.Model.Kinematics

/-!
# Specification of breakup momenta, barrier factors and Dalitz-plot borders (C55)
-/

namespace Rpwa.Phys.Spec

/-- reverse Bessel polynomials: the spherical Hankel function of order `n` is, up to a phase,
`theta n (-i x) e^(i x) / x^(n+1)` -/
noncomputable def theta : ℕ → ℂ → ℂ
  | 0, _ => 1
  | 1, x => x + 1
  | n + 2, x => (2 * n + 3) * theta (n + 1) x + x ^ 2 * theta n x

/-- squared penetrability of the centrifugal barrier of orbital angular momentum `n`, for a momentum `x`
in units of the inverse range (Blatt, Weisskopf): `1 / |x h_n(x)|²` -/
noncomputable def penetrability (n : ℕ) (x : ℝ) : ℝ := x ^ (2 * n) / Complex.normSq (theta n (-Complex.I * x))

/-- a mother of mass `M` at rest can decay into particles of masses `m1`, `m2` with momentum `q`: their
energies sum up to `M` -/
def Decays (M m1 m2 q : ℝ) : Prop :=
  0 ≤ q ∧ Real.sqrt (m1 ^ 2 + q ^ 2) + Real.sqrt (m2 ^ 2 + q ^ 2) = M

open Gen in
/-- a real particle of mass `m` -/
structure Particle (m : ℝ) (p : LV) : Prop where
  mass : p.m2 = m ^ 2
  energy : 0 ≤ p.t

open Gen in
/-- a decay of mass `M` into three particles of masses `m` in which the squared mass of particles 0 and 1
is `s01`, that of particles 1 and 2 is `s12` -/
def ThreeBody (M : ℝ) (m : Fin 3 → ℝ) (s01 s12 : ℝ) : Prop :=
  ∃ p : Fin 3 → LV, (∀ i, Particle (m i) (p i)) ∧ (p 0 + p 1 + p 2).m2 = M ^ 2 ∧
    (p 0 + p 1).m2 = s01 ∧ (p 1 + p 2).m2 = s12

end Rpwa.Phys.Spec
