import Verif.Model.Kinematics

/-!
# Specification of n-body decays (C51, C52)
-/

namespace Rpwa.Gen.Spec

/-- sum of the Lorentz vectors with indices up to `k` -/
def total (ds : ℕ → LV) : ℕ → LV
  | 0 => ds 0
  | k + 1 => total ds k + ds (k + 1)

/-- `ds 0 … ds (n-1)` are possible decay products of masses `m` of the system `nBody`: energy and momentum
are conserved and all particles are real -/
structure IsDecay (n : ℕ) (m : ℕ → ℝ) (nBody : LV) (ds : ℕ → LV) : Prop where
  conserved : total ds (n - 1) = nBody
  onShell : ∀ i < n, (ds i).m2 = m i ^ 2
  energy : ∀ i < n, 0 ≤ (ds i).t

/-- masses of the subsystems of the first `i + 1` particles are `M i` -/
def SubMasses (n : ℕ) (M : ℕ → ℝ) (ds : ℕ → LV) : Prop := ∀ i < n, (total ds i).m2 = M i ^ 2

/-- masses of subsystems that are possible for particles of masses `m` -/
structure ValidMasses (n : ℕ) (m M : ℕ → ℝ) : Prop where
  nonneg : ∀ i < n, 0 ≤ m i
  first : M 0 = m 0
  step : ∀ i, i + 1 < n → M i + m (i + 1) ≤ M (i + 1)
  pos : ∀ i, i + 1 < n → 0 < M (i + 1)

end Rpwa.Gen.Spec

namespace Rpwa.Gen.Spec

/-- two-body phase space of the decay of mass `M` into `m1` and `m2`, integrated over the angles:
breakup momentum over `4 pi M` -/
noncomputable def twoBody (M m1 m2 : ℝ) : ℝ :=
  Real.sqrt ((M ^ 2 - (m1 + m2) ^ 2) * (M ^ 2 - (m1 - m2) ^ 2)) / (8 * Real.pi * M ^ 2)

/-- density of n-body phase space in the masses `M` of the subsystems (recurrence relation): one factor
of two-body phase space for each decay `M (k+1) → M k + m (k+1)` and one factor `2 M dM / 2 pi` for each
intermediate subsystem -/
noncomputable def density (m M : ℕ → ℝ) : ℕ → ℝ
  | 0 => 1
  | 1 => twoBody (M 1) (M 0) (m 1)
  | k + 2 => density m M (k + 1) * (2 * M (k + 1) / (2 * Real.pi)) * twoBody (M (k + 2)) (M (k + 1)) (m (k + 2))

/-- density of the values `y = a^(1/i)` (probability `1 - p`) and `y = a^(1/i) b^(1/(i-1))`
(probability `p`) for independent `a`, `b` that are uniform in (0, 1) -/
noncomputable def mixture (i : ℕ) (p y : ℝ) : ℝ :=
  p * (i * (i - 1) * y ^ (i - 2) * (1 - y)) + (1 - p) * (i * y ^ (i - 1))

end Rpwa.Gen.Spec
