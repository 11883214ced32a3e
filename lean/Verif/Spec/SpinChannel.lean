import Verif.Model.SpinChannel
import Verif.Spec.SpinTensor
/-!
# Specification of the amplitudes of a decay channel
-/
namespace Rpwa.SpinTensor.Spec
open Fraction Clebsch

/-- parities of the three particles are 1 or -1 -/
def Parities (c : Channel) : Prop := (c.etaJ = 1 ∨ c.etaJ = -1) ∧ (c.eta1 = 1 ∨ c.eta1 = -1) ∧ (c.eta2 = 1 ∨ c.eta2 = -1)

/-- a contraction of a channel: orbital angular momentum, coupled spin, projection and numbers of pairs -/
def contraction (L : ℕ) (S δ : ℤ) (i co ce po pe cp : ℕ) : Contraction :=
  ⟨L, S, δ, i, cp, (co + ce : ℕ), (po + pe : ℕ), co, po⟩

/-- the conservation laws: the spins couple to `S`, `S` and `L` couple to `J`, parity is conserved, `S` and `J` have the projection
`δ ≥ 0`, and all indices can be contracted -/
structure Allowed (c : Channel) (L : ℕ) (S δ : ℤ) (i co ce po pe cp : ℕ) : Prop where
  spin : CgBox.Spec.Triangle S c.S1 c.S2
  total : CgBox.Spec.Triangle c.J L S
  parity : (-1 : ℤ) ^ L = c.etaJ * c.eta1 * c.eta2
  proj : 0 ≤ δ ∧ δ ≤ S ∧ δ ≤ c.J
  complete : Complete c.S1 c.S2 L c.J i co ce po pe cp

/-- the same contraction, the projection left out -/
def Same (a b : Contraction) : Prop := { a with delta := 0 } = { b with delta := 0 }

/-- value of a contribution: the square root of the normalization times the sum of the terms -/
noncomputable def contribVal (γs γσ : ℝ) (x : Contrib) : ℝ :=
  ssqrt (dval false x.norm) * (x.terms.map fun t => ssqrt (dval false t.1) * γs ^ t.2.1.toNat * γσ ^ t.2.2.toNat).sum

/-- `x` is the contribution of the LS amplitude `a` to the helicity-coupling amplitude with helicities `lambda` and `nu`: the amplitude
times the Clebsch-Gordan coefficient of the helicities, times `(-1)^(L+S-J)` if the projection `lambda - nu` is negative. The
normalization is such that the terms add up to one for Lorentz factors one, except if the amplitude vanishes there. -/
structure Contributes (c : Channel) (lambda nu : ℤ) (a : LsAmpl) (x : Contrib) : Prop where
  con : x.con = a.con
  num : x.num = a.num
  delta : x.delta = lambda - nu
  powers : x.terms.map (·.2) = a.terms.map (fun t => (t.gamS, t.gamSig))
  value : ∀ γs γσ : ℝ, contribVal γs γσ x = (if lambda - nu < 0 then (-1) ^ (a.con.L + a.con.S - c.J) else 1) *
    CgBox.Spec.coefficient a.con.S c.S1 lambda c.S2 (-nu) * (a.terms.map (val γs γσ)).sum
  pure : x.pure = true ↔ (a.terms.map (val 1 1)).sum = 0
  normalized : x.pure = false → (x.terms.map fun t => ssqrt (dval false t.1)).sum = 1

/-- an LS amplitude with the projection of the helicities up to the sign, and with a Clebsch-Gordan coefficient that does not vanish -/
def Couples (c : Channel) (lambda nu : ℤ) (a : LsAmpl) : Prop :=
  |a.con.delta| = |lambda - nu| ∧ CgBox.Spec.coefficient a.con.S c.S1 lambda c.S2 (-nu) ≠ 0

/-- the helicities that are calculated; the others follow from parity -/
def Helicities (c : Channel) (lambda nu : ℤ) : Prop := 0 ≤ lambda ∧ lambda ≤ c.S1 ∧ -(c.S2 : ℤ) ≤ nu ∧ nu ≤ c.S2 ∧ ¬ (lambda = 0 ∧ nu < 0)

end Rpwa.SpinTensor.Spec
