import Verif.Model.Amplitude

/-!
# Vocabulary for the symmetries of decay amplitudes
-/

namespace Rpwa.Amp.Spec

open Rpwa.Gen

/-- all isobars have integer spin and orbital angular momentum (spins are doubled), all final-state particles spin 0 -/
def Mesonic : Part → Prop
  | .fs J _ _ _ => J = 0
  | .isobar J _ _ v d1 d2 => 2 ∣ J ∧ 2 ∣ v.L ∧ 0 ≤ v.L ∧ Mesonic d1 ∧ Mesonic d2

/-- parity is conserved in every decay -/
def ParityConserved : Part → Prop
  | .fs _ P _ _ => P = 1 ∨ P = -1
  | .isobar _ P _ v d1 d2 => P = d1.P * d2.P * (-1) ^ (v.L / 2).toNat ∧ ParityConserved d1 ∧ ParityConserved d2

/-- product of the intrinsic parities of the final-state particles -/
def fsParity : Part → ℤ
  | .fs _ P _ _ => P
  | .isobar _ _ _ _ d1 d2 => fsParity d1 * fsParity d2

/-- parities of a single particle -/
def IsParity (P : ℤ) : Prop := P = 1 ∨ P = -1

/-- no particle flies exactly along the z-axis of the frame in which its momentum is given; isobars are physical -/
def OffAxis : Part → Prop
  | .fs _ _ _ p => p.x ≠ 0 ∨ p.y ≠ 0
  | .isobar _ _ p _ d1 d2 => 0 < p.m2 ∧ 0 < p.t ∧ (p.x ≠ 0 ∨ p.y ≠ 0) ∧ OffAxis d1 ∧ OffAxis d2

/-- the same for the decay of X -/
structure MesonicX (X : XDecay) : Prop where
  J_even : 2 ∣ X.J
  L_even : 2 ∣ X.v.L
  L_nonneg : 0 ≤ X.v.L
  M_even : 2 ∣ X.M
  M_nonneg : 0 ≤ X.M
  M_le : X.M ≤ X.J
  P_sign : IsParity X.P
  refl_sign : IsParity X.refl
  left : Mesonic X.d1
  right : Mesonic X.d2

/-- parity is conserved in every decay, beginning with that of X -/
structure ParityConservedX (X : XDecay) : Prop where
  top : X.P = X.d1.P * X.d2.P * (-1) ^ (X.v.L / 2).toNat
  left : ParityConserved X.d1
  right : ParityConserved X.d2

/-- product of the intrinsic parities of the final-state particles of X -/
def fsParityX (X : XDecay) : ℤ := fsParity X.d1 * fsParity X.d2

end Rpwa.Amp.Spec

namespace Rpwa.Amp.Spec

open Rpwa.Gen

/-- sum of the momenta of the final-state particles below a particle -/
def fsSum (ev : ℕ → LV) : Part → LV
  | .fs _ _ i _ => ev i
  | .isobar _ _ _ _ d1 d2 => fsSum ev d1 + fsSum ev d2

/-- momentum of X: sum of the momenta of all final-state particles -/
def total (ev : ℕ → LV) (X : XDecay) : LV := fsSum ev X.d1 + fsSum ev X.d2

/-- X has positive mass and energy -/
structure Physical (X : XDecay) (ev : ℕ → LV) : Prop where
  mass : 0 < (total ev X).m2
  energy : 0 < (total ev X).t

/-- the momenta of the particles below X, each in the helicity frame of its parent -/
noncomputable def inHelicityFrames (X : XDecay) (beam : LV) (ev : ℕ → LV) (t : Part) : Part :=
  ((t.setFs ev).calcIsobarLz).toFrames hfTransform (gjTransform beam (total ev X))

/-- the event is physical and in general position: X and all isobars have positive mass and energy, and no particle
flies exactly along the z-axis of its parent's frame -/
structure Generic (X : XDecay) (beam : LV) (ev : ℕ → LV) : Prop extends Physical X ev where
  left : OffAxis (inHelicityFrames X beam ev X.d1)
  right : OffAxis (inHelicityFrames X beam ev X.d2)

end Rpwa.Amp.Spec
