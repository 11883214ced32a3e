import Verif.Model.CheckKey
import Verif.Spec.Amplitude
/-! # What the checks of key files should find

Stated with the values of the amplitudes only. -/
namespace Rpwa.CheckKey

open Rpwa.Amp

/-- a component `a` of the amplitude is larger than that of the transformed event, `b`, by more than the tolerance. -/
def TooLargeR (δ a b : ℝ) : Prop := b ≠ 0 ∧ (1 + δ) * |b| < |a|

/-- two components that do not vanish do not have the relative sign `eig`. -/
def WrongSignR (eig : ℤ) (a b : ℝ) : Prop := a ≠ 0 ∧ b ≠ 0 ∧ ¬ 0 < eig * (a * b)

/-- the same for real or imaginary part. -/
def TooLarge (δ : ℝ) (a b : ℂ) : Prop := TooLargeR δ a.re b.re ∨ TooLargeR δ a.im b.im
def WrongSign (eig : ℤ) (a b : ℂ) : Prop := WrongSignR eig a.re b.re ∨ WrongSignR eig a.im b.im

/-- the events that are used. -/
def usedEvents {E : Type} (maxNmbEvents : ℤ) (events : List E) : List E := if maxNmbEvents > 0 then events.take maxNmbEvents.toNat else events

/-- the amplitudes of a wave can be calculated for the events that are used, of which there is at least one. -/
structure Comparable {E : Type} (maxNmbEvents : ℤ) (events : List E) (w : Wave E) : Prop where
  amp : w.hasAmp = true
  init : w.initOk = true
  read : ∀ e ∈ usedEvents maxNmbEvents events, w.readable e = true
  some : usedEvents maxNmbEvents events ≠ []

/-- a wave that is built and whose topology passes both checks. -/
structure Consistent {E : Type} (w : Wave E) : Prop where
  built : w.built = true
  topology : w.checkTopology = true
  consistency : w.checkConsistency = true

/-- parity of X divided by that of the final state. -/
def spaceInvSign {E : Type} (w : Wave E) : ℤ := w.P * w.fsParity

/-- minus the reflectivity, divided by the parity of the final state. -/
def reflSign {E : Type} (w : Wave E) : ℤ := -(w.refl * w.fsParity)

/-- quantum numbers that have a value. -/
structure Signs {E : Type} (w : Wave E) : Prop where
  P : w.P = 1 ∨ w.P = -1
  refl : w.refl = 1 ∨ w.refl = -1
  fs : w.fsParity = 1 ∨ w.fsParity = -1

/-- the amplitudes of an event and of the transformed events. -/
abbrev plain {E : Type} (w : Wave E) (e : E) : ℂ := w.amp {} e
abbrev inverted {E : Type} (w : Wave E) (e : E) : ℂ := w.amp { spaceInversion := true } e
abbrev reflected {E : Type} (w : Wave E) (e : E) : ℂ := w.amp { reflection := true } e

/-- what is reported for the events of a wave. -/
structure ErrorsOf {E : Type} (δ : ℝ) (w : Wave E) (es : List E) (errs : List Err) : Prop where
  zero : .zero ∈ errs ↔ ∃ e ∈ es, plain w e = 0
  deviation : .deviation ∈ errs ↔ ∃ e ∈ es, TooLarge δ (plain w e) (inverted w e) ∨ TooLarge δ (plain w e) (reflected w e)
  spaceInv : .spaceInv ∈ errs ↔ ∃ e ∈ es, WrongSign (spaceInvSign w) (plain w e) (inverted w e)
  refl : .refl ∈ errs ↔ ∃ e ∈ es, WrongSign (reflSign w) (plain w e) (reflected w e)
  other : .parsing ∉ errs ∧ .topology ∉ errs ∧ .inconsistent ∉ errs
  once : errs.Nodup

/-- what one event must fulfil. -/
structure EventOk {E : Type} (δ : ℝ) (w : Wave E) (e : E) : Prop where
  nonzero : plain w e ≠ 0
  inversion : ¬ TooLarge δ (plain w e) (inverted w e) ∧ ¬ WrongSign (spaceInvSign w) (plain w e) (inverted w e)
  reflection : ¬ TooLarge δ (plain w e) (reflected w e) ∧ ¬ WrongSign (reflSign w) (plain w e) (reflected w e)

/-- an amplitude with the symmetry of its quantum numbers. -/
structure Symmetric {E : Type} (w : Wave E) (e : E) : Prop where
  inversion : inverted w e = spaceInvSign w * plain w e
  reflection : reflected w e = reflSign w * plain w e

end Rpwa.CheckKey
