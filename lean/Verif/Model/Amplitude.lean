import Verif.Model.Frames
import Verif.Model.PhysUtils
import Verif.Spec.DFunction
import Verif.Spec.Clebsch

/-!
# Decay amplitudes of the isobar model

Model of `isobarAmplitude`, `isobarHelicityAmplitude` and `isobarCanonicalAmplitude` (decayAmplitude/).

* `double` is `ℝ`, without rounding. Spins, projections and orbital angular momenta are in units of `hbar/2`.
* `clebschGordanCoeff` and `dFunction` enter with the values the models of their caches return for allowed arguments:
  `Clebsch.racah` (property C03) and `DFunction.wignerD` (property C05). Spins at or beyond the array sizes of the
  caches, where these functions end the program, are outside of this model.
* The decay graph is a binary tree (`checkTopology`). The vertices are visited in the code in depth-first order; a
  particle is therefore transformed with the transformations of all its ancestors, from the X downwards. The model
  hands the product of these transformations down the tree.
* The mass dependence of a vertex is a function of the invariant masses of the parent and of the two daughters
  (this is all the classes in massDependence.cc read from the event).
-/

namespace Rpwa.Amp

open Rpwa.Gen

/-- `isobarDecayVertex` (decayAmplitude/isobarDecayVertex.h): `L()`, `S()` and the mass dependence -/
structure DecayVtx where
  L : ℤ
  S : ℤ
  massDep : ℝ → ℝ → ℝ → ℂ

/-- A particle of the decay: spin `J()`, parity `P()`, its four-momentum `lzVec()`, and either its index in the final
state or the vertex in which it decays, with the two daughters. -/
inductive Part where
  | fs (J P : ℤ) (idx : ℕ) (lz : LV)
  | isobar (J P : ℤ) (lz : LV) (v : DecayVtx) (d1 d2 : Part)

namespace Part

/-- `particle::J()` -/
def J : Part → ℤ
  | fs J _ _ _ => J
  | isobar J _ _ _ _ _ => J

/-- `particle::P()` -/
def P : Part → ℤ
  | fs _ P _ _ => P
  | isobar _ P _ _ _ _ => P

/-- `particle::lzVec()` -/
def lz : Part → LV
  | fs _ _ _ p => p
  | isobar _ _ p _ _ _ => p

/-- `decayTopology::revertMomenta(fsPartPermMap)` (decayAmplitude/decayTopology.cc:837-864): final-state particle `i`
gets the momentum with number `perm[i]` of the event; `ev` is the event as seen through the permutation -/
def setFs (ev : ℕ → LV) : Part → Part
  | fs J P i _ => fs J P i (ev i)
  | isobar J P p v d1 d2 => isobar J P p v (setFs ev d1) (setFs ev d2)

/-- `decayTopology::transformFsParticles` (decayAmplitude/decayTopology.cc:239-245) followed by whatever the caller does to
the momenta of the final-state particles -/
def mapFs (T : LV → LV) : Part → Part
  | fs J P i p => fs J P i (T p)
  | isobar J P p v d1 d2 => isobar J P p v (mapFs T d1) (mapFs T d2)

/-- `isobarDecayTopology::calcIsobarLzVec` (decayAmplitude/isobarDecayTopology.cc:258-272) with
`isobarDecayVertex::calcParentLzVec`: from the final state upwards, the parent is the sum of the daughters -/
def calcIsobarLz : Part → Part
  | fs J P i p => fs J P i p
  | isobar J P _ v d1 d2 =>
    isobar J P ((calcIsobarLz d1).lz + (calcIsobarLz d2).lz) v (calcIsobarLz d1) (calcIsobarLz d2)

/-- second loop of `transformDaughters` (isobarHelicityAmplitude.cc:122-142, isobarCanonicalAmplitude.cc:90-112): `T` is
the product of the transformations of the particles above; `restFrame p` is the transformation into the frame of a
particle with momentum `p` -/
noncomputable def toFrames (restFrame : LV → LV → LV) : (LV → LV) → Part → Part
  | T, fs J P i p => fs J P i (T p)
  | T, isobar J P p v d1 d2 =>
    isobar J P (T p) v (toFrames restFrame (fun q => restFrame (T p) (T q)) d1)
      (toFrames restFrame (fun q => restFrame (T p) (T q)) d2)

end Part

open Classical in
/-- `TLorentzVector::M()` -/
noncomputable def mass (p : LV) : ℝ := if p.m2 < 0 then -Real.sqrt (-p.m2) else Real.sqrt p.m2

/-- what the two formalisms implement: the transformation into the rest frame of an isobar and the two-body amplitude.
The arguments of the latter are: reflectivity basis (top vertex only), `J`, `P`, reflectivity and spin projection of
the parent, vertex, momentum of the parent, the daughters, and their spin projections. -/
structure Formalism where
  restFrame : LV → LV → LV
  twoBody : Bool → ℤ → ℤ → ℤ → ℤ → DecayVtx → LV → Part → Part → ℤ → ℤ → ℂ

/-- `DFunction` (utilities/dFunction.hpp:255-273) with `gamma = 0` -/
noncomputable def bigD (j m n : ℤ) (alpha beta : ℝ) : ℂ :=
  Complex.exp (-(((m : ℝ) / 2 * alpha : ℝ) : ℂ) * Complex.I) * (DFunction.wignerD j m n beta : ℂ)

/-- `DFunctionRefl` (utilities/dFunction.hpp:299-333) with `gamma = 0` -/
noncomputable def bigDRefl (j m n P refl : ℤ) (alpha beta : ℝ) : ℂ :=
  let reflFactor := Phys.reflectivityFactor j P m refl
  if m = 0 then
    if reflFactor = 1 then 0 else bigD j 0 n alpha beta
  else ((1 / Real.sqrt 2 : ℝ) : ℂ) * (bigD j m n alpha beta - (reflFactor : ℂ) * bigD j (-m) n alpha beta)

open Classical in
/-- `isobarHelicityAmplitude::twoBodyDecayAmplitude` (decayAmplitude/isobarHelicityAmplitude.cc:146-198) -/
noncomputable def helTwoBody (reflBasis : Bool) (J P refl Lambda : ℤ) (v : DecayVtx) (parent : LV) (d1 d2 : Part)
    (l1 l2 : ℤ) : ℂ :=
  let lambda := l1 - l2
  let lsClebsch := Clebsch.racah v.L 0 v.S lambda J lambda
  if lsClebsch = 0 then 0
  else
    let ssClebsch := Clebsch.racah d1.J l1 d2.J (-l2) v.S lambda
    if ssClebsch = 0 then 0
    else
      let ph := phi d1.lz.vect
      let th := theta d1.lz.vect
      let DFunc := (starRingEnd ℂ) (if reflBasis then bigDRefl J Lambda lambda P refl ph th
        else bigD J Lambda lambda ph th)
      let bf := Phys.barrierFactor v.L d1.lz.P
      let bw := v.massDep (mass parent) (mass d1.lz) (mass d2.lz)
      let norm := Real.sqrt (v.L + 1)
      (norm : ℂ) * DFunc * (lsClebsch : ℂ) * (ssClebsch : ℂ) * (bf : ℂ) * bw

/-- `for (int lambda = -J; lambda <= +J; lambda += 2)` -/
noncomputable def spinLoop (J : ℤ) (f : ℤ → ℂ) : ℂ :=
  ((List.range (J + 1).toNat).map fun k : ℕ => f (-J + 2 * k)).sum

/-- `sphericalHarmonic` (utilities/dFunction.hpp:232-250) -/
noncomputable def sphericalHarmonic (l m : ℤ) (th ph : ℝ) : ℂ :=
  (Real.sqrt ((l + 1) / (4 * Real.pi)) : ℂ) * Complex.exp ((((m : ℝ) / 2 * ph : ℝ) : ℂ) * Complex.I)
    * (DFunction.wignerD l m 0 th : ℂ)

open Classical in
/-- `isobarCanonicalAmplitude::twoBodyDecayAmplitude` (decayAmplitude/isobarCanonicalAmplitude.cc:118-191) -/
noncomputable def canTwoBody (reflBasis : Bool) (J P refl M : ℤ) (v : DecayVtx) (parent : LV) (d1 d2 : Part)
    (m1 m2 : ℤ) : ℂ :=
  let mS := m1 + m2
  let ssClebsch := Clebsch.racah d1.J m1 d2.J m2 v.S mS
  if ssClebsch = 0 then 0
  else
    let bf := Phys.barrierFactor v.L d1.lz.P
    let bw := v.massDep (mass parent) (mass d1.lz) (mass d2.lz)
    let norm := Real.sqrt (4 * Real.pi)
    let ph := phi d1.lz.vect
    let th := theta d1.lz.vect
    let amp := spinLoop v.L fun mL =>
      let LSClebsch : ℝ :=
        if reflBasis then
          let reflFactor := Phys.reflectivityFactor J P M refl
          if M = 0 then
            if reflFactor = 1 then 0 else Clebsch.racah v.L mL v.S mS J 0
          else 1 / Real.sqrt 2 * (Clebsch.racah v.L mL v.S mS J M
            - (reflFactor : ℝ) * Clebsch.racah v.L mL v.S mS J (-M))
        else Clebsch.racah v.L mL v.S mS J M
      if LSClebsch = 0 then 0 else (LSClebsch : ℂ) * sphericalHarmonic v.L mL th ph
    amp * ((norm : ℂ) * (ssClebsch : ℂ) * (bf : ℂ) * bw)

/-- `isobarHelicityAmplitude` -/
noncomputable def helicity : Formalism := ⟨hfTransform, helTwoBody⟩

/-- `isobarCanonicalAmplitude`: pure boosts (isobarCanonicalAmplitude.cc:99-111) -/
noncomputable def canonical : Formalism := ⟨fun p q => q.boost p.boostVector.neg, canTwoBody⟩

/-- `isobarAmplitude::twoBodyDecayAmplitudeSum` (decayAmplitude/isobarAmplitude.cc:238-287) for a particle that is not
the X: `1` for a final-state particle, whatever its spin -/
noncomputable def decayAmp (F : Formalism) : Part → ℤ → ℂ
  | .fs _ _ _ _, _ => 1
  | .isobar J P p v d1 d2, Lambda =>
    spinLoop d1.J fun l1 => spinLoop d2.J fun l2 =>
      F.twoBody false J P 0 Lambda v p d1 d2 l1 l2 * decayAmp F d1 l1 * decayAmp F d2 l2

/-- the decay of X: quantum numbers `J`, `P`, reflectivity and spin projection `M` of X, its decay vertex, and the two
daughters -/
structure XDecay where
  J : ℤ
  P : ℤ
  refl : ℤ
  M : ℤ
  v : DecayVtx
  d1 : Part
  d2 : Part

/-- `twoBodyDecayAmplitudeSum` for the vertex of X (isobarAmplitude.cc:238-287 with `topVertex`); `parent` is the
momentum of X -/
noncomputable def topAmp (F : Formalism) (reflBasis : Bool) (X : XDecay) (parent : LV) : ℂ :=
  spinLoop X.d1.J fun l1 => spinLoop X.d2.J fun l2 =>
    F.twoBody reflBasis X.J X.P X.refl X.M X.v parent X.d1 X.d2 l1 l2 * decayAmp F X.d1 l1 * decayAmp F X.d2 l2

namespace XDecay

/-- momentum of X after `calcIsobarLzVec` -/
def lz (X : XDecay) : LV := X.d1.lz + X.d2.lz

/-- a function applied to both daughters -/
def on (X : XDecay) (f : Part → Part) : XDecay := { X with d1 := f X.d1, d2 := f X.d2 }

end XDecay

/-- parity transformation of isobarAmplitude.cc:195-199 -/
def invert (p : LV) : LV := ⟨-p.x, -p.y, -p.z, p.t⟩

/-- reflection of isobarAmplitude.cc:217-221 -/
def reflY (p : LV) : LV := ⟨p.x, -p.y, p.z, p.t⟩

/-- `TLorentzRotation::Inverse` of a Lorentz transformation given as a function (ROOT, trusted): the inverse function -/
noncomputable def inverse (T : LV → LV) (p : LV) : LV := Classical.epsilon fun q => T q = p

/-- `spaceInvertDecay`, `reflectDecay` (decayAmplitude/isobarAmplitude.cc:183-225) followed by `calcIsobarLzVec`: to the
Gottfried-Jackson frame, `change`, back -/
noncomputable def changeInGJ (beam : LV) (change : LV → LV) (X : XDecay) : XDecay :=
  ((X.on (Part.mapFs (gjTransform beam X.lz))).on (Part.mapFs change)).on
    (Part.mapFs (inverse (gjTransform beam X.lz))) |>.on Part.calcIsobarLz

/-- the switches of `isobarAmplitude` (isobarAmplitude.cc:51-70): the first is set by default, the others are not -/
structure Switches where
  reflBasis : Bool := true
  spaceInversion : Bool := false
  reflection : Bool := false

/-- first part of `transformDaughters` (isobarHelicityAmplitude.cc:95-108): momenta of the isobars and the optional
modifications of the event -/
noncomputable def prepare (sw : Switches) (beam : LV) (X : XDecay) : XDecay :=
  let X1 := X.on Part.calcIsobarLz
  let X2 := if sw.spaceInversion then changeInGJ beam invert X1 else X1
  if sw.reflection then changeInGJ beam reflY X2 else X2

/-- `isobarAmplitude::symTermAmp` (isobarAmplitude.cc:276-293): set the momenta of the final state (`ev i` is the
momentum of final-state particle `i`), transform, sum. `beam` is `referenceLzVec()` of the production vertex. -/
noncomputable def symTermAmp (F : Formalism) (sw : Switches) (X : XDecay) (beam : LV) (ev : ℕ → LV) : ℂ :=
  let X1 := prepare sw beam (X.on (Part.setFs ev))
  topAmp F sw.reflBasis (X1.on (Part.toFrames F.restFrame (gjTransform beam X1.lz))) X1.lz

/-- `isobarAmplitude::amplitude` (isobarAmplitude.cc:105-120): sum over the symmetrisation terms, each a factor and a
permutation of the final state; `none`-like value 0 if `init()` was not called -/
noncomputable def amplitude (F : Formalism) (sw : Switches) (terms : List (ℂ × List ℕ)) (X : XDecay) (beam : LV)
    (ev : ℕ → LV) : ℂ :=
  terms.foldl (fun amp t => amp + t.1 * symTermAmp F sw X beam fun i => ev (t.2.getD i 0)) 0

end Rpwa.Amp
