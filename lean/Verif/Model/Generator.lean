import Verif.Model.PhaseSpace

/-!
# Event generator

Model of `generators/diffractivePhaseSpace.{h,cc}` and of the parts of `generators/generatorManager.cc`
that configure it.

Particles are represented by their masses.  Random numbers are arguments.  `none`: the program ends
(`throw` without an exception), or reads outside of a vector (undefined behaviour), or a number is not
finite.  Lists of random numbers that are too short for the loops also give `none`.
-/

namespace Rpwa.Gen

/-- members of `diffractivePhaseSpace` (diffractivePhaseSpace.h:77-82, generator.h:69-77); of the picker
function only the mass range is kept here -/
structure Diff where
  ps : PS
  slices : List ℝ
  weights : List ℝ
  products : List ℝ
  range : Option (ℝ × ℝ)

namespace Diff

/-- constructor (diffractivePhaseSpace.cc:45-53) -/
def new : Diff where
  ps := (PS.new.setWeightType .chung).setKinematicsType .block
  slices := []
  weights := []
  products := []
  range := none

/-- `setTPrimeAndMassPicker` (generator.h:42-44), `overrideMassRange` of the shared picker function
(generatorPickerFunctions.cc:18-26) -/
def setRange (g : Diff) (lo hi : ℝ) : Diff := { g with range := some (lo, hi) }

/-- upper edges of the mass slices (diffractivePhaseSpace.cc:94-101) -/
noncomputable def sliceList (lo hi : ℝ) : List ℝ :=
  let n : ℕ := if hi - lo < 1 / 2 then 1 else 10
  let width := (hi - lo) / n
  (List.range n).map fun i : ℕ => lo + width * ((i : ℝ) + 1)

/-- one pass of the loop of l.102-108; `rnds` are the random numbers used for one slice -/
noncomputable def estimateStep (rnds : ℕ → List PS.Randoms) (s : PS × List ℝ) (p : ℝ × ℕ) :
    Option (PS × List ℝ) := do
  let (ps, w) ← s.1.estimateMaxWeight p.1 (rnds p.2)
  let max := 101 / 100 * w
  some ({ ps with maxWeight := max }, s.2 ++ [max])

/-- `buildDaughterList` (diffractivePhaseSpace.cc:73-111) -/
noncomputable def build (g : Diff) (rnds : ℕ → List PS.Randoms) : Option Diff :=
  if g.products.length ≤ 1 then some g
  else
    match g.range with
    | none => none
    | some (lo, hi) =>
      if hi < lo ∨ hi ≤ 0 then none
      else do
        let slices := g.slices ++ sliceList lo hi
        let (ps, weights) ← slices.zipIdx.foldlM (estimateStep rnds) ((g.ps.setDecay g.products).1, g.weights)
        some { g with ps := ps, slices := slices, weights := weights }

/-- `setDecayProducts` (diffractivePhaseSpace.cc:56-62) -/
noncomputable def setDecayProducts (g : Diff) (masses : List ℝ) (rnds : ℕ → List PS.Randoms) : Option Diff :=
  ({ g with products := masses } : Diff).build rnds

/-- `addDecayProduct` (diffractivePhaseSpace.cc:65-70) -/
noncomputable def addDecayProduct (g : Diff) (mass : ℝ) (rnds : ℕ → List PS.Randoms) : Option Diff :=
  ({ g with products := g.products ++ [mass] } : Diff).build rnds

/-- choice of the maximum weight (diffractivePhaseSpace.cc:207-211) -/
noncomputable def findWeight (x : ℝ) : List ℝ → List ℝ → Option ℝ
  | s :: ss, w :: ws => if x > s then findWeight x ss ws else some w
  | _, _ => none

/-- choice of mass and `t'` (diffractivePhaseSpace.cc:200-205): the first pair in the kinematic region -/
noncomputable def pick (mr sqrtS : ℝ) : List (ℝ × ℝ) → Option (ℝ × ℝ)
  | [] => none
  | (x, t') :: rest => if x + mr > sqrtS ∨ t' < 0 then pick mr sqrtS rest else some (x, t')

/-- the condition of l.242 with infinite and undefined quotients -/
noncomputable def rejects (psWeight maxPsWeight r : ℝ) : Prop := maxPsWeight ≠ 0 ∧ psWeight / maxPsWeight < r

open Classical in
/-- the inner loop (diffractivePhaseSpace.cc:226-249) -/
noncomputable def attempts (x xMax mt sqrtS : ℝ) (X : LV) : List PS.Randoms → PS → Option (PS × ℕ)
  | [], _ => none
  | r :: rs, ps => do
    let ps := ps.pickMasses x r.draws r.r
    let qMax ← Phys.breakupMomentum sqrtS xMax mt
    let q ← Phys.breakupMomentum sqrtS x mt
    let maxPsWeight := ps.maxWeight * xMax * (qMax / sqrtS)
    let ps ← ps.calcWeight
    let psWeight := ps.weight * x * (q / sqrtS)
    if rejects psWeight maxPsWeight r.accept then do
      let (ps, k) ← attempts x xMax mt sqrtS X rs ps
      some (ps, k + 1)
    else some ((ps.pickAngles r.u r.v).calcEventKinematics X, 1)

/-- a generated event -/
structure Event where
  gen : Diff
  xMass : ℝ
  tPrime : ℝ
  X : LV
  recoil : LV
  daughters : ℕ → LV
  attempts : ℕ

/-- `event` (diffractivePhaseSpace.cc:162-262) for a given beam particle.  As the inner loop only ends
with an accepted event, the outer one runs once.  The last check (l.255-258) compares the number of
daughters with the number of decay products. -/
noncomputable def event (g : Diff) (beam : LV) (mt mr : ℝ) (picks : List (ℝ × ℝ)) (phi : ℝ)
    (tries : List PS.Randoms) : Option Event :=
  match g.range with
  | none => none
  | some (_, xMassMax) => do
    let targetLab : LV := ⟨0, 0, 0, mt⟩
    let overallCm := beam + targetLab
    if xMassMax + mt > Real.sqrt overallCm.m2 then none
    else do
      let (x, t') ← pick mr (Real.sqrt overallCm.m2) picks
      let max ← findWeight x g.slices g.weights
      let ps := { g.ps with maxWeight := max }
      let s := overallCm.m2
      let sqrtS := Real.sqrt s
      let X ← calculateXSystemLab beam mt x mr s t' phi
      let recoil := beam + targetLab - X
      let (ps, k) ← attempts x xMassMax mt sqrtS X tries ps
      if ps.n ≠ g.products.length then none
      else some ⟨{ g with ps := ps }, x, t', X, recoil, ps.daughters, k⟩

end Diff

end Rpwa.Gen
