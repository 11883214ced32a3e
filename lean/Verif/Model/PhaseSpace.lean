import Verif.Model.Kinematics
import Mathlib.Data.Nat.Factorial.Basic
import Mathlib.Data.List.Sort

/-!
# n-body phase space

Model of `nBodyPhaseSpace/nBodyPhaseSpaceKinematics.{h,cc}` and `nBodyPhaseSpaceGenerator.{h,cc}`.

The vectors of the object, which all have length `n`, are functions of the index; entries from `n` on are
never used.  `double` is `ℝ`; random numbers are arguments.  `none` is the `throw` of `breakupMomentum`
(no exception is being handled: the program ends).
-/

namespace Rpwa.Gen

/-- `weightTypeEnum` (nBodyPhaseSpaceKinematics.h:120-123) -/
inductive WeightType
  | chung | nuphaz | genbod | flat
  deriving DecidableEq

/-- `kinematicsTypeEnum` (nBodyPhaseSpaceKinematics.h:133-134) -/
inductive KinType
  | block | raubold
  deriving DecidableEq

/-- members of `nBodyPhaseSpaceKinematics` and `nBodyPhaseSpaceGenerator`
(nBodyPhaseSpaceKinematics.h:189-217, nBodyPhaseSpaceGenerator.h:104) -/
structure PS where
  weightType : WeightType
  kinType : KinType
  n : ℕ
  m : ℕ → ℝ
  mSum : ℕ → ℝ
  norm : ℝ
  M : ℕ → ℝ
  cosTheta : ℕ → ℝ
  phi : ℕ → ℝ
  q : ℕ → ℝ
  daughters : ℕ → LV
  weight : ℝ
  maxObserved : ℝ
  maxWeight : ℝ

namespace PS

/-- constructors (nBodyPhaseSpaceKinematics.cc:94-101, nBodyPhaseSpaceGenerator.cc:44-46) -/
def new : PS where
  weightType := .chung
  kinType := .block
  n := 0
  m := fun _ => 0
  mSum := fun _ => 0
  norm := 0
  M := fun _ => 0
  cosTheta := fun _ => 0
  phi := fun _ => 0
  q := fun _ => 0
  daughters := fun _ => 0
  weight := 0
  maxObserved := 0
  maxWeight := 0

/-- sums of daughter masses (nBodyPhaseSpaceKinematics.cc:124-129) -/
def sums (m : ℕ → ℝ) : ℕ → ℝ
  | 0 => m 0
  | i + 1 => sums m i + m (i + 1)

/-- normalization (nBodyPhaseSpaceKinematics.cc:132-151) -/
noncomputable def normOf (w : WeightType) (n : ℕ) : ℝ :=
  match w with
  | .chung => 1 / (2 * (2 * Real.pi) ^ (2 * (n : ℤ) - 3) * (n - 2).factorial)
  | .nuphaz =>
    let fact : ℝ := (n - 2).factorial
    8 / ((4 * Real.pi) ^ (2 * (n : ℤ) + 1) * fact * fact * (n - 1))
  | .genbod => 1
  | .flat => 1

/-- `setDecay` (nBodyPhaseSpaceKinematics.cc:109-173); the second component is the returned value -/
noncomputable def setDecay (g : PS) (masses : List ℝ) : PS × Bool :=
  if masses.length < 2 then ({ g with n := masses.length }, false)
  else
    let m := fun i => masses.getD i 0
    ({ g with
        n := masses.length
        m := m
        mSum := sums m
        norm := normOf g.weightType masses.length
        M := (fun i => if i = 0 then m 0 else 0)
        cosTheta := (fun _ => 0)
        phi := (fun _ => 0)
        q := (fun _ => 0)
        daughters := (fun _ => 0)
        maxObserved := 0 }, true)

/-- `setWeightType` (nBodyPhaseSpaceKinematics.h:124) -/
def setWeightType (g : PS) (w : WeightType) : PS := { g with weightType := w }

/-- `setKinematicsType` (nBodyPhaseSpaceKinematics.h:135) -/
def setKinematicsType (g : PS) (k : KinType) : PS := { g with kinType := k }

/-- `setMasses` (nBodyPhaseSpaceKinematics.cc:190-199); vectors of wrong length `throw` -/
def setMasses (g : PS) (M : List ℝ) : Option PS :=
  if M.length ≠ g.n then none else some { g with M := (fun i => M.getD i 0) }

/-- `setAngles` (nBodyPhaseSpaceKinematics.cc:203-219) -/
def setAngles (g : PS) (c p : List ℝ) : Option PS :=
  if c.length ≠ g.n then none
  else if p.length ≠ g.n then none
  else some { g with cosTheta := (fun i => c.getD i 0), phi := (fun i => p.getD i 0) }

/-- the loop of `calcBreakupMomenta` for indices up to `k` -/
noncomputable def breakupLoop (g : PS) : ℕ → Option (ℕ → ℝ)
  | 0 => some g.q
  | i + 1 => do
    let q ← breakupLoop g i
    let v ← Phys.breakupMomentum (g.M (i + 1)) (g.M i) (g.m (i + 1))
    some (Function.update q (i + 1) v)

/-- `calcBreakupMomenta` (nBodyPhaseSpaceKinematics.cc:224-230) -/
noncomputable def calcBreakupMomenta (g : PS) : Option PS := do
  let q ← breakupLoop g (g.n - 1)
  some { g with q := q }

/-- `F` (nBodyPhaseSpaceKinematics.h:232-241) -/
noncomputable def F (x y : ℝ) : ℝ :=
  let val := 1 + (x - y) * (x - y) - 2 * (x + y)
  if val < 0 then 0 else Real.sqrt val

/-- `momProd` (nBodyPhaseSpaceKinematics.cc:243-246, 280-283) over the indices up to `k` -/
def momProd (q : ℕ → ℝ) : ℕ → ℝ
  | 0 => 1
  | i + 1 => momProd q i * q (i + 1)

/-- factor of one index in the NUPHAZ weight (nBodyPhaseSpaceKinematics.cc:255-271) -/
noncomputable def nuphazFactor (g : PS) (i : ℕ) : ℝ :=
  let sqrtU := g.m i / g.M i
  let u := sqrtU * sqrtU
  let xMin := g.mSum (i - 1) * g.mSum (i - 1) / (g.M i * g.M i)
  let xMax := (1 - sqrtU) * (1 - sqrtU)
  let deltaX := xMax - xMin
  let term := 1 + u - xMin
  let sqrtX := g.M (i - 1) / g.M i
  let x := sqrtX * sqrtX
  let deltaZ := ((i : ℝ) * term - ((i : ℝ) - 1) * deltaX) * deltaX ^ (i - 1)
  deltaZ * (x / (x - xMin)) ^ (i - 2) * F x u / (1 + u - x)

/-- the loop over the 3- to n-bodies (l.255-272), indices `k` down to 2 -/
noncomputable def nuphazLoop (g : PS) : ℕ → ℝ → ℝ
  | 0, w => w
  | 1, w => w
  | i + 2, w => nuphazLoop g (i + 1) (w * nuphazFactor g (i + 2))

/-- the loop for the largest momenta in the GENBOD weight (l.286-289) -/
noncomputable def genbodLoop (g : PS) : ℕ → Option (ℝ × ℝ)
  | 0 => some (g.M (g.n - 1) - g.mSum (g.n - 1) + g.m 0, 1)
  | i + 1 => do
    let (mm, p) ← genbodLoop g i
    let mm := mm + g.m (i + 1)
    let v ← Phys.breakupMomentum mm (g.mSum i) (g.m (i + 1))
    some (mm, p * v)

open Classical in
/-- `calcWeight` (nBodyPhaseSpaceKinematics.cc:236-309).  A division by zero in the GENBOD weight is
modelled as zero (0/0 is NaN, which l.303-306 set to zero); in the NUPHAZ weight numbers that are not
finite are not modelled. -/
noncomputable def calcWeight (g : PS) : Option PS := do
  let g ← g.calcBreakupMomenta
  let w ← (match g.weightType with
    | .chung =>
      let massInterval := g.M (g.n - 1) - g.mSum (g.n - 1)
      some (g.norm * massInterval ^ ((g.n : ℤ) - 2) * momProd g.q (g.n - 1) / g.M (g.n - 1))
    | .nuphaz =>
      let M2 := g.M 1 * g.M 1
      some (nuphazLoop g (g.n - 1) 1 * (g.norm * g.M (g.n - 1) ^ (2 * (g.n : ℤ) - 4)
        * F (g.m 1 * g.m 1 / M2) (g.m 0 * g.m 0 / M2)))
    | .genbod => (genbodLoop g (g.n - 1)).map fun r => momProd g.q (g.n - 1) / r.2
    | .flat => some 1 : Option ℝ)
  some { g with
    weight := w
    maxObserved := if w > g.maxObserved then w else g.maxObserved }

/-- the loop of the `BLOCK` kinematics (nBodyPhaseSpaceKinematics.cc:369-387), indices `i` down to 1;
`P` is the Lorentz vector of the (i + 1)-body system -/
noncomputable def blockLoop (g : PS) : ℕ → LV → (ℕ → LV) → (ℕ → LV)
  | 0, P, ds => Function.update ds 0 P
  | i + 1, P, ds =>
    let sinTheta := Real.sqrt (1 - g.cosTheta (i + 1) * g.cosTheta (i + 1))
    let pT := g.q (i + 1) * sinTheta
    let daughter : LV := ⟨pT * Real.cos (g.phi (i + 1)), pT * Real.sin (g.phi (i + 1)),
      g.q (i + 1) * g.cosTheta (i + 1),
      Real.sqrt (g.m (i + 1) * g.m (i + 1) + g.q (i + 1) * g.q (i + 1))⟩
    let daughter := daughter.boost P.boostVector
    blockLoop g i (P - daughter) (Function.update ds (i + 1) daughter)

/-- rotation by theta around the y-axis and by phi around the z-axis
(nBodyPhaseSpaceKinematics.cc:338-350) -/
def rotate (cT sT cP sP : ℝ) (d : LV) : LV :=
  let z := cT * d.z - sT * d.x
  let x := sT * d.z + cT * d.x
  ⟨cP * x - sP * d.y, sP * x + cP * d.y, z, d.t⟩

open Classical in
/-- the body of the loop of the `RAUBOLD_LYNCH` kinematics (nBodyPhaseSpaceKinematics.cc:328-366).
Division by a breakup momentum of zero gives infinity and `beta = 0`. -/
noncomputable def rauboldStep (g : PS) (nBody : LV) (ds : ℕ → LV) (i : ℕ) : ℕ → LV :=
  let ds := Function.update ds i ⟨0, 0, -(g.q i), Real.sqrt (g.m i * g.m i + g.q i * g.q i)⟩
  let cT := g.cosTheta i
  let sT := Real.sqrt (1 - cT * cT)
  let cP := Real.cos (g.phi i)
  let sP := Real.sin (g.phi i)
  let ds := fun j => if j ≤ i then rotate cT sT cP sP (ds j) else ds j
  if i < g.n - 1 then
    let betaGammaInv := g.M i / g.q (i + 1)
    let beta := if g.q (i + 1) = 0 then 0 else 1 / Real.sqrt (1 + betaGammaInv * betaGammaInv)
    fun j => if j ≤ i then (ds j).boost ⟨0, 0, beta⟩ else ds j
  else
    fun j => if j < g.n then (ds j).boost nBody.boostVector else ds j

/-- the loop of the `RAUBOLD_LYNCH` kinematics, indices from 1 to `k` -/
noncomputable def rauboldLoop (g : PS) (nBody : LV) : ℕ → (ℕ → LV)
  | 0 => Function.update g.daughters 0 ⟨0, 0, g.q 1, Real.sqrt (g.m 0 * g.m 0 + g.q 1 * g.q 1)⟩
  | i + 1 => rauboldStep g nBody (rauboldLoop g nBody i) (i + 1)

/-- `calcEventKinematics` (nBodyPhaseSpaceKinematics.cc:314-393) -/
noncomputable def calcEventKinematics (g : PS) (nBody : LV) : PS :=
  match g.kinType with
  | .raubold => { g with daughters := rauboldLoop g nBody (g.n - 1) }
  | .block => { g with daughters := blockLoop g (g.n - 1) nBody g.daughters }

/-- random numbers of one NUPHAZ step: choice, and the two powers -/
structure Draw where
  choice : ℝ
  a : ℝ
  b : ℝ

/-- `x` of one step of the NUPHAZ mass picking (nBodyPhaseSpaceGenerator.cc:116-134); the first power is
drawn before the second one in the model, in the program the order of evaluation is not specified. -/
noncomputable def nuphazX (g : PS) (d : Draw) (i : ℕ) : ℝ :=
  let sqrtU := g.m i / g.M i
  let u := sqrtU * sqrtU
  let xMin := g.mSum (i - 1) * g.mSum (i - 1) / (g.M i * g.M i)
  let xMax := (1 - sqrtU) * (1 - sqrtU)
  let deltaX := xMax - xMin
  let term := 1 + u - xMin
  let prob := 1 / ((i : ℝ) - ((i : ℝ) - 1) * deltaX / term)
  if d.choice < prob then
    xMin + deltaX * d.a ^ (1 / (i : ℝ)) * d.b ^ (1 / ((i : ℝ) - 1))
  else
    xMin + deltaX * d.a ^ (1 / (i : ℝ))

/-- the NUPHAZ mass picking (nBodyPhaseSpaceGenerator.cc:113-137), indices `k` down to 2 -/
noncomputable def nuphazPick (draws : ℕ → Draw) : ℕ → PS → PS
  | 0, g => g
  | 1, g => g
  | i + 2, g =>
    nuphazPick draws (i + 1)
      { g with M := Function.update g.M (i + 1) (g.M (i + 2) * Real.sqrt (nuphazX g (draws (i + 2)) (i + 2))) }

/-- `pickMasses` (nBodyPhaseSpaceGenerator.cc:103-161).  `r` are the random numbers of the last iteration
of the `do` loop, which are pairwise different. -/
noncomputable def pickMasses (g : PS) (nBodyMass : ℝ) (draws : ℕ → Draw) (r : List ℝ) : PS :=
  let g := { g with M := Function.update g.M (g.n - 1) nBodyMass }
  match g.weightType with
  | .nuphaz => nuphazPick draws (g.n - 1) g
  | _ =>
    let r := r.insertionSort (· ≤ ·)
    let massInterval := nBodyMass - g.mSum (g.n - 1)
    { g with M := (fun i => if 1 ≤ i ∧ i < g.n - 1 then g.mSum i + r.getD (i - 1) 0 * massInterval
        else g.M i) }

/-- `pickAngles` (nBodyPhaseSpaceGenerator.h:113-120) -/
noncomputable def pickAngles (g : PS) (u v : ℕ → ℝ) : PS :=
  { g with
    cosTheta := (fun i => if 1 ≤ i ∧ i < g.n then 2 * u i - 1 else g.cosTheta i)
    phi := (fun i => if 1 ≤ i ∧ i < g.n then 2 * Real.pi * v i else g.phi i) }

/-- all random numbers of one event -/
structure Randoms where
  draws : ℕ → Draw
  r : List ℝ
  u : ℕ → ℝ
  v : ℕ → ℝ
  accept : ℝ

/-- `generateDecay` (nBodyPhaseSpaceGenerator.cc:55-74); the second component is the returned weight -/
noncomputable def generateDecay (g : PS) (nBody : LV) (rnd : Randoms) : Option (PS × ℝ) :=
  let nBodyMass := Real.sqrt nBody.m2
  if g.n < 2 then some (g, 0)
  else if nBodyMass < g.mSum (g.n - 1) then some (g, 0)
  else do
    let g ← (g.pickMasses nBodyMass rnd.draws rnd.r).calcWeight
    let g := (g.pickAngles rnd.u rnd.v).calcEventKinematics nBody
    some (g, g.weight)

/-- `eventAccepted` (nBodyPhaseSpaceGenerator.h:123-137) -/
noncomputable def eventAccepted (g : PS) (maxWeight random : ℝ) : Bool :=
  if g.weightType = .flat then true
  else
    let max := if maxWeight ≤ 0 then g.maxWeight else maxWeight
    if max ≤ 0 then false
    else if g.weight / max > random then true
    else false

/-- `generateDecayAccepted` (nBodyPhaseSpaceGenerator.cc:78-99) -/
noncomputable def generateDecayAccepted (g : PS) (nBody : LV) (maxWeight : ℝ) (rnd : Randoms) :
    Option (PS × Bool) :=
  let nBodyMass := Real.sqrt nBody.m2
  if g.n < 2 then some (g, false)
  else if nBodyMass < g.mSum (g.n - 1) then some (g, false)
  else do
    let g ← (g.pickMasses nBodyMass rnd.draws rnd.r).calcWeight
    if g.eventAccepted maxWeight rnd.accept = false then some (g, false)
    else some ((g.pickAngles rnd.u rnd.v).calcEventKinematics nBody, true)

/-- `estimateMaxWeight` (nBodyPhaseSpaceGenerator.cc:165-175) -/
noncomputable def estimateMaxWeight (g : PS) (nBodyMass : ℝ) (rnds : List Randoms) : Option (PS × ℝ) :=
  rnds.foldlM (fun s rnd => do
    let g ← (s.1.pickMasses nBodyMass rnd.draws rnd.r).calcWeight
    some (g, max g.weight s.2)) (g, 0)

end PS

end Rpwa.Gen
