import Verif.Model.Basic
import Verif.Lemmas.Outcome
import Verif.Model.ResonanceFit

/-!
# `resonanceFit/components.cc`: constructors and dynamic amplitudes of the components

The constructors of the component classes (what they check, what they store) and their functions
`val`, including the ways in which they end the program.  `Shape.value` (Model/ResonanceFit.lean) is
the value of the same functions without these.

Simplifications: `double` is `ℝ`; a quotient with divisor 0 (not a finite number in C++) is
`Outcome.ub`; `throw` is `Outcome.terminate`; the linear interpolation of `ROOT::Math::Interpolator`
is any function `ℝ → ℝ`, so that the number of its mass points is not modelled; `std::pow` is
`Real.rpow`, as in Model/ResonanceFit.lean.
-/

namespace Rpwa.ResFit

/-- The arguments of the constructors of the derived classes, apart from those of `component`
(resonanceFit/components.h:180-478). -/
inductive ShapeCfg where
  /-- `fixedWidthBreitWigner` -/
  | fixedWidth
  /-- `dynamicWidthBreitWigner`: ratios, relative angular momenta, masses of the isobars 1 and 2 -/
  | dynamicWidth (ratio : List ℝ) (l : List ℤ) (m1 m2 : List ℝ)
  /-- `integralWidthBreitWigner`: ratios, phase-space integrals -/
  | integralWidth (ratio : List ℝ) (ps : List (ℝ → ℝ))
  /-- `constantBackground` -/
  | constant
  /-- `exponentialBackground` -/
  | exponential (l : ℤ) (m1 m2 exponent : ℝ)
  /-- `tPrimeDependentBackground` -/
  | tPrime (tMeans : List ℝ) (l : ℤ) (m1 m2 exponent : ℝ)
  /-- `exponentialBackgroundIntegral` -/
  | exponentialIntegral (ps : ℝ → ℝ) (exponent : ℝ)
  /-- `tPrimeDependentBackgroundIntegral` -/
  | tPrimeIntegral (tMeans : List ℝ) (ps : ℝ → ℝ) (exponent : ℝ)

/-- normalisation of the branching ratios (resonanceFit/components.cc:609-610, 733-734) -/
noncomputable def normRatios (ratio : List ℝ) : Outcome (List ℝ) :=
  let sum := ratio.foldl (· + ·) 0
  if sum = 0 ∧ ratio ≠ [] then .ub else .ok (ratio.map fun v => v / sum)

/-- one step of `std::max_element`, which keeps the first of equal elements -/
noncomputable def maxStep (acc x : ℝ) : ℝ := if acc < x then x else acc

/-- largest mass-bin centre of the used bins (resonanceFit/components.cc:864-871, 969-976, 1077-1084,
1174-1181); `max_element` of an empty list may not be dereferenced, nor does a bin without mass bins
have a last one. -/
noncomputable def maxMass (I : Input) (bins : List ℕ) : Outcome ℝ :=
  if bins.any (fun b => I.nrMassOf b == 0) then .ub else
  match bins.map (fun b => I.center b (I.nrMassOf b - 1)) with
  | [] => .ub
  | x :: xs => .ok (xs.foldl maxStep x)

/-- `breakupMomentum` for masses below threshold throws -/
noncomputable def brkO (M m1 m2 : ℝ) : Outcome ℝ :=
  match Phys.breakupMomentum M m1 m2 with
  | none => .terminate
  | some q => .ok q

/-- `a / b`, not a finite number if `b` is 0 -/
noncomputable def divO (a b : ℝ) : Outcome ℝ := if b = 0 then .ub else .ok (a / b)

/-- `_norm` from break-up momentum and barrier factor at the largest mass
(resonanceFit/components.cc:871-873, 976-978) -/
noncomputable def normBreakup (I : Input) (bins : List ℕ) (l : ℤ) (m1 m2 : ℝ) : Outcome ℝ := do
  let M ← maxMass I bins
  let q ← brkO M m1 m2
  divO 1 (q * Phys.barrierFactorSquared (2 * l) q)

/-- `_norm` from the phase-space integral at the largest mass (resonanceFit/components.cc:1084-1085,
1181-1182) -/
noncomputable def normIntegral (I : Input) (bins : List ℕ) (ps : ℝ → ℝ) : Outcome ℝ := do
  let M ← maxMass I bins
  divO 1 (M * ps M)

/-- the one decay channel of the background components; any other number throws
(resonanceFit/components.cc:790-793, 850-853, 948-951, 1057-1060, 1156-1159) -/
def oneChannel : List Channel → Outcome Channel
  | [ch] => .ok ch
  | _ => .terminate

/-- constructors of the derived classes (resonanceFit/components.cc:513-535, 566-611, 690-735,
781-803, 826-873, 933-979, 1034-1086, 1140-1183), after the one of the base class: checks of the
sizes and the numbers of decay channels, constants. -/
noncomputable def ShapeCfg.build (I : Input) (channels : List Channel) : ShapeCfg → Outcome Shape
  | .fixedWidth => .ok .fixedWidth
  | .dynamicWidth ratio l m1 m2 =>
    if ratio.length < channels.length then .terminate
    else if l.length ≠ ratio.length ∨ m1.length ≠ ratio.length ∨ m2.length ≠ ratio.length then
      .terminate
    else do
      let r ← normRatios ratio
      .ok (.dynamicWidth (r.zip (l.zip (m1.zip m2))))
  | .integralWidth ratio ps =>
    if ratio.length < channels.length then .terminate
    else if ps.length ≠ ratio.length then .terminate
    else do
      let r ← normRatios ratio
      .ok (.integralWidth (r.zip ps))
  | .constant => do
    let _ ← oneChannel channels
    .ok .constant
  | .exponential l m1 m2 exponent => do
    let ch ← oneChannel channels
    let norm ← normBreakup I ch.bins l m1 m2
    .ok (.exponential l m1 m2 norm exponent)
  | .tPrime tMeans l m1 m2 exponent => do
    let ch ← oneChannel channels
    if tMeans.length ≠ I.nrBins then .terminate else
    let norm ← normBreakup I ch.bins l m1 m2
    .ok (.tPrime (fun b => tMeans.getD b 0) l m1 m2 norm exponent)
  | .exponentialIntegral ps exponent => do
    let ch ← oneChannel channels
    let norm ← normIntegral I ch.bins ps
    .ok (.exponentialIntegral ps norm exponent)
  | .tPrimeIntegral tMeans ps exponent => do
    let ch ← oneChannel channels
    if tMeans.length ≠ I.nrBins then .terminate else
    let norm ← normIntegral I ch.bins ps
    .ok (.tPrimeIntegral (fun b => tMeans.getD b 0) ps norm exponent)

open Classical in
/-- body of the loop over the decay channels of `dynamicWidthBreitWigner::val`
(resonanceFit/components.cc:624-647) -/
noncomputable def dynStep (m0 mass : ℝ) (gamma : ℝ) (c : ℝ × ℤ × ℝ × ℝ) : Outcome ℝ :=
  if c.1 = 0 then .ok gamma
  else if mass ≥ c.2.2.1 + c.2.2.2 then do
    let q ← brkO mass c.2.2.1 c.2.2.2
    let q0 ← brkO m0 c.2.2.1 c.2.2.2
    let f2 := Phys.barrierFactorSquared (2 * c.2.1) q
    let f20 := Phys.barrierFactorSquared (2 * c.2.1) q0
    let a ← divO (c.1 * q) q0
    let b ← divO (a * f2) f20
    .ok (gamma + b)
  else .ok gamma

open Classical in
/-- body of the loop over the decay channels of `integralWidthBreitWigner::val`
(resonanceFit/components.cc:747-758) -/
noncomputable def intStep (m0 mass : ℝ) (gamma : ℝ) (c : ℝ × (ℝ → ℝ)) : Outcome ℝ :=
  if c.1 = 0 then .ok gamma
  else do
    let a ← divO (c.1 * c.2 mass) (c.2 m0)
    .ok (gamma + a)

open Classical in
/-- the last lines of the three Breit-Wigner functions (resonanceFit/components.cc:546, 650, 761) -/
noncomputable def bwO (m0 gamma0 gamma mass : ℝ) : Outcome ℂ :=
  let d : ℂ := ⟨m0 * m0 - mass * mass, -(gamma * m0)⟩
  if d = 0 then .ub else .ok (((gamma0 * m0 : ℝ) : ℂ) / d)

open Classical in
/-- the functions `val(fitParameters, idxBin, mass)` (resonanceFit/components.cc:538-549, 615-652,
739-763, 806-812, 876-892, 982-1004, 1089-1100, 1187-1204) with the exceptions and divisions by 0 of
the Breit-Wigner amplitudes and of the break-up momenta; `p` is the row of parameters. -/
noncomputable def Shape.valueO (s : Shape) (p : ℕ → ℝ) (bin : ℕ) (mass : ℝ) : Outcome ℂ :=
  match s with
  | .fixedWidth => bwO (p 0) (p 1) (p 1) mass
  | .dynamicWidth chans => do
    let gamma ← chans.foldlM (dynStep (p 0) mass) 0
    let x ← divO (p 1 * p 0) mass
    bwO (p 0) (p 1) (gamma * x) mass
  | .integralWidth chans => do
    let gamma ← chans.foldlM (intStep (p 0) mass) 0
    bwO (p 0) (p 1) (gamma * p 1) mass
  | .constant => .ok 1
  | .exponential l m1 m2 norm exponent =>
    if mass < m1 + m2 then .ok 1 else do
    let q ← brkO mass m1 m2
    let f2 := Phys.barrierFactorSquared (2 * l) q
    let c := (q * f2 * norm) ^ exponent
    .ok ((Real.exp (-p 0 * c) : ℝ) : ℂ)
  | .tPrime tMean l m1 m2 norm exponent =>
    if mass < m1 + m2 then .ok (((mass - p 0) ^ p 1 : ℝ) : ℂ) else do
    let q ← brkO mass m1 m2
    let f2 := Phys.barrierFactorSquared (2 * l) q
    let c := (q * f2 * norm) ^ exponent
    let t := tMean bin
    let pol := p 2 + p 3 * t + p 4 * t * t
    .ok (((mass - p 0) ^ p 1 * Real.exp (-pol * c) : ℝ) : ℂ)
  | .exponentialIntegral ps norm exponent =>
    let c := (mass * ps mass * norm) ^ exponent
    .ok ((Real.exp (-p 0 * c) : ℝ) : ℂ)
  | .tPrimeIntegral tMean ps norm exponent =>
    let c := (mass * ps mass * norm) ^ exponent
    let t := tMean bin
    let pol := p 2 + p 3 * t + p 4 * t * t
    .ok (((mass - p 0) ^ p 1 * Real.exp (-pol * c) : ℝ) : ℂ)

end Rpwa.ResFit
