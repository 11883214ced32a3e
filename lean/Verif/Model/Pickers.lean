import Verif.Model.Basic
import Mathlib.Analysis.SpecialFunctions.Log.Basic
import Mathlib.Analysis.SpecialFunctions.Pow.Real
/-!
# Pickers of mass and t'

Models `generators/generatorPickerFunctions.{h,cc}` and `checkIfAllVariablesAreThere` of `utilities/libConfigUtils.hpp`.  Simplifications:
* settings are a tree; a setting that is not a floating-point number cannot be converted to `double` (libconfig without automatic conversion throws,
  which ends the program);
* real numbers are exact; `numeric_limits<double>::max()` and `epsilon()` are parameters;
* random numbers are arguments (`Rndm`): `Uniform(a, b) = a + (b - a) Rndm`, `Exp(tau) = -tau log(Rndm)`;
* `TF1::GetRandom` of the polynomial picker (mass) is a parameter. -/
namespace Rpwa.Pick

/-- a libconfig setting. -/
inductive Cfg where
  | int (n : ℤ)
  | float (x : ℝ)
  | bool (b : Bool)
  | str (s : String)
  | array (l : List Cfg)
  | list (l : List Cfg)
  | group (l : List (String × Cfg))

inductive CfgType where
  | int | float | bool | str | array | list | group
  deriving DecidableEq

def Cfg.type : Cfg → CfgType
  | .int _ => .int
  | .float _ => .float
  | .bool _ => .bool
  | .str _ => .str
  | .array _ => .array
  | .list _ => .list
  | .group _ => .group

/-- the settings of a group. -/
abbrev Group := String → Option Cfg

/-- `operator double`. -/
def Cfg.toDouble : Cfg → Outcome ℝ
  | .float x => .ok x
  | _ => .terminate

/-- `isNumber`. -/
def Cfg.isNumber : Cfg → Bool
  | .int _ => true
  | .float _ => true
  | _ => false

/-- `isArray`. -/
def Cfg.isArray : Cfg → Bool
  | .array _ => true
  | _ => false

/-- `getLength`: 0 for scalars. -/
def Cfg.length : Cfg → ℕ
  | .array l => l.length
  | .list l => l.length
  | .group l => l.length
  | _ => 0

/-- `operator[](int)`: throws if there is no such element. -/
def Cfg.at : Cfg → ℕ → Outcome Cfg
  | .array l, i => match l[i]? with
    | some c => .ok c
    | none => .terminate
  | .list l, i => match l[i]? with
    | some c => .ok c
    | none => .terminate
  | .group l, i => match l[i]? with
    | some c => .ok c.2
    | none => .terminate
  | _, _ => .terminate

/-- libConfigUtils.hpp:292-309 `checkIfAllVariablesAreThere`. -/
def allThere (g : Group) (names : List (String × CfgType)) : Bool := names.all fun n =>
  match g n.1 with
  | none => false
  | some c => decide (c.type = n.2)

/-- `setting[name]` as `double`. -/
def Group.double (g : Group) (n : String) : Outcome ℝ :=
  match g n with
  | some c => c.toDouble
  | none => .terminate

/-- `lookupValue(name, x)` for `double`: unchanged if the setting has another type. -/
def Group.lookupDouble (g : Group) (n : String) (old : ℝ) : ℝ :=
  match g n with
  | some (.float x) => x
  | _ => old

/-- the members of `massAndTPrimePicker` (generatorPickerFunctions.h:54-56). -/
structure Ranges where
  massLo : ℝ
  massHi : ℝ
  tLo : ℝ
  tHi : ℝ
  initialized : Bool

/-- generatorPickerFunctions.h:28-31. -/
def Ranges.new (dblMax : ℝ) : Ranges := ⟨0, 0, 0, dblMax, false⟩

/-- generatorPickerFunctions.cc:18-26 `overrideMassRange`. -/
def Ranges.overrideMassRange (s : Ranges) (lo hi : ℝ) : Outcome Ranges :=
  if s.initialized then .ok { s with massLo := lo, massHi := hi } else .terminate

open Classical in
/-- generatorPickerFunctions.cc:47-91 `initTPrimeAndMassRanges`. -/
noncomputable def initRanges (s : Ranges) (g : Group) : Outcome (Bool × Ranges) :=
  if s.initialized then .ok (false, s)
  else if !allThere g [("massMin", .float), ("massMax", .float)] then .ok (false, s)
  else do
    let lo ← g.double "massMin"
    let hi ← g.double "massMax"
    if hi < lo then .ok (false, { s with massLo := lo, massHi := hi })
    else
      let tLo := g.lookupDouble "tPrimeMin" s.tLo
      let tHi := g.lookupDouble "tPrimeMax" s.tHi
      .ok (decide (¬ tHi < tLo), { s with massLo := lo, massHi := hi, tLo := tLo, tHi := tHi })

/-! ### uniformMassExponentialTPicker -/

structure ExpPicker where
  ranges : Ranges
  slopes : List (ℝ × List ℝ)
  nExp : ℕ

/-- generatorPickerFunctions.cc:94-96. -/
def ExpPicker.new (dblMax : ℝ) : ExpPicker := ⟨Ranges.new dblMax, [], 0⟩

open Classical in
/-- `map::insert`: sorted by mass, an existing entry is kept. -/
noncomputable def insertSlope (m : ℝ) (p : List ℝ) : List (ℝ × List ℝ) → List (ℝ × List ℝ)
  | [] => [(m, p)]
  | e :: es => if m < e.1 then (m, p) :: e :: es else if m = e.1 then e :: es else e :: insertSlope m p es

/-- generatorPickerFunctions.cc:144-160: the parameters of one entry; `none` is `return false`. -/
def slopeParams (tArray : Bool) (nExp : ℕ) (c : Cfg) : Outcome (Option (List ℝ)) :=
  if tArray && !c.isArray then .ok none
  else if tArray then
    if (c.length + 1) / 2 ≠ nExp then .ok none
    else do
      let ps ← (List.range c.length).mapM fun j => do
        let x ← c.at j
        x.toDouble
      .ok (some ps)
  else do
    let x ← c.toDouble
    .ok (some [x])

open Classical in
/-- generatorPickerFunctions.cc:162-177: signs of the parameters. -/
noncomputable def checkParams (nExp : ℕ) (p : List ℝ) : Bool := (List.range nExp).all fun j =>
  decide (p.getD (2 * j) 0 < 0) && (j == 0 || decide (0 ≤ p.getD (2 * j - 1) 0))

/-- body of the loop generatorPickerFunctions.cc:142-179. -/
noncomputable def slopeStep (masses tSlopes : Cfg) (tArray : Bool) (nExp : ℕ) (slopes : List (ℝ × List ℝ)) (i : ℕ) : Outcome (Bool × List (ℝ × List ℝ)) := do
  let c ← tSlopes.at i
  let p? ← slopeParams tArray nExp c
  match p? with
  | none => .ok (false, slopes)
  | some p =>
    if checkParams nExp p then do
      let m ← masses.at i
      let m ← m.toDouble
      .ok (true, insertSlope m p slopes)
    else do
      let m ← masses.at i
      let _ ← m.toDouble
      .ok (false, slopes)

/-- the loop generatorPickerFunctions.cc:142-179 from entry `i`; `k` entries are left. -/
noncomputable def slopeLoop (masses tSlopes : Cfg) (tArray : Bool) (nExp : ℕ) : ℕ → ℕ → List (ℝ × List ℝ) → Outcome (Bool × List (ℝ × List ℝ))
  | 0, _, slopes => .ok (true, slopes)
  | k + 1, i, slopes => do
    let res ← slopeStep masses tSlopes tArray nExp slopes i
    if res.1 then slopeLoop masses tSlopes tArray nExp k (i + 1) res.2 else .ok (false, res.2)

/-- generatorPickerFunctions.cc:125-129. -/
def slopesAreNumbers (c : Cfg) : Outcome Bool :=
  if c.isNumber then .ok true
  else if c.isArray then do
    let x ← c.at 0
    .ok x.isNumber
  else .ok false

/-- generatorPickerFunctions.cc:130-181, after the first entry `first` has been found to be a number or an array of numbers. -/
noncomputable def ExpPicker.initSlopes (s : ExpPicker) (masses tSlopes first : Cfg) : Outcome (Bool × ExpPicker) :=
  if !first.isNumber && first.length % 2 != 1 then .ok (false, s)
  else do
    let tArray := !first.isNumber
    let nExp := if first.isNumber then 1 else (first.length + 1) / 2
    let res ← slopeLoop masses tSlopes tArray nExp masses.length 0 s.slopes
    .ok (res.1, ⟨{ s.ranges with initialized := res.1 || s.ranges.initialized }, res.2, nExp⟩)

/-- generatorPickerFunctions.cc:105-182 `init`. -/
noncomputable def ExpPicker.init (s : ExpPicker) (g : Group) : Outcome (Bool × ExpPicker) := do
  let r ← initRanges s.ranges g
  let s := { s with ranges := r.2 }
  if !r.1 then .ok (false, s)
  else if !allThere g [("invariantMasses", .array), ("tSlopes", .list)] then .ok (false, s)
  else match g "invariantMasses", g "tSlopes" with
    | some masses, some tSlopes =>
      if masses.length ≠ tSlopes.length then .ok (false, s)
      else do
        let m0 ← masses.at 0
        if !m0.isNumber then .ok (false, s)
        else do
          let first ← tSlopes.at 0
          let num ← slopesAreNumbers first
          if !num then .ok (false, s)
          else s.initSlopes masses tSlopes first
    | _, _ => .terminate

open Classical in
/-- `lower_bound(m)`: number of entries before the first one that is not less than `m`. -/
noncomputable def lowerBound (m : ℝ) (slopes : List (ℝ × List ℝ)) : ℕ := (slopes.takeWhile fun e => decide (e.1 < m)).length

/-- generatorPickerFunctions.cc:222-231: linear interpolation between two entries. -/
noncomputable def interpolate (m : ℝ) (lo up : ℝ × List ℝ) : Outcome (List ℝ) :=
  if lo.2.length ≠ up.2.length then .terminate
  else .ok (List.zipWith (fun a b => a + (b - a) / (up.1 - lo.1) * (m - lo.1)) lo.2 up.2)

open Classical in
/-- generatorPickerFunctions.cc:210-233: the parameters for a mass (there are at least two entries). -/
noncomputable def paramsFor (slopes : List (ℝ × List ℝ)) (m : ℝ) : Outcome (List ℝ) :=
  match slopes with
  | [] => .ub
  | [e] => .ok e.2
  | first :: rest =>
    let last := rest.getLastD first
    if last.1 < m then .ok last.2
    else if m < first.1 then .ok first.2
    else
      let k := lowerBound m slopes
      if k = 0 then .ub
      else match slopes[k - 1]?, slopes[k]? with
        | some lo, some up => interpolate m lo up
        | _, _ => .ub

/-- the sums of generatorPickerFunctions.cc:267-272, 281-285: `exp(p0 t) / p0 + Σ c exp(p t) / p`. -/
noncomputable def primitive (nExp : ℕ) (p : List ℝ) (t : ℝ) : ℝ :=
  (List.range (nExp - 1)).foldl (fun x i => x + p.getD (2 * (i + 1) - 1) 0 * Real.exp (p.getD (2 * (i + 1)) 0 * t) / p.getD (2 * (i + 1)) 0)
    (Real.exp (p.getD 0 0 * t) / p.getD 0 0)

/-- generatorPickerFunctions.cc:282-286: `exp(p0 t) + Σ c exp(p t)`. -/
noncomputable def density (nExp : ℕ) (p : List ℝ) (t : ℝ) : ℝ :=
  (List.range (nExp - 1)).foldl (fun x i => x + p.getD (2 * (i + 1) - 1) 0 * Real.exp (p.getD (2 * (i + 1)) 0 * t)) (Real.exp (p.getD 0 0 * t))

open Classical in
/-- the inner loop generatorPickerFunctions.cc:279-326 (Newton's method) from `t` with `k` steps left; `none`: not found. -/
noncomputable def newton (eps : ℝ) (F f : ℝ → ℝ) (Fmin Fmax r : ℝ) : ℕ → ℝ → Option ℝ
  | k, t =>
    let errF := r * (Fmax - Fmin) * eps
    let diffF := (F t - Fmin) - r * (Fmax - Fmin)
    let errU := t * eps
    let update := (F t - r * Fmax - (1 - r) * Fmin) / f t
    if |diffF| < 10 * errF then some t
    else if |update| < 10 * errU then some t
    else if 0 < update then some t
    else match k with
      | 0 => none
      | k + 1 => newton eps F f Fmin Fmax r k (t - update)

/-- the outer loop generatorPickerFunctions.cc:274-332: at most `k` random numbers; the first one that leads to a result counts. -/
noncomputable def newtonTries (eps : ℝ) (F f : ℝ → ℝ) (Fmin Fmax : ℝ) : ℕ → List ℝ → Option ℝ
  | 0, _ => none
  | _ + 1, [] => none
  | k + 1, r :: rs => match newton eps F f Fmin Fmax r 50 0 with
    | some t => some t
    | none => newtonTries eps F f Fmin Fmax k rs

/-- generatorPickerFunctions.cc:201-335 `pickTPrimeForMass`; `none` is `return false`. -/
noncomputable def ExpPicker.pickT (eps : ℝ) (s : ExpPicker) (m : ℝ) (rs : List ℝ) : Outcome (Option ℝ) :=
  if !s.ranges.initialized then .ok none
  else if s.slopes.isEmpty then .ok none
  else do
    let p ← paramsFor s.slopes m
    if (p.length + 1) / 2 ≠ s.nExp then .ok none
    else if s.nExp = 1 then
      let Fmin := Real.exp (p.getD 0 0 * s.ranges.tLo)
      let Fmax := Real.exp (p.getD 0 0 * s.ranges.tHi)
      .ok (some (Real.log (rs.headD 0 * (Fmax - Fmin) + Fmin) / p.getD 0 0))
    else
      .ok (newtonTries eps (primitive s.nExp p) (density s.nExp p) (primitive s.nExp p s.ranges.tLo) (primitive s.nExp p s.ranges.tHi) 5 rs)

/-- generatorPickerFunctions.cc:185-198 `operator()`: mass and t'. -/
noncomputable def ExpPicker.pick (eps : ℝ) (s : ExpPicker) (r : ℝ) (rs : List ℝ) : Outcome (Option (ℝ × ℝ)) :=
  if !s.ranges.initialized then .ok none
  else do
    let m := s.ranges.massLo + (s.ranges.massHi - s.ranges.massLo) * r
    let t ← s.pickT eps m rs
    .ok (t.map fun t => (m, t))

/-! ### polynomialMassAndTPrimeSlopePicker -/

structure PolyPicker where
  ranges : Ranges
  mass : List ℝ
  slope : List ℝ

/-- coefficients (generatorPickerFunctions.cc:406-419, 421-435); `none` is `return false`. -/
def coefficients (g : Group) (n : String) : Outcome (Option (List ℝ)) :=
  match g n with
  | none => .terminate
  | some c =>
    if c.length < 1 then .ok none
    else do
      let x ← c.at 0
      if !x.isNumber then .ok none
      else do
        let l ← (List.range c.length).mapM fun i => do
          let x ← c.at i
          x.toDouble
        .ok (some l)

/-- generatorPickerFunctions.cc:392-439 `init`. -/
noncomputable def PolyPicker.init (s : PolyPicker) (g : Group) : Outcome (Bool × PolyPicker) := do
  let r ← initRanges s.ranges g
  let s := { s with ranges := r.2 }
  if !r.1 then .ok (false, s)
  else if !allThere g [("coeffsMass", .array), ("coeffsTSlopes", .array)] then .ok (false, s)
  else do
    let cm ← coefficients g "coeffsMass"
    match cm with
    | none => .ok (false, s)
    | some cm => do
      let s := { s with mass := cm }
      let cs ← coefficients g "coeffsTSlopes"
      match cs with
      | none => .ok (false, s)
      | some cs => .ok (true, ⟨{ s.ranges with initialized := true }, cm, cs⟩)

/-- `pol<n>`. -/
noncomputable def polynomial (c : List ℝ) (x : ℝ) : ℝ := c.foldr (fun a y => a + x * y) 0

open Classical in
/-- the loop generatorPickerFunctions.cc:464-466 on a list of random numbers: the first t' in the range; `none` if there is none in the list. -/
noncomputable def rejectLoop (slope lo hi : ℝ) : List ℝ → Option ℝ
  | [] => none
  | r :: rs =>
    let t := -(1 / slope) * Real.log r
    if t < lo ∨ hi < t then rejectLoop slope lo hi rs else some t

open Classical in
/-- generatorPickerFunctions.cc:455-468 `pickTPrimeForMass`: outer `none` is `return false`, inner `none`: more random numbers needed (with slope 0 every t'
is infinite, and the range ends at a finite value). -/
noncomputable def PolyPicker.pickT (s : PolyPicker) (m : ℝ) (rs : List ℝ) : Option (Option ℝ) :=
  if !s.ranges.initialized then none
  else if polynomial s.slope m = 0 then some none
  else some (rejectLoop (polynomial s.slope m) s.ranges.tLo s.ranges.tHi rs)

/-! ### uniformMassAndTPicker -/

/-- generatorPickerFunctions.cc:481-499 `init`. -/
noncomputable def uniformInit (s : Ranges) (g : Group) : Outcome (Bool × Ranges) :=
  if !allThere g [("tPrimeMin", .float), ("tPrimeMax", .float)] then .ok (false, s)
  else do
    let r ← initRanges s g
    .ok (r.1, { r.2 with initialized := r.1 || r.2.initialized })

/-- generatorPickerFunctions.cc:502-524: mass and t'. -/
def uniformPick (s : Ranges) (r1 r2 : ℝ) : Option (ℝ × ℝ) :=
  if !s.initialized then none else some (s.massLo + (s.massHi - s.massLo) * r1, s.tLo + (s.tHi - s.tLo) * r2)

end Rpwa.Pick
