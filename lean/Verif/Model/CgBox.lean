import Verif.Model.Fraction
/-!
Model of `relativisticAmpCorrections/ClebschGordanBox.{h,cc}`: tables of squared Clebsch-Gordan coefficients, calculated
with exact fractions (`TFracNum`, Model/Fraction.lean) by recursion.

Simplifications: `long` is `Int`; debug output is left out; a naked `throw;` is `Outcome.terminate`, an access outside a
vector or a constructor of `TFracNum` that does not terminate is `Outcome.ub`; `operator[]` of the map after `find`/`insert`
is a look-up. The three argument checks at the start of the calculation (l.42-47) only print a message.
-/
namespace Rpwa.CgBox
open Fraction

/-- `v[i]` (read) -/
def rd (t : List Frac) (i : Int) : Outcome Frac :=
  if i < 0 then .ub else match t[i.toNat]? with | some f => .ok f | none => .ub

/-- `v[i] = f` -/
def wr (t : List Frac) (i : Int) (f : Frac) : Outcome (List Frac) :=
  if 0 ≤ i ∧ i.toNat < t.length then .ok (t.set i.toNat f) else .ub

/-- `TFracNum(n, d)` -/
noncomputable def frac (n d : Int) : Outcome Frac :=
  match ofInts n d with | some f => .ok f | none => .ub

/-- `a + b` -/
noncomputable def plus (a b : Frac) : Outcome Frac :=
  match add a b with | some f => .ok f | none => .ub

/-- the blocks ClebschGordanBox.cc l.107-134, l.168-193, l.217-246: from `x = cgp`, `y = cgm`, i.e. signed squares, the signed
square of the difference of the roots; `throw;` if the product is not a square. -/
noncomputable def rootDiff (x y : Frac) : Outcome Frac :=
  let mixed := sqrt (mul x y)
  if mixed.1 then do
    let flip : Prop := dval false y > dval false x
    let x := absF (getDval false x)
    let y := absF (getDval false y)
    let s ← plus x y
    let mTwo ← frac (-2) 1
    let r ← plus s (mul mTwo mixed.2)
    return (open Classical in if flip then flipSign r else r)
  else .terminate

/-- ClebschGordanBox.cc l.168-193: the same with a sum and without sign (column `m2 = J2`). -/
noncomputable def rootSum (x y : Frac) : Outcome Frac :=
  let mixed := sqrt (mul x y)
  if mixed.1 then do
    let x := absF x
    let y := absF y
    let s ← plus x y
    let two ← frac 2 1
    plus s (mul two mixed.2)
  else .terminate

/-- ClebschGordanBox.cc l.55-58: doubled `m1` of the first non-zero element -/
def minTwoM1 (twoJ twoJ1 twoJ2 : Int) : Int := if twoJ + twoJ2 < twoJ1 then -twoJ - twoJ2 else -twoJ1

/-- position of an element, ClebschGordanBox.cc l.82-84 -/
def pos (twoJ1 twoJ2 twom1 twom2 : Int) : Int :=
  ((twom1 + twoJ1) * (twoJ2 + 1) + (twom2 + twoJ2)).tdiv 2

/-- ClebschGordanBox.cc l.77-148: one element with `m2 < J2` -/
noncomputable def setInner (twoJ twoJ1 twoJ2 twom1 : Int) (t : List Frac) (twom2 : Int) : Outcome (List Frac) :=
  let twom := twom1 + twom2
  let max2 := twoJ2 + 1
  let i := pos twoJ1 twoJ2 twom1 twom2
  if twom < -twoJ ∨ twom > twoJ then wr t i zero
  else if twom1 = minTwoM1 twoJ twoJ1 twoJ2 then do
    let c ← rd t (i + 1)
    let f ← frac ((twoJ - twom) * (twoJ + twom + 2)) ((twoJ2 - twom2) * (twoJ2 + twom2 + 2))
    wr t i (mul c f)
  else if twom ≠ -twoJ then do
    let denom := (twoJ1 + twom1) * (twoJ1 - twom1 + 2)
    let c1 ← rd t (i - max2)
    let f1 ← frac ((twoJ + twom) * (twoJ - twom + 2)) denom
    let c2 ← rd t (i - max2 + 1)
    let f2 ← frac ((twoJ2 - twom2) * (twoJ2 + twom2 + 2)) denom
    let r ← rootDiff (mul c1 f1) (mul c2 f2)
    wr t i r
  else do
    let c ← rd t (i - max2 + 1)
    let f ← frac (-(twoJ2 - twom2) * (twoJ2 + twom2 + 2)) ((twoJ1 + twom1) * (twoJ1 - twom1 + 2))
    wr t i (mul c f)

/-- ClebschGordanBox.cc l.150-201: the element with `m2 = J2` -/
noncomputable def setTop (twoJ twoJ1 twoJ2 twom1 : Int) (t : List Frac) : Outcome (List Frac) :=
  let twom2 := twoJ2
  let twom := twom1 + twom2
  let max2 := twoJ2 + 1
  let i := pos twoJ1 twoJ2 twom1 twom2
  if twom < -twoJ ∨ twom > twoJ then wr t i zero
  else if twom1 > minTwoM1 twoJ twoJ1 twoJ2 ∧ twom1 ≤ -minTwoM1 twoJ twoJ1 twoJ2 then do
    let denom := (twoJ - twom + 2) * (twoJ + twom)
    let c1 ← rd t (i - max2)
    let f1 ← frac ((twoJ1 + twom1) * (twoJ1 - twom1 + 2)) denom
    let c2 ← rd t (i - 1)
    let f2 ← frac ((twoJ2 + twom2) * (twoJ2 - twom2 + 2)) denom
    let r ← rootSum (mul c1 f1) (mul c2 f2)
    wr t i r
  else .ok t

/-- ClebschGordanBox.cc l.202-247: the element with `m = -J` once more -/
noncomputable def setLow (twoJ twoJ1 twoJ2 twom1 : Int) (t : List Frac) : Outcome (List Frac) :=
  if twoJ < twoJ1 + twoJ2 ∧ twom1 > minTwoM1 twoJ twoJ1 twoJ2 ∧ twom1 ≤ -minTwoM1 twoJ twoJ1 twoJ2
      ∧ twoJ + twom1 ≤ twoJ2 then do
    let twom2 := -twoJ - twom1
    let twom := -twoJ
    let max2 := twoJ2 + 1
    let i := pos twoJ1 twoJ2 twom1 twom2
    let denom := (twoJ2 - twom2) * (twoJ2 + twom2 + 2)
    let c1 ← rd t (i + 1)
    let f1 ← frac ((twoJ - twom) * (twoJ + twom + 2)) denom
    let c2 ← rd t (i - max2 + 1)
    let f2 ← frac ((twoJ1 + twom1) * (twoJ1 - twom1 + 2)) denom
    let r ← rootDiff (mul c1 f1) (mul c2 f2)
    wr t i r
  else .ok t

/-- values of a loop variable: `for (x = lo; x <= hi; x += 2)` -/
def loopUp (lo hi : Int) : List Int := (List.range ((hi - lo + 2) / 2).toNat).map fun k : Nat => lo + 2 * (k : Int)
/-- values of a loop variable: `for (x = hi; x >= lo; x -= 2)` -/
def loopDown (hi lo : Int) : List Int := (List.range ((hi - lo + 2) / 2).toNat).map fun k : Nat => hi - 2 * (k : Int)

/-- one pass of the loop ClebschGordanBox.cc l.68-248 -/
noncomputable def setRow (twoJ twoJ1 twoJ2 : Int) (t : List Frac) (twom1 : Int) : Outcome (List Frac) := do
  let t ← (loopDown (twoJ2 - 2) (-twoJ2)).foldlM (setInner twoJ twoJ1 twoJ2 twom1) t
  let t ← setTop twoJ twoJ1 twoJ2 twom1 t
  setLow twoJ twoJ1 twoJ2 twom1 t

/-- ClebschGordanBox.cc l.49-248: the table before normalization. A negative size of the vector is an exception. -/
noncomputable def rawTable (twoJ twoJ1 twoJ2 : Int) : Outcome (List Frac) :=
  if (twoJ1 + 1) * (twoJ2 + 1) < 0 then .terminate
  else do
    let t := List.replicate ((twoJ1 + 1) * (twoJ2 + 1)).toNat default1
    let one ← frac 1 1
    let t ← wr t ((minTwoM1 twoJ twoJ1 twoJ2 + twoJ1).tdiv 2 * (twoJ2 + 1) + (twoJ2 + 1) - 1) one
    (loopUp (-twoJ1) twoJ1).foldlM (setRow twoJ twoJ1 twoJ2) t

/-- doubled `m` of element `i`, e.g. ClebschGordanBox.cc l.253-254 -/
def twoMOf (twoJ1 twoJ2 : Int) (i : Nat) : Int :=
  (2 * (i : Int).tdiv (twoJ2 + 1) - twoJ1) + (2 * (i : Int).tmod (twoJ2 + 1) - twoJ2)

/-- `GetSign`, TFracNum.h l.89 -/
noncomputable def signOf (f : Frac) : Int := open Classical in if dval false f < 0 then -1 else 1

/-- ClebschGordanBox.cc l.250-258 -/
noncomputable def overallSign (twoJ twoJ1 twoJ2 : Int) (t : List Frac) : Int :=
  t.zipIdx.foldl (fun s x => if twoMOf twoJ1 twoJ2 x.2 = twoJ ∧ ¬ equal x.1 zero = true then signOf x.1 else s) 0

/-- ClebschGordanBox.cc l.261-289: one pass of the loop that normalizes the elements with the same `m` -/
noncomputable def normalize (twoJ1 twoJ2 sign : Int) (t : List Frac) (twom : Int) : Outcome (List Frac) := do
  let sum ← t.zipIdx.foldlM (fun s x => if twoMOf twoJ1 twoJ2 x.2 = twom then plus s (absF x.1) else .ok s) zero
  let inv := (invert sum).2
  return t.zipIdx.map fun x =>
    if twoMOf twoJ1 twoJ2 x.2 = twom then
      if sign = -1 then flipSign (mul x.1 inv) else mul x.1 inv
    else x.1

/-- ClebschGordanBox.cc l.36-291 `ClebschGordan` (arguments doubled) -/
noncomputable def clebschGordan (twoJ twoJ1 twoJ2 : Int) : Outcome (List Frac) := do
  let t ← rawTable twoJ twoJ1 twoJ2
  let sign := overallSign twoJ twoJ1 twoJ2 t
  (loopUp (-twoJ) twoJ).foldlM (normalize twoJ1 twoJ2 sign) t

/-- the map `_clebschGordans` -/
abbrev Box := List ((Int × Int × Int) × List Frac)

/-- ClebschGordanBox.cc l.23-32 `GetCG` -/
noncomputable def getCG (b : Box) (J J1 J2 : Int) : Outcome (Box × List Frac) :=
  match b.lookup (J, J1, J2) with
  | some t => .ok (b, t)
  | none => do
    let t ← clebschGordan (2 * J) (2 * J1) (2 * J2)
    return (((J, J1, J2), t) :: b, t)

/-- ClebschGordanBox.h l.69-75 `CGIndex` -/
def cgIndex (J1 m1 J2 m2 : Int) : Int := (J1 + m1) * (2 * J2 + 1) + J2 + m2

end Rpwa.CgBox
