import Verif.Model.Fraction
import Mathlib.Data.Rat.Sqrt
import Mathlib.Data.Nat.Factorial.Basic
/-!
Specification for property C10: what a program over `TFracNum` is supposed to compute, stated with `Rat` only.
`Prog` is a straight-line program (any nesting and sequence of API calls on one result); `Prog.mathValue` is its value in
the rational numbers (`none` where a division by zero happens), `Prog.run` runs it with the modelled class.
-/
namespace Rpwa.Fraction

/-- API calls. `readNum`/`readDen`/`readVal` are const accessors that only fill caches. -/
inductive Prog where
  | one
  | ofInts (n d : Int)
  | ofFactorials (N D : Nat)
  | mul (a b : Prog)
  | add (a b : Prog)
  | invert (a : Prog)
  | flipSign (a : Prog)
  | abs (a : Prog)
  | sqrt (a : Prog)
  | readNum (a : Prog)
  | readDen (a : Prog)
  | readVal (a : Prog)

/-- signed square root where it is rational, the number itself otherwise (documented behaviour of `Sqrt`). -/
def signedSqrtOrSelf (q : Rat) : Rat :=
  if Rat.sqrt |q| * Rat.sqrt |q| = |q| then SignType.sign q * Rat.sqrt |q| else q

/-- the mathematical value. -/
def Prog.mathValue : Prog → Option Rat
  | .one => some 1
  | .ofInts n d => if d = 0 then none else some (n / d)
  | .ofFactorials N D => some (Nat.factorial N / Nat.factorial D)
  | .mul a b => do let x ← a.mathValue; let y ← b.mathValue; return x * y
  | .add a b => do let x ← a.mathValue; let y ← b.mathValue; return x + y
  | .invert a => do let x ← a.mathValue; if x = 0 then none else return x⁻¹
  | .flipSign a => do let x ← a.mathValue; return -x
  | .abs a => do let x ← a.mathValue; return |x|
  | .sqrt a => do let x ← a.mathValue; return signedSqrtOrSelf x
  | .readNum a => a.mathValue
  | .readDen a => a.mathValue
  | .readVal a => a.mathValue

/-- run with the modelled class; `none` = a constructor loop does not terminate. -/
noncomputable def Prog.run : Prog → Option Frac
  | .one => some default1
  | .ofInts n d => Fraction.ofInts n d
  | .ofFactorials N D => Fraction.ofFactorials N D
  | .mul a b => do let x ← a.run; let y ← b.run; return Fraction.mul x y
  | .add a b => do let x ← a.run; let y ← b.run; Fraction.add x y
  | .invert a => do let x ← a.run; return (Fraction.invert x).2
  | .flipSign a => do let x ← a.run; return Fraction.flipSign x
  | .abs a => do let x ← a.run; return absF x
  | .sqrt a => do let x ← a.run; return (Fraction.sqrt x).2
  | .readNum a => do let x ← a.run; return getNumerator x
  | .readDen a => do let x ← a.run; return getDenominator x
  | .readVal a => do let x ← a.run; return getDval false x

/-- programs without `operator*=`. -/
def Prog.MulFree : Prog → Prop
  | .mul _ _ => False
  | .add a b => a.MulFree ∧ b.MulFree
  | .invert a | .flipSign a | .abs a | .sqrt a | .readNum a | .readDen a | .readVal a => a.MulFree
  | _ => True

/-- signed square root on the reals (TFracNum.h l.63-65). -/
noncomputable def ssqrt (x : Real) : Real := SignType.sign x * Real.sqrt |x|

end Rpwa.Fraction
