import Verif.Model.Basic
/-!
# Model of utilities/spinUtils.hpp (spin ranges, coupling checks, exotic quantum numbers)

All spins are stored, as in the code, as `2 * spin / hbar` in (unbounded) integers.
Machine-integer overflow is not modelled.
-/

namespace Rpwa.Spin

/-- Return value of the range functions: the two tuple entries and the `*valid` flag. -/
structure SpinRange where
  lo : Int
  hi : Int
  valid : Bool
  deriving Repr, DecidableEq

/-- utilities/spinUtils.hpp:53-70 `getSpinRange(spinA, spinB, valid)`.
The `valid` output parameter (may be null in C++) is returned as a field. -/
def getSpinRange (a b : Int) : SpinRange :=
  if a < 0 || b < 0 then ⟨0, -1, false⟩
  else ⟨((a - b).natAbs : Int), a + b, true⟩

/-- utilities/spinUtils.hpp:73-88 `spinQnLargerEqual`. -/
def spinQnLargerEqual (q lower : Int) : Int :=
  if isOdd q then
    if isOdd lower then max q lower else max q (lower + 1)
  else
    if isEven lower then max q lower else max q (lower + 1)

/-- utilities/spinUtils.hpp:91-106 `spinQnSmallerEqual`. -/
def spinQnSmallerEqual (q upper : Int) : Int :=
  if isOdd q then
    if isOdd upper then min q upper else min q (upper - 1)
  else
    if isEven upper then min q upper else min q (upper - 1)

/-- utilities/spinUtils.hpp:109-134 `getSpinRange(spinA, spinB, demandedRange, valid)`. -/
def getSpinRangeIn (a b dlo dhi : Int) : SpinRange :=
  let r := getSpinRange a b
  if !r.valid then r
  else
    let lo := spinQnLargerEqual r.lo dlo
    let hi := spinQnSmallerEqual r.hi dhi
    ⟨lo, hi, decide (lo ≤ hi)⟩

/-- utilities/spinUtils.hpp:137-143 `spinAndProjAreCompatible`. -/
def spinAndProjAreCompatible (s m : Int) : Bool :=
  decide (0 ≤ s) && decide ((m.natAbs : Int) ≤ s) && isEven (s - m)

/-- utilities/spinUtils.hpp:146-163 `spinStatesCanCouple(j1, j2, J)`. -/
def spinStatesCanCouple (j1 j2 J : Int) : Bool :=
  let r := getSpinRange j1 j2
  if !r.valid then false
  else if J < r.lo || J > r.hi then false
  else if isOdd (j1 + j2 - J) then false
  else true

/-- utilities/spinUtils.hpp:188-209 `jpcIsExotic`. `_J / 2` is C++ truncating division. -/
def jpcIsExotic (J2 P C : Int) : Bool :=
  if P == 0 || C == 0 || J2 < 0 || isOdd J2 then false
  else
    let J := J2.tdiv 2
    if J == 0 && (P == -1 && C == -1) then true
    else if C == -P && P != powMinusOne (J + 1) then true
    else false

/-- utilities/spinUtils.hpp:212-236 `igjpIsExotic`. -/
def igjpIsExotic (I2 G J2 P : Int) : Bool :=
  if P == 0 || G == 0 || I2 < 0 || isOdd I2 || J2 < 0 || isOdd J2 then false
  else
    let I := I2.tdiv 2
    let J := J2.tdiv 2
    if J == 0 && (P == -1 && G == powMinusOne I * P) then true
    else if G == powMinusOne (I + 1) * P && P != powMinusOne (J + 1) then true
    else false

/-- The loop idiom `for (int J = lo; J <= hi; J += 2)` with which the callers of `getSpinRange`
walk over the range (decayAmplitude/waveSetGenerator.cc:232, 247, 255). `fuel` bounds the number of
iterations; `stepBy2` supplies enough fuel for the loop to end by its own condition. -/
def stepLoop : Nat → Int → Int → List Int
  | 0, _, _ => []
  | fuel + 1, J, hi => if J ≤ hi then J :: stepLoop fuel (J + 2) hi else []

/-- The values visited by `for (int J = lo; J <= hi; J += 2)`, in order. -/
def stepBy2 (lo hi : Int) : List Int := stepLoop (hi - lo + 2).toNat lo hi

end Rpwa.Spin
