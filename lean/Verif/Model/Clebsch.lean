import Mathlib.Analysis.Real.Sqrt
import Mathlib.Data.Nat.Factorial.Basic
import Verif.Model.Spin
/-!
# Model of `clebschGordanCoeffCached` (utilities/spinUtils.hpp:239-373)

* `double` is modelled by `ℝ`; rounding is not modelled (so `if (sum == 0)` is exact).
* The five-dimensional pointer array `_cache[18][35][18][35][36]` is modelled as the flat row-major
  memory it occupies: element `[j1][m1][j2][m2][J]` is at offset
  `(((j1*35 + m1)*18 + j2)*35 + m2)*36 + J`. Negative subscripts `m1`, `m2` (which the code uses)
  move the offset backwards. An access whose offset is outside the array is `Outcome.ub`.
* a null pointer is `none`, a pointer to a stored value is `some v`.
-/
namespace Rpwa.Clebsch
open Rpwa.Spin

/-- utilities/spinUtils.hpp:363 `_maxJ`. -/
def maxJ : Int := 18

/-- Number of elements of `_cache` (utilities/spinUtils.hpp:364). -/
def cacheElems : Int := maxJ * (2 * maxJ - 1) * maxJ * (2 * maxJ - 1) * (2 * maxJ)

/-- Row-major offset of `_cache[j1][m1][j2][m2][J]` (utilities/spinUtils.hpp:283, 364). -/
def addr (j1 m1 j2 m2 J : Int) : Int :=
  (((j1 * (2 * maxJ - 1) + m1) * maxJ + j2) * (2 * maxJ - 1) + m2) * (2 * maxJ) + J

/-- Static state of the functor: caching flag and cache (utilities/spinUtils.hpp:360, 364). -/
structure State where
  useCache : Bool
  mem : Int → Option ℝ

/-- utilities/spinUtils.hpp:369, 373: caching on, all pointers zero-initialised. -/
def init : State := ⟨true, fun _ => none⟩

/-- `rpwa::factorial<T>(n)` with an `int` argument: the parameter is `unsigned`
(utilities/factorial.hpp:93), so a negative argument would request an astronomically large
factorial; this is made the distinct outcome `ub`. For non-negative arguments see the model of
factorial.hpp (`Rpwa.Factorial`); overflow of `double` (n > 170) is not modelled here. -/
noncomputable def fact (n : Int) : Outcome ℝ :=
  if n < 0 then .ub else .ok (n.toNat.factorial : ℝ)

/-- utilities/spinUtils.hpp:289-292: first summation index. `fuel` bounds the number of iterations. -/
def nuStart (j1 m1 j2 M : Int) : Nat → Int → Int
  | 0, nu => nu
  | fuel + 1, nu =>
    if (j1 - j2 - M).tdiv 2 + nu < 0 || (j1 - m1).tdiv 2 + nu < 0
    then nuStart j1 m1 j2 M fuel (nu + 1) else nu

/-- utilities/spinUtils.hpp:294-306: the summation loop (loop condition with the assignments to
`d1`, `d2`, `n1`; body; `nu++`). -/
noncomputable def sumLoop (j1 m1 j2 m2 J M : Int) : Nat → Int → ℝ → Outcome ℝ
  | 0, _, sum => .ok sum
  | fuel + 1, nu, sum =>
    let d1 := (J - j1 + j2).tdiv 2 - nu
    let d2 := (J + M).tdiv 2 - nu
    let n1 := (j2 + J + m1).tdiv 2 - nu
    if d1 ≥ 0 && d2 ≥ 0 && n1 ≥ 0 then do
      let d3 := (j1 - j2 - M).tdiv 2 + nu
      let n2 := (j1 - m1).tdiv 2 + nu
      let fn1 ← fact n1
      let fn2 ← fact n2
      let fnu ← fact nu
      let fd1 ← fact d1
      let fd2 ← fact d2
      let fd3 ← fact d3
      sumLoop j1 m1 j2 m2 J M fuel (nu + 1)
        (sum + (powMinusOne (nu + (j2 + m2).tdiv 2) : ℝ) * fn1 * fn2 / (fnu * fd1 * fd2 * fd3))
    else .ok sum

/-- utilities/spinUtils.hpp:288-324: the value computed when it is not taken from the cache.
The fuel arguments bound the two loops: the first ends after at most `|j1-j2-M| + |j1-m1|` steps, the
second after at most `J - j1 + j2` steps (for arguments that passed the checks). -/
noncomputable def compute (j1 m1 j2 m2 J M : Int) : Outcome ℝ := do
  let nu := nuStart j1 m1 j2 M ((j1 - j2 - M).natAbs + (j1 - m1).natAbs + 1) 0
  let sum ← sumLoop j1 m1 j2 m2 J M ((J - j1 + j2).toNat + 2) nu 0
  if sum = 0 then pure 0
  else
    let N1 ← fact ((J + j1 - j2).tdiv 2)
    let N2 ← fact ((J - j1 + j2).tdiv 2)
    let N3 ← fact ((j1 + j2 - J).tdiv 2)
    let N4 ← fact ((J + M).tdiv 2)
    let N5 ← fact ((J - M).tdiv 2)
    let D0 ← fact ((j1 + j2 + J).tdiv 2 + 1)
    let D1 ← fact ((j1 - m1).tdiv 2)
    let D2 ← fact ((j1 + m1).tdiv 2)
    let D3 ← fact ((j2 - m2).tdiv 2)
    let D4 ← fact ((j2 + m2).tdiv 2)
    let A : ℝ := ((J + 1 : Int) : ℝ) * N1 * N2 * N3 * N4 * N5 / (D0 * D1 * D2 * D3 * D4)
    pure (Real.sqrt A * sum)

/-- utilities/spinUtils.hpp:246-332 `operator ()`. Returns the value and the new static state.
With caching off the code only *forms* the reference to the cache element (possibly outside the array
when a spin is ≥ 18) without reading or writing it; that is not counted as an access. In the branch
`sum == 0` the code returns before anything is stored (line 308-309), which the model reproduces by not
storing a computed value of zero (`Real.sqrt A * sum = 0` iff `sum = 0`, because `A > 0`, is proved in the
lemma file; the distinction is unobservable anyway since zero is recomputed). -/
noncomputable def call (s : State) (j1 m1 j2 m2 J M : Int) : Outcome (ℝ × State) :=
  if s.useCache && (j1 ≥ maxJ || j2 ≥ maxJ || J ≥ maxJ) then .terminate
  else if !spinAndProjAreCompatible j1 m1 || !spinAndProjAreCompatible j2 m2
      || !spinAndProjAreCompatible J M then .ok (0, s)
  else if !spinStatesCanCouple j1 j2 J then .ok (0, s)
  else if m1 + m2 ≠ M then .ok (0, s)
  else if s.useCache then
    let a := addr j1 m1 j2 m2 J
    if a < 0 || a ≥ cacheElems then .ub
    else match s.mem a with
      | some v => .ok (v, s)
      | none => do
        let v ← compute j1 m1 j2 m2 J M
        if v = 0 then pure (0, s)
        else pure (v, { s with mem := fun x => if x = a then some v else s.mem x })
  else do
    let v ← compute j1 m1 j2 m2 J M
    pure (v, s)

/-- A history of the process: coefficient requests and `setUseCache` calls
(utilities/spinUtils.hpp:335). -/
inductive Op where
  | request (j1 m1 j2 m2 J M : Int)
  | setUseCache (b : Bool)

/-- One step of a history; a step that does not return ends the history (`none`). -/
noncomputable def step (s : State) : Op → Option State
  | .setUseCache b => some { s with useCache := b }
  | .request j1 m1 j2 m2 J M =>
    match call s j1 m1 j2 m2 J M with
    | .ok (_, s') => some s'
    | _ => none

noncomputable def run (s : State) : List Op → Option State
  | [] => some s
  | o :: os => (step s o).bind (fun s' => run s' os)

end Rpwa.Clebsch
