import Mathlib.Analysis.SpecialFunctions.Trigonometric.Basic
import Mathlib.Analysis.Real.Sqrt
import Verif.Model.Basic
/-!
# Model of `dFunctionCached` (utilities/dFunction.hpp:55-229)

* `T` is modelled by `ℝ` (no rounding); `rpwa::pow(x, int)` by integer powers. `0^negative` (infinite in
  C++) does not occur for consistent arguments (proved: all exponents are non-negative).
* the cache `_cache[41][42][42]` of pointers is a map from index triples to `Option Entry`; the index
  bounds are checked in the model (`ub`).
* `rpwa::factorial` is modelled by the mathematical factorial; negative arguments (conversion to huge
  unsigned) are the distinct outcome `ub`.
-/
namespace Rpwa.DFunction

/-- utilities/dFunction.hpp:202. -/
def maxJ : Int := 41

/-- One element of the three parallel vectors of `cacheEntryType` (utilities/dFunction.hpp:66-69);
the code pushes to all three together (lines 153-155), so they are modelled as one list. -/
structure Summand where
  kmn1 : Int
  jmnk : Int
  factor : ℝ

/-- utilities/dFunction.hpp:60-71 `cacheEntryType`. -/
structure Entry where
  constTerm : ℝ
  terms : List Summand

/-- static members (utilities/dFunction.hpp:199-203). -/
structure State where
  useCache : Bool
  mem : Int × Int × Int → Option Entry

/-- utilities/dFunction.hpp:208, 211: caching on, null pointers. -/
def init : State := ⟨true, fun _ => none⟩

/-- `rpwa::factorial<T>(n)`; negative arguments see the header comment. -/
noncomputable def fact (n : Int) : Outcome ℝ :=
  if n < 0 then .ub else .ok (n.toNat.factorial : ℝ)

/-- utilities/dFunction.hpp:134: `constTerm`, with `kk` of lines 130-133. -/
noncomputable def constTerm (j m n : Int) : Outcome ℝ := do
  let f1 ← fact ((j + m).tdiv 2)
  let f2 ← fact ((j - m).tdiv 2)
  let f3 ← fact ((j + n).tdiv 2)
  let f4 ← fact ((j - n).tdiv 2)
  pure ((powMinusOne ((j + m).tdiv 2) : ℝ) * Real.sqrt (f1 * f2 * f3 * f4))

/-- utilities/dFunction.hpp:143-151: the summand for index `k`. -/
noncomputable def summand (j m n k : Int) : Outcome Summand := do
  let fk ← fact k
  let f1 ← fact ((j + m).tdiv 2 - k)
  let f2 ← fact ((j + n).tdiv 2 - k)
  let f3 ← fact (k - (m + n).tdiv 2)
  pure ⟨2 * k - (m + n).tdiv 2, j + (m + n).tdiv 2 - 2 * k, (fk * f1 * f2 * f3) / (powMinusOne k : ℝ)⟩

/-- utilities/dFunction.hpp:142-159: loop `for (int k = kMin; k <= kMax; ++k)`, collecting the
summands in order; `fuel` bounds the number of iterations. -/
noncomputable def summands (j m n : Int) (kMax : Int) : Nat → Int → Outcome (List Summand)
  | 0, _ => .ok []
  | fuel + 1, k =>
    if k ≤ kMax then do
      let t ← summand j m n k
      let ts ← summands j m n kMax fuel (k + 1)
      pure (t :: ts)
    else .ok []

/-- utilities/dFunction.hpp:116-120 and 158: `sumTerm` for given half angle. -/
noncomputable def sumTerm (ts : List Summand) (c s : ℝ) : ℝ :=
  (ts.map (fun t => c ^ t.kmn1 * s ^ t.jmnk / t.factor)).sum

/-- utilities/dFunction.hpp:78-164 `operator ()`. -/
noncomputable def call (st : State) (j m n : Int) (theta : ℝ) : Outcome (ℝ × State) :=
  if j ≥ maxJ then .terminate
  else if j < 0 || (m.natAbs : Int) > j || (n.natAbs : Int) > j then .terminate
  else if j == 0 then .ok (1, st)
  else
    let m' := if theta < 0 then n else m
    let n' := if theta < 0 then m else n
    let thetaHalf := if theta < 0 then |theta / 2| else theta / 2
    let c := Real.cos thetaHalf
    let s := Real.sin thetaHalf
    let i1 := (j + m').tdiv 2
    let i2 := (j + n').tdiv 2
    if i1 < 0 || i1 ≥ maxJ + 1 || i2 < 0 || i2 ≥ maxJ + 1 then .ub
    else
      let cell := (j, i1, i2)
      match st.useCache, st.mem cell with
      | true, some e => .ok (e.constTerm * sumTerm e.terms c s, st)
      | useCache, old => do
        let ct ← constTerm j m' n'
        let kMin := max 0 ((m' + n').tdiv 2)
        let kMax := min i1 i2
        let ts ← summands j m' n' kMax (kMax - kMin + 1).toNat kMin
        -- line 124-125: a new entry is allocated if caching is on; lines 135-136 and 152-156 write to
        -- `cacheEntry` whenever the pointer is non-null, i.e. also to an old entry when caching is off
        let base : Option Entry := if useCache then some ⟨0, []⟩ else old
        let new : Option Entry := base.map (fun e => ⟨ct, e.terms ++ ts⟩)
        pure (ct * sumTerm ts c s,
          { st with mem := fun x => if x = cell then new else st.mem x })

/-- History: requests and `setUseCache` (utilities/dFunction.hpp:167). -/
inductive Op where
  | request (j m n : Int) (theta : ℝ)
  | setUseCache (b : Bool)

noncomputable def step (s : State) : Op → Option State
  | .setUseCache b => some { s with useCache := b }
  | .request j m n theta =>
    match call s j m n theta with
    | .ok (_, s') => some s'
    | _ => none

noncomputable def run (s : State) : List Op → Option State
  | [] => some s
  | o :: os => (step s o).bind (fun s' => run s' os)

end Rpwa.DFunction
