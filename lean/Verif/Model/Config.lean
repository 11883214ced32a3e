import Verif.Model.MultiBin
/-!
# Binning of the configuration file

Models `_readBinning` of `pyInterface/module/_config.py`. `ast.literal_eval` gives the value; the type checks (`isinstance`) hold.
A `dict` is the list of its items in the order of its `keys()`. -/
namespace Rpwa.MultiBin

/-- Python exceptions; `ValueError` (and `TypeError`) is caught in one place. -/
inductive PyErr | valueError | other
  deriving DecidableEq

/-- value of one variable: a list of edges or a tuple. -/
inductive Axis
  | edges (es : List ℚ)
  | tuple (t : List ℚ)

/-- value of the configuration string. -/
inductive BinningInput
  | malformed
  | bins (l : List Boundaries)
  | grid (g : List (String × Axis))
  | otherType

/-- _config.py:194-197 `_roundToNSignificantDigits`: `log10(0)` raises `ValueError`; the rounding to 14 digits is the parameter `round`. -/
def roundSig (round : ℚ → ℚ) (value : ℚ) : Except PyErr ℚ := if value = 0 then .error .valueError else .ok (round value)

/-- _config.py:200-231, one variable: edges from (xMin, xMax, nBins); the number of bins 0 raises `ZeroDivisionError`. `int(x)` truncates. -/
def expandAxis (round : ℚ → ℚ) : Axis → Except PyErr (List ℚ)
  | .edges es => .ok es
  | .tuple [xMin, xMax, n] =>
    let nBins := Int.tdiv n.num n.den
    (List.range (nBins + 1).toNat).mapM fun (i : ℕ) => if nBins = 0 then .error .other else roundSig round (xMin + (xMax - xMin) / nBins * (i : ℚ))
  | .tuple _ => .error .valueError

/-- _config.py:200-231 `_binningInputHandlingForCaseTwoAndThree`. -/
def expandAxes (round : ℚ → ℚ) (g : List (String × Axis)) : Except PyErr (List (String × List ℚ)) :=
  g.mapM fun e => do
    let es ← expandAxis round e.2
    pure (e.1, es)

/-- _config.py:175-176: `(inputVal[key][i - 1], inputVal[key][i])`; `IndexError` if there is none (indices are at least 1). -/
def cell (es : List ℚ) (i : ℕ) : Except PyErr (ℚ × ℚ) :=
  match es[i - 1]?, es[i]? with
  | some a, some b => .ok (a, b)
  | _, _ => .error .other

/-- _config.py:174-177: the bin for given indices; the constructor raises `ValueError`. -/
def gridStep (axes : List (String × List ℚ)) (indices : List ℕ) : Except PyErr Boundaries := do
  let b ← (axes.zip indices).foldlM (fun b e => do
    let c ← cell e.1.2 e.2
    pure (dictSet b e.1.1 c)) []
  match construct b with
  | some b => pure b
  | none => .error .valueError

/-- _config.py:179-182: carry to the next index. -/
def carry (limits indices : List ℕ) : List ℕ :=
  (List.range (indices.length - 1)).foldl (fun ind m =>
    if ind.getD m 0 = limits.getD m 0 then (ind.set m 1).set (m + 1) (ind.getD (m + 1) 0 + 1) else ind) indices

/-- _config.py:173-182: the loop over all bins; `none`: the loop does not end. -/
def gridLoop (axes : List (String × List ℚ)) (limits indices : List ℕ) (retVal : List Boundaries) : Option (Except PyErr (List Boundaries)) :=
  if indices.getLast? = limits.getLast? then some (.ok retVal)
  else match gridStep axes indices with
    | .error e => some (.error e)
    | .ok b => gridLoop axes limits (carry limits (indices.modify 0 (· + 1))) (retVal ++ [b])
partial_fixpoint

/-- _config.py:168-182: all bins of a grid. -/
def readGrid (axes : List (String × List ℚ)) : Option (Except PyErr (List Boundaries)) :=
  gridLoop axes (axes.map (·.2.length)) (List.replicate axes.length 1) []

/-- _config.py:186-190: all bins must have the same variables. -/
def sameVariables (bins : List Boundaries) : List Boundaries :=
  match bins with
  | [] => []
  | b :: _ => if bins.all (fun c => decide (keys c = keys b)) then bins else []

/-- _config.py:137-191 `_readBinning`; an uncaught exception is `error`. -/
def readBinning (round : ℚ → ℚ) : BinningInput → Option (Except PyErr (List Boundaries))
  | .malformed => some (.ok [])
  | .otherType => some (.ok [])
  | .bins l =>
    if l = [] then some (.ok [])
    else match l.mapM construct with
      | some bins => some (.ok (sameVariables bins))
      | none => some (.ok [])
  | .grid g =>
    if g = [] then some (.ok [])
    else match expandAxes round g with
      | .error .valueError => some (.ok [])
      | .error .other => some (.error .other)
      | .ok axes => (readGrid axes).map fun r => r.map sameVariables

end Rpwa.MultiBin
