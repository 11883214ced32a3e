import Verif.Model.BestResult
import Verif.Model.FitAttempts
import Verif.Model.Refit
/-!
# pyInterface: which fit and which waves a script uses

Models `getBestFitResultFromFile`, `getBestFitResultsFromFile` and `getWaveDescThresFromWaveList`.  Simplifications: files and trees can be
opened (otherwise the functions return `None`); the entries of a tree are the results that were written, their values are real numbers;
texts are lists of characters; `float()` is a parameter (`none`: `ValueError`); every Python exception is `terminate`; a wave description
is the reflectivity of its topology. -/
namespace Rpwa.Select

open Rpwa.Fit Rpwa.PwaFit

open Classical in
/-- _fitTreeUtils.py:118-137: one entry; `best` is `bestResult`. -/
noncomputable def bestEntry (massCenter : Option ℝ) (best : Option FitResult) (result : FitResult) : Option FitResult :=
  if !result.converged then best
  else match best with
    | none => some result
    | some b => match massCenter with
      | none => if result.logLikelihood < b.logLikelihood then some result else some b
      | some m =>
        if |m - massBinCenter result| < |m - massBinCenter b| then some result
        else if |m - massBinCenter result| = |m - massBinCenter b| then
          if result.logLikelihood < b.logLikelihood then some result else some b
        else some b

/-- _fitTreeUtils.py:90-141 `getBestFitResultFromFile`. -/
noncomputable def getBestFitResultFromFile (massCenter : Option ℝ) (entries : List FitResult) : Option FitResult :=
  entries.foldl (bestEntry massCenter) none

section Best
open Rpwa.Best
variable {κ π : Type} [DecidableEq κ]

open Classical in
/-- assignment to a key of a Python dict; the position of the keys is irrelevant. -/
noncomputable def dictSet (d : ℝ → Option (Attempt κ π)) (k : ℝ) (v : Attempt κ π) : ℝ → Option (Attempt κ π) := Function.update d k (some v)

/-- _fitTreeUtils.py:87: one bin; `center` is `getBinCenters()["mass"]`, `none` for bins without mass (`KeyError`). -/
noncomputable def bestOfBin (center : κ → Option ℝ) (d : ℝ → Option (Attempt κ π)) (e : κ × List (Stored κ π)) :
    Outcome (ℝ → Option (Attempt κ π)) :=
  match center e.1 with
  | none => .terminate
  | some m => match e.2 with
    | [] => .terminate
    | s :: _ => .ok (dictSet d m s.result)

/-- _fitTreeUtils.py:76-87 `getBestFitResultsFromFile`; `order` is the order in which the dictionary of the bins is traversed. -/
noncomputable def getBestFitResultsFromFile (center : κ → Option ℝ) (order : List (κ × List (Stored κ π)) → List (κ × List (Stored κ π)))
    (tree : List (Attempt κ π)) : Outcome (ℝ → Option (Attempt κ π)) := do
  let bins ← getFitResults ⟨true, false, true⟩ [tree]
  (order bins).foldlM (bestOfBin center) fun _ => none

end Best

/-- the characters that `str.strip()` removes. -/
def isBlank (c : Char) : Bool := c = ' ' || c = '\t' || c = '\n' || c = '\r' || c = '\x0b' || c = '\x0c'

/-- `str.strip()`. -/
def strip (s : Name) : Name := ((s.dropWhile isBlank).reverse.dropWhile isBlank).reverse

/-- the lines of a text file, without their line ends (which `strip` removes); text after the last line end is a line. -/
def fileLines (text : Name) : List Name :=
  let ls := text.splitOn '\n'
  if ls.getLast? = some [] then ls.dropLast else ls

/-- _waveDescThresUtils.py:33-50: one line. -/
def waveLine (float : Name → Option ℝ) (desc : Name → Option ℤ) (acc : List (String × ℤ × ℝ)) (line : Name) :
    Outcome (List (String × ℤ × ℝ)) :=
  match strip line with
  | [] => .terminate
  | c :: cs =>
    if c = '#' then .ok acc
    else match (c :: cs).splitOn ' ' with
      | [w] => match desc w with
        | none => .terminate
        | some refl => .ok (acc ++ [(String.ofList w, refl, 0)])
      | [w, t] => match desc w with
        | none => .terminate
        | some refl => match float t with
          | none => .terminate
          | some thr => .ok (acc ++ [(String.ofList w, refl, thr)])
      | _ => .ok acc

/-- _waveDescThresUtils.py:26-51 `getWaveDescThresFromWaveList`. -/
def getWaveDescThresFromWaveList (float : Name → Option ℝ) (desc : Name → Option ℤ) (text : Name) : Outcome (List (String × ℤ × ℝ)) :=
  (fileLines text).foldlM (waveLine float desc) []

end Rpwa.Select
