import Verif.Model.FitSelect
import Verif.Spec.BestResult
/-! # Specification: which fit and which waves a script uses (C91) -/
namespace Rpwa.Select

open Rpwa.Fit Rpwa.PwaFit

/-- how far the mass bin of a result is from the mass that was asked for; no difference if none was. -/
noncomputable def distance (massCenter : Option ℝ) (r : FitResult) : ℝ :=
  match massCenter with
  | none => 0
  | some m => |m - massBinCenter r|

/-- `a` is nearer than `b`, or as near and has a smaller negative log-likelihood. -/
def Better (massCenter : Option ℝ) (a b : FitResult) : Prop :=
  distance massCenter a < distance massCenter b ∨ distance massCenter a = distance massCenter b ∧ a.logLikelihood < b.logLikelihood

/-- entry `i` is the first of the best among the results that have converged. -/
def Chosen (massCenter : Option ℝ) (entries : List FitResult) (i : ℕ) (r : FitResult) : Prop :=
  entries[i]? = some r ∧ r.converged = true ∧ ∀ (j : ℕ) (r' : FitResult), entries[j]? = some r' → r'.converged = true →
    ¬ Better massCenter r' r ∧ (j < i → Better massCenter r r')

/-- the first of the best of the results of a bin that have converged. -/
def BestOfBin {κ π : Type} [DecidableEq κ] (tree : List (Best.Attempt κ π)) (k : κ) (a : Best.Attempt κ π) : Prop :=
  ∃ n, Best.FirstBest (fun _ => True) (Best.attempts true [tree] k) n ∧ (Best.attempts true [tree] k)[n]? = some a

/-- blanks at the ends of a line. -/
def Blanks (s : Name) : Prop := ∀ c ∈ s, c ∈ [' ', '\t', '\n', '\r', '\x0b', '\x0c']

/-- text without blanks at its ends. -/
structure Trimmed (s : Name) : Prop where
  first : ∃ c, s.head? = some c ∧ c ∉ [' ', '\t', '\n', '\r', '\x0b', '\x0c']
  last : ∃ c, s.getLast? = some c ∧ c ∉ [' ', '\t', '\n', '\r', '\x0b', '\x0c']

/-- what a line without the blanks at its ends stands for. -/
inductive Means (float : Name → Option ℝ) (desc : Name → Option ℤ) : Name → List (String × ℤ × ℝ) → Prop
  | comment (s : Name) : Means float desc ('#' :: s) []
  | wave (w : Name) (refl : ℤ) : w.head? ≠ some '#' → ' ' ∉ w → desc w = some refl → Means float desc w [(String.ofList w, refl, 0)]
  | threshold (w t : Name) (refl : ℤ) (thr : ℝ) : w.head? ≠ some '#' → ' ' ∉ w → ' ' ∉ t → desc w = some refl → float t = some thr →
      Means float desc (w ++ ' ' :: t) [(String.ofList w, refl, thr)]
  | ignored (s : Name) : s.head? ≠ some '#' → 2 ≤ s.count ' ' → Means float desc s []

/-- what a line of a wave list stands for. -/
def LineMeans (float : Name → Option ℝ) (desc : Name → Option ℤ) (line : Name) (ws : List (String × ℤ × ℝ)) : Prop :=
  ∃ pre body post, line = pre ++ body ++ post ∧ Blanks pre ∧ Blanks post ∧ Trimmed body ∧ Means float desc body ws

/-- a file with these lines. -/
def fileOf (lines : List Name) : Name := (lines.map fun l => l ++ ['\n']).flatten

/-- a wave list that a user writes: a wave and, if wanted, a threshold per line. -/
def writeWaveList (ws : List (Name × Option Name)) : Name :=
  fileOf (ws.map fun w => match w.2 with | none => w.1 | some t => w.1 ++ ' ' :: t)

end Rpwa.Select
