import Verif.Model.FitCov
import Verif.Model.Basic
import Mathlib.Data.List.Sort
import Mathlib.Algebra.Order.Field.Basic
import Mathlib.Algebra.Order.Group.Abs
/-!
# Reading the results of fits for a resonance fit (resonanceFit/resonanceFitReadData.cc:530-1215)

Numbers are elements of an ordered field (no rounding, no infinities). A tree is the list of its entries; files, trees and branches that can not be
read end the program before this model starts. `tol` is `1000 * std::numeric_limits<double>::epsilon()`.
-/
namespace Rpwa.FitRead

open Rpwa.FitCov (Mat applyWrites zeros covIdx)

variable {K : Type} [Field K] [LinearOrder K] [IsStrictOrderedRing K]

/-- resonanceFitReadData.cc:561, :624: the same center of a mass bin. -/
def near (tol a b : K) : Bool := decide (|a - b| < tol)

/-- resonanceFitReadData.cc:548-573: different centers of mass bins in the order of the entries. -/
def collect (tol : K) : List K → List K → List K
  | [], cs => cs
  | m :: ms, cs => collect tol ms (if cs.any fun c => near tol c m then cs else cs ++ [m])

/-- resonanceFitReadData.cc:578-587: distances of neighbours. -/
def equidistant (tol : K) (cs : List K) (step : K) : Bool := (cs.zip cs.tail).all fun p => decide (|p.2 - p.1 - step| ≤ tol)

/-- resonanceFitReadData.cc:530-588 `readFitResultMassBins`; for a tree without entries element -1 of an empty array is read. For a single mass bin the
step is 0/0, and is not used. -/
def readMassBins (tol : K) (ms : List K) : Outcome (List K) :=
  let cs := (collect tol ms []).insertionSort (· ≤ ·)
  match cs with
  | [] => .ub
  | c :: r => if equidistant tol cs ((cs.getLast?.getD c - c) / (r.length : K)) then .ok cs else .terminate

/-- resonanceFitReadData.cc:610-654: the mass bin of every entry; `none` is the largest number. -/
def mapEntries (tol : K) (cs : List K) : ℕ → List K → List (Option ℕ) → Outcome (List (Option ℕ))
  | _, [], mp => .ok mp
  | idx, m :: ms, mp => match cs.findIdx? fun c => near tol c m with
    | none => .terminate
    | some i => match mp[i]? with
      | some none => mapEntries tol cs (idx + 1) ms (mp.set i (some idx))
      | some (some _) => .terminate
      | none => .ub

/-- resonanceFitReadData.cc:591-672 `checkFitResultMassBins`. -/
def checkMassBins (tol : K) (cs ms : List K) : Outcome (List ℕ) :=
  match mapEntries tol cs 0 ms (List.replicate cs.length none) with
  | .ok mp => if mp.all Option.isSome then .ok (mp.filterMap id) else .terminate
  | .terminate => .terminate
  | .ub => .ub

/-- resonanceFitReadData.cc:900-919: the mass bins of a file and the entries of the mass bins. -/
def readFile (tol : K) (ms : List K) : Outcome (List K × List ℕ) :=
  match readMassBins tol ms with
  | .ok cs => match checkMassBins tol cs ms with
    | .ok mp => .ok (cs, mp)
    | .terminate => .terminate
    | .ub => .ub
  | .terminate => .terminate
  | .ub => .ub

/-- resonanceFitReadData.cc:725-761: the covariance matrix of the spin-density matrix of the waves of the fit; `cov i j` is the matrix of the element of
waves `i` and `j` (fitResult.cc `spinDensityMatrixElemCov`), `scale` is `rescaleErrors`. -/
def sdCov (n : ℕ) (scale : K) (cov : ℕ → ℕ → Mat K) : Mat K :=
  applyWrites zeros <| (List.range n).flatMap fun i => (List.range n).flatMap fun j =>
    if j ≥ i then (List.range 2).flatMap fun k => (List.range 2).map fun l => (covIdx n i j + k, covIdx n i j + l, cov i j k l * scale) else []

/-- one production amplitude of a result: name of the wave, rank, value. -/
structure ProdAmp (W A : Type) where
  wave : W
  rank : ℤ
  amp : A

/-- resonanceFitReadData.cc:763-788: amplitudes of the waves of the fit and their numbers in the result. -/
def readAmps {W A : Type} [DecidableEq W] (waves : List W) : ℕ → List (ProdAmp W A) → List A × List ℕ → Outcome (List A × List ℕ)
  | _, [], st => .ok st
  | k, p :: ps, st => match waves.findIdx? fun w => w = p.wave with
    | none => readAmps waves (k + 1) ps st
    | some i => if p.rank ≠ 0 then .terminate else readAmps waves (k + 1) ps (st.1.set i p.amp, st.2.set i k)

/-- resonanceFitReadData.cc:721-788, one mass bin: all waves have to be in the result (`has`), then the production amplitudes. -/
def readWaves {W A : Type} [DecidableEq W] [Zero A] (waves : List W) (has : List W) (ps : List (ProdAmp W A)) : Outcome (List A × List ℕ) :=
  if waves.all fun w => has.contains w then readAmps waves 0 ps (List.replicate waves.length 0, List.replicate waves.length 0) else .terminate

/-- resonanceFitReadData.cc:1062-1069: a phase is moved by one turn towards the data. -/
def rotate (d v : K) : K :=
  if |v + 360 - d| < |v - d| then v + 360 else if |v - 360 - d| < |v - d| then v - 360 else v

/-- resonanceFitReadData.cc:1037-1076: one file of systematics, one quantity (`adj` is `rotate` for phases, and the value itself for the others) in all mass
bins; `bands` with minimum and maximum. -/
def sysFile (tol : K) (adj : K → K → K) (cs ds : List K) (file : List (K × K)) (bands : List (K × K)) : Outcome (List (K × K)) :=
  match checkMassBins tol cs (file.map Prod.fst) with
  | .ok mp => .ok (bands.mapIdx fun m b =>
      let v := adj (ds.getD m 0) ((file.getD (mp.getD m 0) (0, 0)).2)
      (min b.1 v, max b.2 v))
  | .terminate => .terminate
  | .ub => .ub

/-- resonanceFitReadData.cc:1084-1115: all files. -/
def sysFiles (tol : K) (adj : K → K → K) (cs ds : List K) : List (List (K × K)) → List (K × K) → Outcome (List (K × K))
  | [], bands => .ok bands
  | f :: fs, bands => match sysFile tol adj cs ds f bands with
    | .ok bands' => sysFiles tol adj cs ds fs bands'
    | .terminate => .terminate
    | .ub => .ub

/-- resonanceFitReadData.cc:1181-1212: bands start at the data. -/
def bandsOf (tol : K) (adj : K → K → K) (cs ds : List K) (files : List (List (K × K))) : Outcome (List (K × K)) :=
  sysFiles tol adj cs ds files (ds.map fun d => (d, d))

end Rpwa.FitRead
