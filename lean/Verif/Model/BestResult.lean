import Verif.Model.Basic
import Mathlib.Data.Real.Basic
import Mathlib.Data.List.Sort
import Mathlib.Logic.Function.Basic
/-!
# Collecting fit results from files

Models `getFitResultsFromFilesInMultibins` (partialWaveFit/fitResult.cc l.1108-1240).  Simplifications:
* a file is the list of entries of its tree, all files can be opened (otherwise the function returns an empty map, l.1125-1135);
* a fit result is its bin, its likelihood value, its convergence flag, and everything else (`payload`); `fill(other, cov, int)`
  is a copy of `other` that keeps its matrices if the flags are set (C33 proves that `fill` does this for the first fill and for
  refilling with the same amplitude names, which is how it is used here);
* `std::map`s are functions, a list iterator is the position in the list (nothing is ever erased);
* the loops over the bins after the scan treat every bin on its own, they are written as a function of the bin. -/
namespace Rpwa.Best

variable {κ π : Type} [DecidableEq κ]

/-- an entry of a fit-result tree. -/
structure Attempt (κ π : Type) where
  bin : κ
  logL : ℝ
  converged : Bool
  payload : π

/-- a fit result in the returned lists. -/
structure Stored (κ π : Type) where
  result : Attempt κ π
  matrices : Bool

/-- `negLogLikeOfBest…`, `fileTreeEntryOfBest…`, `iterOfBest…` of a bin. -/
structure BestSoFar where
  logL : ℝ
  entry : ℕ × ℕ
  iter : ℕ

structure Options where
  onlyBest : Bool
  strip : Bool
  onlyConverged : Bool

/-- the maps of l.1144-1150. -/
structure Scan (κ π : Type) where
  lists : κ → List (Stored κ π)
  all : List κ
  best : κ → Option BestSoFar
  bestConv : κ → Option BestSoFar

def Scan.empty : Scan κ π := ⟨fun _ => [], [], fun _ => none, fun _ => none⟩

open Classical in
/-- fitResult.cc:1168-1174, 1176-1181: first result of the bin, or a smaller value. -/
noncomputable def improve (m : κ → Option BestSoFar) (k : κ) (b : BestSoFar) : κ → Option BestSoFar :=
  match m k with
  | none => Function.update m k (some b)
  | some old => if b.logL < old.logL then Function.update m k (some b) else m

/-- fitResult.cc:1155-1182: one entry. -/
noncomputable def scanEntry (o : Options) (s : Scan κ π) (e : Attempt κ π × ℕ × ℕ) : Scan κ π :=
  let a := e.1
  if o.onlyConverged && !a.converged then s
  else
    let s := { s with all := if a.bin ∈ s.all then s.all else s.all ++ [a.bin] }
    let it := (s.lists a.bin).length
    let s :=
      if o.onlyBest then s
      else
        { s with
          lists := (Function.update s.lists a.bin (s.lists a.bin ++ [⟨a, !o.strip⟩]))
          bestConv := (if a.converged then improve s.bestConv a.bin ⟨a.logL, e.2, it⟩ else s.bestConv) }
    { s with best := (improve s.best a.bin ⟨a.logL, e.2, it⟩) }

/-- fitResult.cc:1151-1184: all entries of all trees, with their file and entry numbers. -/
noncomputable def scan (o : Options) (trees : List (List (Attempt κ π))) : Scan κ π :=
  trees.zipIdx.foldl (fun s t => t.1.zipIdx.foldl (fun s e => scanEntry o s (e.1, t.2, e.2)) s) Scan.empty

/-- `trees[i]->GetEntry(j)`. -/
def getEntry (trees : List (List (Attempt κ π))) (p : ℕ × ℕ) : Outcome (Attempt κ π) :=
  match trees[p.1]? with
  | none => .ub
  | some t => match t[p.2]? with
    | none => .ub
    | some a => .ok a

/-- map access / iterator access that is expected to find something. -/
def expect {α : Type} : Option α → Outcome α
  | some a => .ok a
  | none => .ub

open Classical in
noncomputable def assert (p : Prop) : Outcome Unit := if p then .ok () else .terminate

open Classical in
/-- fitResult.cc:1188-1230: what happens to a bin after the scan. -/
noncomputable def finishBin (o : Options) (trees : List (List (Attempt κ π))) (s : Scan κ π) (k : κ) : Outcome (List (Stored κ π)) :=
  if o.onlyBest then do
    -- l.1188-1195
    let b ← expect (s.best k)
    let a ← getEntry trees b.entry
    assert ((s.lists k).length = 0)
    pure (s.lists k ++ [⟨a, true⟩])
  else do
    let b ← expect (s.best k)
    let l ← (if o.strip then do
        -- l.1196-1215
        let a ← getEntry trees b.entry
        assert (b.logL = a.logL)
        let x ← expect ((s.lists k)[b.iter]?)
        assert (x.result.logL = a.logL)
        let l := (s.lists k).set b.iter ⟨a, true⟩
        match s.bestConv k with
        | none => pure l
        | some c => do
          let x ← expect (l[b.iter]?)
          if x.result.converged then do
            assert (b.logL = c.logL)
            pure l
          else do
            let a' ← getEntry trees c.entry
            let _ ← expect (l[c.iter]?)
            pure (l.set c.iter ⟨a', true⟩)
      else pure (s.lists k))
    -- l.1219-1229, `std::list::sort` is stable
    let l := l.insertionSort (fun x y => x.result.logL ≤ y.result.logL)
    let f ← expect l.head?
    assert (f.result.logL = b.logL)
    pure l

/-- fitResult.cc:1108-1240: the returned map as the list of its bins and their fit results. -/
noncomputable def getFitResults (o : Options) (trees : List (List (Attempt κ π))) : Outcome (List (κ × List (Stored κ π))) :=
  let s := scan o trees
  s.all.mapM fun k => do
    let l ← finishBin o trees s k
    pure (k, l)

end Rpwa.Best
