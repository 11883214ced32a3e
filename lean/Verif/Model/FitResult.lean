import Verif.Model.Basic
import Mathlib.Data.Complex.Basic
import Mathlib.Analysis.SpecialFunctions.Complex.Arg
import Mathlib.Algebra.BigOperators.Group.Finset.Basic
/-!
# Fit results

Models `partialWaveFit/fitResult.{h,cc}` and `partialWaveFitHelper.cc` l.36-101.  Simplifications:
* strings are lists of characters, `double` is `Real`, `TComplex` and `complex<double>` are `ℂ`;
* a `std::vector` whose entries are numbers is a size and a function; matrices are sizes and a function (`Mat`); an access
  outside of a vector of *names* is `Outcome.ub`;
* `TString::Contains(TPRegexp(pattern))` is the parameter `rx pattern subject` (the PCRE library is not modelled; what is
  assumed about it is `LiteralRx` in `Spec/FitResult`);
* warnings are omitted. -/
namespace Rpwa.Fit

abbrev Name := List Char

/-- utilities: a matrix with its dimensions. -/
structure Mat (α : Type) where
  nRows : ℕ
  nCols : ℕ
  entry : ℕ → ℕ → α

/-- `ResizeTo(0, 0)`. -/
def Mat.empty (α : Type) [Zero α] : Mat α := ⟨0, 0, fun _ _ => 0⟩

/-! ### names -/

/-- fitResult.h:74. -/
def specialChars : List Char := ['^', '$', '.', '[', ']', '*', '+', '?']

/-- `TString::Contains(const char*)` / `string::find(…) != npos`. -/
def hasSub (pat s : Name) : Bool := s.tails.any fun t => pat.isPrefixOf t

/-- `TString::ReplaceAll(pat, rep)`: left to right, without overlap (`pat` is not empty). -/
def replaceAll (pat rep : Name) : Name → Name
  | [] => []
  | c :: s =>
    if pat.isPrefixOf (c :: s) then rep ++ replaceAll pat rep (s.drop (pat.length - 1)) else c :: replaceAll pat rep s
termination_by s => s.length
decreasing_by
  · simp only [List.length_drop, List.length_cons]; omega
  · simp

/-- fitResult.h:79-81: `while (Contains(pat)) ReplaceAll(pat, rep)`; every turn shortens the string when `rep` is shorter
than `pat` (otherwise one turn only, never the case here). -/
def replaceWhile (pat rep s : Name) : Name :=
  if hasSub pat s then
    let s' := replaceAll pat rep s
    if s'.length < s.length then replaceWhile pat rep s' else s'
  else s
termination_by s.length

/-- fitResult.h:69-84 `escapeRegExpSpecialChar`. -/
def escape (s : Name) : Name :=
  specialChars.foldl (fun s c => replaceWhile ['\\', '\\', c] ['\\', c] (replaceAll [c] ['\\', c] s)) s

/-- fitResult.h:87-100 `unescapeRegExpSpecialChar`. -/
def unescape (s : Name) : Name := specialChars.foldl (fun s c => replaceWhile ['\\', c] [c] s) s

/-- the digits at the beginning, as a number. -/
def leadingDigits : Name → ℕ → ℕ
  | [], acc => acc
  | c :: s, acc => if c.isDigit then leadingDigits s (10 * acc + (c.toNat - '0'.toNat)) else acc

/-- C `atoi` (values outside of `int` are not modelled). -/
def atoi (s : Name) : ℤ :=
  match s.dropWhile Char.isWhitespace with
  | '-' :: t => -(leadingDigits t 0 : ℤ)
  | '+' :: t => leadingDigits t 0
  | t => leadingDigits t 0

/-- fitResult.h:533-545 `rankOfProdAmp` (name not empty). -/
def rankOfName (n : Name) : ℤ := if n = "V_flat".toList then -1 else atoi (n.drop 1)

/-- fitResult.h:640-651 `waveNameForProdAmp`: what follows the first underscore. -/
def waveNameOf (n : Name) : Name :=
  if n = [] ∨ n.head? ≠ some 'V' ∨ '_' ∉ n then [] else (n.dropWhile (· ≠ '_')).drop 1

/-- partialWaveFitHelper.cc:36-101 `getReflectivity`. -/
def getReflectivity (name : Name) : Outcome ℤ :=
  if name.head? = some 'V' ∧ '_' ∉ name then .terminate
  else
    let wave := if name.head? = some 'V' then (name.dropWhile (· ≠ '_')).drop 1 else name
    if wave = "flat".toList then .ok 0
    else
      match wave with
      | '[' :: q =>
        let endQn := q.idxOf ']'
        let first := q.idxOf ','
        let second := first + 1 + (q.drop (first + 1)).idxOf ','
        if endQn ≥ q.length then .terminate
        else if first ≥ q.length ∨ second ≥ q.length ∨ endQn < second then .terminate
        else if endQn - second < 3 then .terminate
        else if q[endQn - 1]? = some '-' then .ok (-1)
        else if q[endQn - 1]? = some '+' then .ok 1
        else .terminate
      | w =>
        if w.length < 6 then .ub
        else if w[6]? = some '-' then .ok (-1)
        else if w[6]? = some '+' then .ok 1
        else .terminate

/-! ### the object -/

/-- fitResult.h:389-409. -/
structure FitResult where
  nmbEvents : ℕ
  normNmbEvents : ℕ
  multibin : List (Name × ℝ × ℝ)
  logLikelihood : ℝ
  rank : ℤ
  nmbProdAmps : ℕ
  prodAmps : ℕ → ℂ
  prodAmpNames : List Name
  waveNames : List Name
  covMatrixValid : Bool
  cov : Mat ℝ
  nmbCovIdx : ℕ
  covIdx : ℕ → ℤ × ℤ
  normIntegral : Mat ℂ
  accNormIntegral : Mat ℂ
  normIntIndexMap : ℕ → Option ℕ
  phaseSpaceIntegral : List ℝ
  converged : Bool
  hasHessian : Bool

/-- the arguments of `fill` (fitResult.cc:185-198); `none` is the null pointer. -/
structure FillArgs where
  nmbEvents : ℕ
  normNmbEvents : ℕ
  multibin : List (Name × ℝ × ℝ)
  logLikelihood : ℝ
  rank : ℤ
  nmbProdAmps : ℕ
  prodAmps : ℕ → ℂ
  prodAmpNames : List Name
  cov : Option (Mat ℝ)
  nmbCovIdx : ℕ
  covIdx : ℕ → ℤ × ℤ
  normIntegral : Option (Mat ℂ)
  accNormIntegral : Option (Mat ℂ)
  phaseSpaceIntegral : Option (List ℝ)
  converged : Bool
  hasHessian : Bool

namespace FitResult

/-- fitResult.cc:84-92: default constructor; the same state is established by `reset` (fitResult.cc:161-181). -/
noncomputable def new : FitResult :=
  ⟨0, 0, [], 0, 0, 0, fun _ => 0, [], [], false, .empty ℝ, 0, fun _ => (0, 0), .empty ℂ, .empty ℂ, fun _ => none, [], false, false⟩

/-- fitResult.cc:161-181 `reset`. -/
noncomputable def reset (_ : FitResult) : FitResult := new

/-- the loop fitResult.cc:248-254: `i` is the loop variable, `names` what is left of `_prodAmpNames`. -/
def waveLoop (names : List Name) (i : ℕ) (waves : List Name) (map : ℕ → Option ℕ) : List Name × (ℕ → Option ℕ) :=
  match names with
  | [] => (waves, map)
  | n :: ns =>
    let w := waveNameOf n
    let idx := waves.idxOf w
    waveLoop ns (i + 1) (if idx = waves.length then waves ++ [w] else waves) (fun k => if k = i then some idx else map k)

/-- fitResult.cc:184-345 `fill`. The last clause of the map is the consistency check l.335-343, whose `operator[]` inserts
missing keys. -/
def fill (r : FitResult) (a : FillArgs) (emptyR : Mat ℝ) (emptyC : Mat ℂ) : FitResult :=
  let loop := waveLoop a.prodAmpNames 0 r.waveNames r.normIntIndexMap
  let haveInt := a.normIntegral.isSome || a.accNormIntegral.isSome
  { nmbEvents := a.nmbEvents
    normNmbEvents := a.normNmbEvents
    multibin := a.multibin
    logLikelihood := a.logLikelihood
    rank := a.rank
    nmbProdAmps := a.nmbProdAmps
    prodAmps := a.prodAmps
    prodAmpNames := a.prodAmpNames
    waveNames := loop.1
    covMatrixValid := match a.cov with
      | some c => decide (c.nRows ≠ 0 ∧ c.nCols ≠ 0)
      | none => false
    cov := a.cov.getD emptyR
    nmbCovIdx := a.nmbCovIdx
    covIdx := a.covIdx
    normIntegral := a.normIntegral.getD emptyC
    accNormIntegral := a.accNormIntegral.getD emptyC
    normIntIndexMap :=
      if haveInt then fun k => match loop.2 k with
        | some v => some v
        | none => if k < a.nmbProdAmps then some 0 else none
      else fun _ => none
    phaseSpaceIntegral := a.phaseSpaceIntegral.getD []
    converged := a.converged
    hasHessian := match a.cov with
      | some c => if c.nRows ≠ 0 ∧ c.nCols ≠ 0 then true else a.hasHessian
      | none => false }

/-- fitResult.cc:427-448 `fill(result, fillCovMatrix, fillIntegralMatrices)`: the arguments handed on. -/
def argsOf (s : FitResult) (fillCov fillInt : Bool) : FillArgs :=
  { nmbEvents := s.nmbEvents
    normNmbEvents := s.normNmbEvents
    multibin := s.multibin
    logLikelihood := s.logLikelihood
    rank := s.rank
    nmbProdAmps := s.nmbProdAmps
    prodAmps := s.prodAmps
    prodAmpNames := s.prodAmpNames
    cov := if fillCov && s.covMatrixValid then some s.cov else none
    nmbCovIdx := s.nmbCovIdx
    covIdx := s.covIdx
    normIntegral := if fillInt && decide (s.normIntegral.nRows ≠ 0 ∨ s.normIntegral.nCols ≠ 0) then some s.normIntegral else none
    accNormIntegral :=
      if fillInt && decide (s.accNormIntegral.nRows ≠ 0 ∨ s.accNormIntegral.nCols ≠ 0) then some s.accNormIntegral else none
    phaseSpaceIntegral := if fillInt && decide (s.phaseSpaceIntegral.length ≠ 0) then some s.phaseSpaceIntegral else none
    converged := s.converged
    hasHessian := s.hasHessian }

/-- `fill` with the matrices that `ResizeTo(0, 0)` leaves. -/
noncomputable def fillA (r : FitResult) (a : FillArgs) : FitResult := r.fill a (.empty ℝ) (.empty ℂ)

/-- fitResult.cc:427-448. -/
noncomputable def fillFrom (r s : FitResult) (fillCov fillInt : Bool) : FitResult := r.fillA (s.argsOf fillCov fillInt)

/-- `_waveNames[i]`. -/
def waveName (r : FitResult) (i : ℕ) : Outcome Name :=
  match r.waveNames[i]? with
  | some n => .ok n
  | none => .ub

/-- `_prodAmpNames[i]`. -/
def prodAmpName (r : FitResult) (i : ℕ) : Outcome Name :=
  match r.prodAmpNames[i]? with
  | some n => .ok n
  | none => .ub

/-- fitResult.cc:653-665 `waveIndex`; `none` is -1. -/
def waveIndex (r : FitResult) (n : Name) : Option ℕ :=
  let k := r.waveNames.idxOf n
  if k < r.waveNames.length then some k else none

/-- fitResult.cc:668-680 `prodAmpIndex`; `none` is -1. -/
def prodAmpIndex (r : FitResult) (n : Name) : Option ℕ :=
  let k := r.prodAmpNames.idxOf n
  if k < r.prodAmpNames.length then some k else none

/-- fitResult.h:549-561 `waveIndicesMatchingPattern`. -/
def waveIndicesMatching (rx : Name → Name → Bool) (r : FitResult) (pat : Name) : List ℕ :=
  (List.range r.waveNames.length).filter fun i => (r.waveNames[i]?.map (rx pat)).getD false

/-- fitResult.h:565-577 `prodAmpIndicesMatchingPattern`. -/
def prodAmpIndicesMatching (rx : Name → Name → Bool) (r : FitResult) (pat : Name) : List ℕ :=
  (List.range r.nmbProdAmps).filter fun i => (r.prodAmpNames[i]?.map (rx pat)).getD false

/-- fitResult.h:365-366 `prodAmpIndicesForWave`. -/
def prodAmpIndicesForWave (rx : Name → Name → Bool) (r : FitResult) (w : ℕ) : Outcome (List ℕ) := do
  let n ← r.waveName w
  .ok (r.prodAmpIndicesMatching rx (escape n))

/-- fitResult.h:533-545 `rankOfProdAmp(i)`; used for indices of existing names only. -/
def rankOfProdAmp (r : FitResult) (i : ℕ) : ℤ := rankOfName (r.prodAmpNames.getD i [])

/-- fitResult.h:596-609: for every amplitude of A the first one of B with the same rank. -/
def pairLoop (r : FitResult) (as bs : List ℕ) : List (ℕ × ℕ) :=
  as.flatMap fun a => match bs.find? (fun b => r.rankOfProdAmp a == r.rankOfProdAmp b) with
    | some b => [(a, b)]
    | none => []

/-- fitResult.h:582-611 `prodAmpIndexPairsForWaves`. -/
def prodAmpIndexPairs (rx : Name → Name → Bool) (r : FitResult) (wA wB : ℕ) : Outcome (List (ℕ × ℕ)) := do
  let nA ← r.waveName wA
  let eA ← getReflectivity nA
  let nB ← r.waveName wB
  let eB ← getReflectivity nB
  if eA ≠ eB then .ok []
  else do
    let as ← r.prodAmpIndicesForWave rx wA
    let bs ← r.prodAmpIndicesForWave rx wB
    .ok (r.pairLoop as bs)

/-- fitResult.cc:774-798 `spinDensityMatrixElem`. -/
noncomputable def spinDens (rx : Name → Name → Bool) (r : FitResult) (wA wB : ℕ) : Outcome ℂ := do
  let nA ← r.waveName wA
  let eA ← getReflectivity nA
  let nB ← r.waveName wB
  let eB ← getReflectivity nB
  if eA ≠ eB then .ok 0
  else do
    let pairs ← r.prodAmpIndexPairs rx wA wB
    if pairs.length = 0 then .ok 0
    else
      let s := pairs.foldl (fun s p => s + r.prodAmps p.1 * (starRingEnd ℂ) (r.prodAmps p.2)) (0 : ℂ)
      .ok ((r.normNmbEvents : ℂ) * s)

/-- fitResult.cc:725-730: the parameter index of every row (-1 = none). -/
def parCovIndices (r : FitResult) (idx : List ℕ) : List ℤ := idx.flatMap fun k => [(r.covIdx k).1, (r.covIdx k).2]

/-- fitResult.cc:717-742 `prodAmpCov(indices)`: a `2n × 2n` matrix. -/
noncomputable def prodAmpCov (r : FitResult) (idx : List ℕ) : Mat ℝ :=
  ⟨2 * idx.length, 2 * idx.length, fun row col =>
    if !r.covMatrixValid then 0
    else
      let i := (r.parCovIndices idx).getD row (-1)
      let j := (r.parCovIndices idx).getD col (-1)
      if 0 ≤ i ∧ 0 ≤ j then r.cov.entry i.toNat j.toNat else 0⟩

/-- fitResult.cc:63-77 `matrixRepr`. -/
def matrixRepr (c : ℂ) (i j : ℕ) : ℝ :=
  if i = j then c.re else if i = 0 then -c.im else c.im

/-- `J (C K^T)` for a row `J` and a row `K` of Jacobians with `n` columns (TMatrixT products, fitResult.cc:862-863). -/
noncomputable def sandwich (n : ℕ) (C : ℕ → ℕ → ℝ) (J K : ℕ → ℝ) : ℝ :=
  ∑ i ∈ Finset.range n, J i * ∑ j ∈ Finset.range n, C i j * K j

/-- fitResult.cc:832-855: the Jacobian of the spin-density element, `2 × 4m`; `SetSub(0, 2 i, …)` fills the columns
`2 i` and `2 i + 1`. -/
noncomputable def spinDensJacobian (r : FitResult) (pairs : List (ℕ × ℕ)) (row col : ℕ) : ℝ :=
  let m := pairs.length
  if col < 2 * m then
    matrixRepr ((starRingEnd ℂ) (r.prodAmps (pairs.getD (col / 2) (0, 0)).2)) row (col % 2)
  else
    let M : ℕ → ℝ := fun j => if j = 0 then 1 else -1
    matrixRepr (r.prodAmps (pairs.getD ((col - 2 * m) / 2) (0, 0)).1) row ((col - 2 * m) % 2) * M ((col - 2 * m) % 2)

/-- fitResult.cc:803-866 `spinDensityMatrixElemCov`: a `2 × 2` matrix. -/
noncomputable def spinDensCov (rx : Name → Name → Bool) (r : FitResult) (wA wB : ℕ) : Outcome (ℕ → ℕ → ℝ) :=
  if !r.covMatrixValid then .ok fun _ _ => 0
  else do
    let nA ← r.waveName wA
    let eA ← getReflectivity nA
    let nB ← r.waveName wB
    let eB ← getReflectivity nB
    if eA ≠ eB then .ok fun _ _ => 0
    else do
      let pairs ← r.prodAmpIndexPairs rx wA wB
      if pairs.length = 0 then .ok fun _ _ => 0
      else
        let C := r.prodAmpCov (pairs.map Prod.fst ++ pairs.map Prod.snd)
        let J := r.spinDensJacobian pairs
        .ok fun k l => (r.normNmbEvents : ℝ) ^ 2 * sandwich C.nCols C.entry (J k) (J l)

/-- fitResult.h:616-631 `realValVariance`; `j0`, `j1` is the `1 × 2` Jacobian. -/
noncomputable def realValVariance (rx : Name → Name → Bool) (r : FitResult) (wA wB : ℕ) (j0 j1 : ℝ) : Outcome ℝ :=
  if !r.covMatrixValid then .ok 0
  else do
    let C ← r.spinDensCov rx wA wB
    let J : ℕ → ℝ := fun k => if k = 0 then j0 else j1
    .ok (sandwich 2 C J J)

/-- `TMath::RadToDeg()`. -/
noncomputable def radToDeg : ℝ := 180 / Real.pi

/-- fitResult.cc:869-876 `phase`. -/
noncomputable def phase (rx : Name → Name → Bool) (r : FitResult) (wA wB : ℕ) : Outcome ℝ :=
  if wA = wB then .ok 0
  else do
    let s ← r.spinDens rx wA wB
    .ok (Complex.arg s * radToDeg)

open Classical in
/-- fitResult.cc:880-903 `phaseErr`. -/
noncomputable def phaseErr (rx : Name → Name → Bool) (r : FitResult) (wA wB : ℕ) : Outcome ℝ :=
  if !r.covMatrixValid then .ok 0
  else if wA = wB then .ok 0
  else do
    let s ← r.spinDens rx wA wB
    let v ← r.realValVariance rx wA wB (if Complex.normSq s ≠ 0 then -s.im / Complex.normSq s else 0)
      (if Complex.normSq s ≠ 0 then s.re / Complex.normSq s else 0)
    .ok (Real.sqrt v * radToDeg)

/-- fitResult.cc:907-915 `coherence` (0/0 is 0 here, NaN in C++). -/
noncomputable def coherence (rx : Name → Name → Bool) (r : FitResult) (wA wB : ℕ) : Outcome ℝ := do
  let aa ← r.spinDens rx wA wA
  let bb ← r.spinDens rx wB wB
  let ab ← r.spinDens rx wA wB
  .ok (Real.sqrt (Complex.normSq ab / (aa.re * bb.re)))

/-- the amplitude with the same rank (fitResult.cc:952-960, 973-981), 0 if there is none. -/
noncomputable def partner (r : FitResult) (k : ℕ) (others : List ℕ) : ℂ :=
  match others.find? (fun j => r.rankOfProdAmp j == r.rankOfProdAmp k) with
  | some j => r.prodAmps j
  | none => 0

open Classical in
/-- fitResult.cc:919-993 `coherenceErr`. -/
noncomputable def coherenceErr (rx : Name → Name → Bool) (r : FitResult) (wA wB : ℕ) : Outcome ℝ :=
  if !r.covMatrixValid then .ok 0
  else do
    let as ← r.prodAmpIndicesForWave rx wA
    let bs ← r.prodAmpIndicesForWave rx wB
    if as.length = 0 ∨ bs.length = 0 then .ok 0
    else do
      let aa ← r.spinDens rx wA wA
      let bb ← r.spinDens rx wB wB
      let ab ← r.spinDens rx wA wB
      let coh := Real.sqrt (Complex.normSq ab / (aa.re * bb.re))
      if coh = 0 then .ok 0
      else
        let J : ℕ → ℝ := fun col =>
          (if col < 2 * as.length then
            let k := as.getD (col / 2) 0
            let vA := r.prodAmps k
            let vB := r.partner k bs
            if col % 2 = 0 then ab.re * vB.re - ab.im * vB.im - (Complex.normSq ab / aa.re) * vA.re
            else ab.re * vB.im + ab.im * vB.re - (Complex.normSq ab / aa.re) * vA.im
          else
            let c := col - 2 * as.length
            let k := bs.getD (c / 2) 0
            let vB := r.prodAmps k
            let vA := r.partner k as
            if c % 2 = 0 then ab.re * vA.re + ab.im * vA.im - (Complex.normSq ab / bb.re) * vB.re
            else ab.re * vA.im - ab.im * vA.re - (Complex.normSq ab / bb.re) * vB.im) * (1 / (coh * aa.re * bb.re))
        let C := r.prodAmpCov (as ++ bs)
        .ok (Real.sqrt (sandwich C.nCols C.entry J J))

/-- fitResult.cc:996-1003 `overlap`. -/
noncomputable def overlap (rx : Name → Name → Bool) (r : FitResult) (wA wB : ℕ) : Outcome ℝ := do
  let s ← r.spinDens rx wA wB
  .ok (2 * (s * r.normIntegral.entry wA wB).re)

/-- fitResult.cc:1007-1022 `overlapErr`. -/
noncomputable def overlapErr (rx : Name → Name → Bool) (r : FitResult) (wA wB : ℕ) : Outcome ℝ :=
  if !r.covMatrixValid then .ok 0
  else do
    let n := r.normIntegral.entry wA wB
    let v ← r.realValVariance rx wA wB (2 * n.re) (-2 * n.im)
    .ok (Real.sqrt v)

/-- fitResult.h:315 `intensity(waveIndex)`. -/
noncomputable def intensity (rx : Name → Name → Bool) (r : FitResult) (w : ℕ) : Outcome ℝ := do
  let s ← r.spinDens rx w w
  .ok (s.re * (r.normIntegral.entry w w).re)

/-- fitResult.h:317 `intensityErr(waveIndex)`. -/
noncomputable def intensityErr (rx : Name → Name → Bool) (r : FitResult) (w : ℕ) : Outcome ℝ := do
  let C ← r.spinDensCov rx w w
  .ok (Real.sqrt (C 0 0) * (r.normIntegral.entry w w).re)

/-- the double loop fitResult.cc:1040-1046, over positions `0 … n-1` of `ws`. -/
noncomputable def intensityLoop (rx : Name → Name → Bool) (r : FitResult) (ws : List ℕ) : Outcome ℝ :=
  (List.range ws.length).foldlM (fun s i => do
    let x ← r.intensity rx (ws.getD i 0)
    (List.range i).foldlM (fun s j => do
      let o ← r.overlap rx (ws.getD i 0) (ws.getD j 0)
      .ok (s + o)) (s + x)) 0

/-- fitResult.cc:1028-1048 `intensity(pattern)`. -/
noncomputable def intensityOf (rx : Name → Name → Bool) (r : FitResult) (pat : Name) : Outcome ℝ :=
  match r.waveIndicesMatching rx pat with
  | [] => .ok 0
  | [w] => r.intensity rx w
  | ws => r.intensityLoop rx ws

/-- fitResult.cc:747-768 `normIntegralForProdAmp`. -/
noncomputable def normIntegralForProdAmp (r : FitResult) (a b : ℕ) : Outcome ℂ := do
  let nA ← r.prodAmpName a
  let nB ← r.prodAmpName b
  if hasSub "flat".toList nA && hasSub "flat".toList nB then .ok 1
  else if hasSub "flat".toList nA || hasSub "flat".toList nB then .ok 0
  else
    match r.normIntIndexMap a, r.normIntIndexMap b with
    | some i, some j => .ok (r.normIntegral.entry i j)
    | _, _ => .ok 0

/-- the inner loop fitResult.cc:1088-1094: `sum_j A_jr Norm_ji` for amplitude `i`. -/
noncomputable def ampNorm (r : FitResult) (idx : List ℕ) (i : ℕ) : Outcome ℂ := do
  let ni ← r.prodAmpName i
  let refl ← getReflectivity (waveNameOf ni)
  idx.foldlM (fun s j => do
    let nj ← r.prodAmpName j
    let e ← getReflectivity (waveNameOf nj)
    if e ≠ refl then .ok s
    else if r.rankOfProdAmp j ≠ r.rankOfProdAmp i then .ok s
    else do
      let z ← r.normIntegralForProdAmp j i
      .ok (s + r.prodAmps j * z)) 0

/-- the loop fitResult.cc:1070-1074. -/
def prodAmpIndicesForWaves (rx : Name → Name → Bool) (r : FitResult) (ws : List ℕ) : Outcome (List ℕ) :=
  ws.foldlM (fun acc w => do
    let l ← r.prodAmpIndicesForWave rx w
    .ok (acc ++ l)) []

/-- fitResult.cc:1054-1105 `intensityErr(pattern)`. -/
noncomputable def intensityErrOf (rx : Name → Name → Bool) (r : FitResult) (pat : Name) : Outcome ℝ :=
  if !r.covMatrixValid then .ok 0
  else
    match r.waveIndicesMatching rx pat with
    | [] => .ok 0
    | [w] => r.intensityErr rx w
    | ws => do
      let idx ← r.prodAmpIndicesForWaves rx ws
      let norms ← idx.mapM fun i => r.ampNorm idx i
      let J : ℕ → ℝ := fun col =>
        2 * (if col % 2 = 0 then (norms.getD (col / 2) 0).re else (norms.getD (col / 2) 0).im)
      let C := r.prodAmpCov idx
      .ok ((r.normNmbEvents : ℝ) * Real.sqrt (sandwich C.nCols C.entry J J))

/-- fitResult.cc:684-704 `fitParameter`. -/
noncomputable def fitParameter (r : FitResult) (parName : Name) : ℝ :=
  let realPart := hasSub "RE".toList parName || hasSub "flat".toList parName
  let name := if realPart then replaceAll "_RE".toList [] parName else replaceAll "_IM".toList [] parName
  match r.prodAmpIndex name with
  | some i => if realPart then (r.prodAmps i).re else (r.prodAmps i).im
  | none => 0

end FitResult

end Rpwa.Fit
