import Verif.Model.Basic
import Mathlib.Analysis.SpecialFunctions.Pow.Real
import Mathlib.Analysis.Complex.Basic
/-!
# Covariance matrices of the data of a resonance fit

Models `prepareProductionAmplitudes` and `prepareSpinDensityMatrices` of resonanceFit/resonanceFitReadData.cc.  Simplifications: a matrix is its entry
function, writes to it are collected in a list in the order of the loops and applied; numbers are exact; `Invert` is a function of the size and the
matrix; the arrays of bins and mass bins are functions. -/
namespace Rpwa.FitCov

abbrev Mat (K : Type) := ℕ → ℕ → K

/-- `function::useCovarianceMatrix` (function.h:56-61); the default value is replaced by one of these (resonanceFitExe.cc:195-202). -/
inductive UseCov where
  | diagonal
  | complexDiagonal
  | full
  deriving DecidableEq

/-- a sequence of writes `(row, column, value)`. -/
def applyWrites {K : Type} (M : Mat K) (ws : List (ℕ × ℕ × K)) : Mat K :=
  ws.foldl (fun M w r c => if r = w.1 ∧ c = w.2.1 then w.2.2 else M r c) M

/-- a matrix of zeros. -/
def zeros {K : Type} [Zero K] : Mat K := fun _ _ => 0

/-- resonanceFitReadData.cc:145-149 and alike: a loop over `todo` waves from `w` on that leaves out the waves of a sorted list; the waves with
the number of waves that were left out so far. -/
def visit (zero : List ℕ) : ℕ → ℕ → ℕ → List (ℕ × ℕ)
  | 0, _, _ => []
  | t + 1, w, s => if zero[s]? = some w then visit zero t (w + 1) (s + 1) else (w, s) :: visit zero t (w + 1) s

/-- resonanceFitReadData.cc:374-443, :453-511: the counter of rows. -/
def withRow {A : Type} (width : A → ℕ) : ℕ → List A → List (A × ℕ)
  | _, [] => []
  | r, p :: ps => (p, r) :: withRow width (r + width p) ps

/-- resonanceFitReadData.cc:87-117, :344-366: the waves that are left out, none if a wave is zero in its range. -/
def leftOut (n : ℕ) (isZero inRange : ℕ → Bool) : Option (List ℕ) :=
  (List.range n).foldlM (fun zs w => if isZero w && inRange w then none else some (if isZero w || !inRange w then zs ++ [w] else zs)) []

/-! ### spin-density matrices -/

/-- resonanceFitReadData.cc:385, :399, :464, :478: the row of a pair of waves (real part; the imaginary part follows). -/
def covIdx (n i j : ℕ) : ℕ := n * (n + 1) - (n - i) * (n - i + 1) + 2 * (j - i)

/-- resonanceFitReadData.cc:347. -/
def covIdxSym (n i j : ℕ) : ℕ :=
  n * (n + 1) - (if j ≥ i then (n - i) * (n - i + 1) - 2 * (j - i) else (n - j) * (n - j + 1) - 2 * (i - j))

/-- resonanceFitReadData.cc:345-355: everything of a wave is zero. -/
def sdZero {K : Type} [Zero K] [DecidableEq K] (n : ℕ) (rho : ℕ → ℕ → K × K) (cov : Mat K) (w : ℕ) : Bool :=
  (List.range n).all fun j =>
    decide ((rho w j).1 = 0) && decide ((rho w j).2 = 0) &&
      decide (cov (covIdxSym n w j) (covIdxSym n w j) = 0) && decide (cov (covIdxSym n w j) (covIdxSym n w j + 1) = 0) &&
      decide (cov (covIdxSym n w j + 1) (covIdxSym n w j) = 0) && decide (cov (covIdxSym n w j + 1) (covIdxSym n w j + 1) = 0)

/-- resonanceFitReadData.cc:375-384, :388-398: the pairs of waves. -/
def sdPairs (n : ℕ) (zero : List ℕ) : List (ℕ × ℕ) :=
  (visit zero n 0 0).flatMap fun a => (visit zero (n - a.1) a.1 a.2).map fun b => (a.1, b.1)

/-- resonanceFitReadData.cc:429-442: rows of a pair: diagonal elements are real. -/
def sdWidth (p : ℕ × ℕ) : ℕ := if p.1 = p.2 then 1 else 2

/-- resonanceFitReadData.cc:399-427: writes to the reduced covariance matrix for two pairs with their rows. -/
def sdFillOne {K : Type} (uc : UseCov) (n : ℕ) (cov : Mat K) (i j : (ℕ × ℕ) × ℕ) : List (ℕ × ℕ × K) :=
  let idx := covIdx n i.1.1 i.1.2
  let jdx := covIdx n j.1.1 j.1.2
  if i.1.1 = i.1.2 then
    if j.1.1 = j.1.2 then
      if (i.1.1 = j.1.1 ∧ i.1.2 = j.1.2) ∨ uc = .full then [(i.2, j.2, cov idx jdx)] else []
    else
      if uc = .full then [(i.2, j.2, cov idx jdx), (i.2, j.2 + 1, cov idx (jdx + 1))] else []
  else
    if j.1.1 = j.1.2 then
      if uc = .full then [(i.2, j.2, cov idx jdx), (i.2 + 1, j.2, cov (idx + 1) jdx)] else []
    else
      if (i.1.1 = j.1.1 ∧ i.1.2 = j.1.2) ∨ uc = .full then
        [(i.2, j.2, cov idx jdx), (i.2 + 1, j.2 + 1, cov (idx + 1) (jdx + 1))] ++
          if uc ≠ .diagonal then [(i.2, j.2 + 1, cov idx (jdx + 1)), (i.2 + 1, j.2, cov (idx + 1) jdx)] else []
      else []

/-- resonanceFitReadData.cc:373-445: the reduced covariance matrix. -/
def sdFill {K : Type} (uc : UseCov) (n : ℕ) (cov : Mat K) (es : List ((ℕ × ℕ) × ℕ)) : List (ℕ × ℕ × K) :=
  es.flatMap fun i => es.flatMap fun j => sdFillOne uc n cov i j

/-- resonanceFitReadData.cc:478-497: writes back into the full matrix for two pairs with their rows. -/
def sdBackOne {K : Type} (n : ℕ) (red : Mat K) (i j : (ℕ × ℕ) × ℕ) : List (ℕ × ℕ × K) :=
  let idx := covIdx n i.1.1 i.1.2
  let jdx := covIdx n j.1.1 j.1.2
  if i.1.1 = i.1.2 then
    if j.1.1 = j.1.2 then [(idx, jdx, red i.2 j.2)]
    else [(idx, jdx, red i.2 j.2), (idx, jdx + 1, red i.2 (j.2 + 1))]
  else
    if j.1.1 = j.1.2 then [(idx, jdx, red i.2 j.2), (idx + 1, jdx, red (i.2 + 1) j.2)]
    else [(idx, jdx, red i.2 j.2), (idx, jdx + 1, red i.2 (j.2 + 1)), (idx + 1, jdx, red (i.2 + 1) j.2), (idx + 1, jdx + 1, red (i.2 + 1) (j.2 + 1))]

/-- resonanceFitReadData.cc:450-512: back into the full matrix. -/
def sdBack {K : Type} (n : ℕ) (red : Mat K) (es : List ((ℕ × ℕ) × ℕ)) : List (ℕ × ℕ × K) :=
  es.flatMap fun i => es.flatMap fun j => sdBackOne n red i j

/-- resonanceFitReadData.cc:341-514: one mass bin. -/
def sdPrepare {K : Type} [Zero K] [DecidableEq K] (inv : ℕ → Mat K → Mat K) (uc : UseCov) (n : ℕ) (inRange : ℕ → Bool) (rho : ℕ → ℕ → K × K)
    (cov : Mat K) : Option (Mat K) :=
  match leftOut n (sdZero n rho cov) inRange with
  | none => none
  | some zero =>
    let es := withRow sdWidth 0 (sdPairs n zero)
    let red := inv ((n - zero.length) * (n - zero.length)) (applyWrites zeros (sdFill uc n cov es))
    some (applyWrites zeros (sdBack n red es))

/-- resonanceFitReadData.cc:69-75, :332-338: the range of mass bins that are used. -/
def massRange (maxMass n : ℕ) (limits : ℕ → ℕ × ℕ) : ℕ × ℕ :=
  (List.range n).foldl (fun r w => (min r.1 (limits w).1, max r.2 (limits w).2)) (maxMass, 0)

/-- resonanceFitReadData.cc:65-314, :331-523, one bin: matrices of the mass bins that are used (`none` is a matrix of size zero); nothing if a wave is zero
in its range. -/
def prepareBin {A : Type} (maxMass n : ℕ) (limits : ℕ → ℕ × ℕ) (prepare : ℕ → (ℕ → Bool) → Option A) : Option (List (Option A)) :=
  let r := massRange maxMass n limits
  (List.range maxMass).mapM fun m =>
    if r.1 ≤ m ∧ m ≤ r.2 then (prepare m fun w => decide ((limits w).1 ≤ m) && decide (m ≤ (limits w).2)).map some else some none

/-- resonanceFitReadData.cc:77-305, :340-513: the loop over the mass bins that are used; it ends at the first one that is refused (`false`). -/
def massLoop {A : Type} (prepare : ℕ → Option A) : List ℕ → List (Option A) → List (Option A) × Bool
  | [], st => (st, true)
  | m :: ms, st => match prepare m with
    | none => (st, false)
    | some W => massLoop prepare ms (st.set m (some W))

/-- resonanceFitReadData.cc:307-313, :516-522: matrices of mass bins that are not used get size zero. -/
def dropUnused {A : Type} (r : ℕ × ℕ) (st : List (Option A)) : List (Option A) :=
  st.mapIdx fun m v => if r.1 ≤ m ∧ m ≤ r.2 then v else none

/-- resonanceFitReadData.cc:65-314, :331-523, one bin with the matrices that were read. -/
def runBin {A : Type} (n : ℕ) (limits : ℕ → ℕ × ℕ) (prepare : ℕ → (ℕ → Bool) → Option A) (st : List (Option A)) : List (Option A) × Bool :=
  let r := massRange st.length n limits
  let p := massLoop (fun m => prepare m fun w => decide ((limits w).1 ≤ m) && decide (m ≤ (limits w).2))
    (List.range' r.1 (r.2 + 1 - r.1)) st
  if p.2 then (dropUnused r p.1, true) else p

/-- what is needed of one bin. -/
structure BinIn (A : Type) where
  n : ℕ
  limits : ℕ → ℕ × ℕ
  prepare : ℕ → (ℕ → Bool) → Option A
  read : List (Option A)

/-- resonanceFitReadData.cc:65, :331: the loop over the bins; `return false` ends it. The caller (`readData`, :1395-1407) does not look at the
returned value: the matrices are used as they are. -/
def runBins {A : Type} : List (BinIn A) → List (List (Option A)) × Bool
  | [] => ([], true)
  | b :: bs =>
    let p := runBin b.n b.limits b.prepare b.read
    if p.2 then (p.1 :: (runBins bs).1, (runBins bs).2) else (p.1 :: bs.map (·.read), false)

/-- resonanceFitReadData.cc:321-527 `prepareSpinDensityMatrices` for one bin. -/
def prepareSpinDensityMatrices {K : Type} [Zero K] [DecidableEq K] (inv : ℕ → Mat K → Mat K) (uc : UseCov) (maxMass n : ℕ) (limits : ℕ → ℕ × ℕ)
    (rho : ℕ → ℕ → ℕ → K × K) (cov : ℕ → Mat K) : Option (List (Option (Mat K))) :=
  prepareBin maxMass n limits fun m inRange => sdPrepare inv uc n inRange (rho m) (cov m)

/-! ### production amplitudes -/

section

open Classical

/-- resonanceFitReadData.cc:88-94. -/
noncomputable def paZero (amp : ℕ → ℂ) (cov : Mat ℝ) (w : ℕ) : Bool :=
  decide ((amp w).re = 0) && decide ((amp w).im = 0) && decide (cov (2 * w) (2 * w) = 0) && decide (cov (2 * w) (2 * w + 1) = 0) &&
    decide (cov (2 * w + 1) (2 * w) = 0) && decide (cov (2 * w + 1) (2 * w + 1) = 0)

/-- resonanceFitReadData.cc:96-100. -/
noncomputable def paReal (amp : ℕ → ℂ) (cov : Mat ℝ) (w : ℕ) : Bool :=
  decide ((amp w).im = 0) && decide (cov (2 * w) (2 * w + 1) = 0) && decide (cov (2 * w + 1) (2 * w) = 0) && decide (cov (2 * w + 1) (2 * w + 1) = 0)

/-- resonanceFitReadData.cc:157-158 and alike: the row of a wave; its imaginary part follows unless it is the anchor wave. -/
def paRow (anchor : ℕ) (skipAnchor : Bool) (a : ℕ × ℕ) : ℕ := 2 * (a.1 - a.2) - if a.1 > anchor ∧ skipAnchor = false then 1 else 0

/-- resonanceFitReadData.cc:157-169: writes for two waves, without the imaginary part of the anchor wave. -/
noncomputable def paFillOne (anchor : ℕ) (skipAnchor : Bool) (cov : Mat ℝ) (i j : ℕ × ℕ) : List (ℕ × ℕ × ℝ) :=
  let r := paRow anchor skipAnchor i
  let c := paRow anchor skipAnchor j
  [(r, c, cov (2 * i.1) (2 * j.1))] ++ (if j.1 ≠ anchor then [(r, c + 1, cov (2 * i.1) (2 * j.1 + 1))] else []) ++
    (if i.1 ≠ anchor then [(r + 1, c, cov (2 * i.1 + 1) (2 * j.1))] else []) ++
    (if i.1 ≠ anchor ∧ j.1 ≠ anchor then [(r + 1, c + 1, cov (2 * i.1 + 1) (2 * j.1 + 1))] else [])

/-- resonanceFitReadData.cc:144-172: parts of the covariance matrix without the imaginary part of the anchor wave. -/
noncomputable def paFill (anchor : ℕ) (skipAnchor : Bool) (cov : Mat ℝ) (ws : List (ℕ × ℕ)) : List (ℕ × ℕ × ℝ) :=
  ws.flatMap fun i => ws.flatMap fun j => paFillOne anchor skipAnchor cov i j

/-- resonanceFitReadData.cc:191-194. -/
noncomputable def paFillAllOne (cov : Mat ℝ) (i j : ℕ × ℕ) : List (ℕ × ℕ × ℝ) :=
  [(2 * (i.1 - i.2), 2 * (j.1 - j.2), cov (2 * i.1) (2 * j.1)), (2 * (i.1 - i.2), 2 * (j.1 - j.2) + 1, cov (2 * i.1) (2 * j.1 + 1)),
    (2 * (i.1 - i.2) + 1, 2 * (j.1 - j.2), cov (2 * i.1 + 1) (2 * j.1)), (2 * (i.1 - i.2) + 1, 2 * (j.1 - j.2) + 1, cov (2 * i.1 + 1) (2 * j.1 + 1))]

/-- resonanceFitReadData.cc:179-194: the covariance matrix with the imaginary part of the anchor wave. -/
noncomputable def paFillAll (cov : Mat ℝ) (ws : List (ℕ × ℕ)) : List (ℕ × ℕ × ℝ) :=
  ws.flatMap fun i => ws.flatMap fun j => paFillAllOne cov i j

/-- resonanceFitReadData.cc:196-217: derivatives of the rotated amplitudes for two waves. -/
noncomputable def paJacobianOne (anchor : ℕ) (skipAnchor : Bool) (amp : ℕ → ℂ) (i j : ℕ × ℕ) : List (ℕ × ℕ × ℝ) :=
  let n := ‖amp anchor‖
  let xa1 := (amp anchor).re
  let xa2 := (amp anchor).im
  let xi1 := (amp i.1).re
  let xi2 := (amp i.1).im
  let r := paRow anchor skipAnchor i
  let c := 2 * (j.1 - j.2)
  if i.1 = anchor ∧ j.1 = anchor then [(r, c, xa1 / n), (r, c + 1, xa2 / n)]
  else if j.1 = anchor then
    [(r, c, xi1 / n - xa1 * (xi1 * xa1 + xi2 * xa2) / n ^ 3), (r, c + 1, xi2 / n - xa2 * (xi2 * xa2 + xi1 * xa1) / n ^ 3),
      (r + 1, c, xi2 / n - xa1 * (xi2 * xa1 - xi1 * xa2) / n ^ 3), (r + 1, c + 1, -xi1 / n - xa2 * (xi2 * xa1 - xi1 * xa2) / n ^ 3)]
  else if i.1 = j.1 then
    [(r, c, xa1 / n), (r, c + 1, xa2 / n), (r + 1, c, -xa2 / n), (r + 1, c + 1, xa1 / n)]
  else []

/-- resonanceFitReadData.cc:177-219: the matrix of the derivatives. -/
noncomputable def paJacobian (anchor : ℕ) (skipAnchor : Bool) (amp : ℕ → ℂ) (ws : List (ℕ × ℕ)) : List (ℕ × ℕ × ℝ) :=
  ws.flatMap fun i => ws.flatMap fun j => paJacobianOne anchor skipAnchor amp i j

/-- a product of matrices with `s` columns and rows. -/
def mul {K : Type} [AddCommMonoid K] [Mul K] (s : ℕ) (A B : Mat K) : Mat K := fun r c => ((List.range s).map fun k => A r k * B k c).sum

/-- resonanceFitReadData.cc:246-269: writes of zeros for two waves. -/
noncomputable def paMaskOne (uc : UseCov) (anchor : ℕ) (skipAnchor : Bool) (i j : ℕ × ℕ) : List (ℕ × ℕ × ℝ) :=
  let r := paRow anchor skipAnchor i
  let c := paRow anchor skipAnchor j
  if i.1 = j.1 then
    if uc = .diagonal then (if j.1 ≠ anchor then [(r, c + 1, 0)] else []) ++ (if i.1 ≠ anchor then [(r + 1, c, 0)] else []) else []
  else
    [(r, c, 0)] ++ (if j.1 ≠ anchor then [(r, c + 1, 0)] else []) ++ (if i.1 ≠ anchor then [(r + 1, c, 0)] else []) ++
      (if i.1 ≠ anchor ∧ j.1 ≠ anchor then [(r + 1, c + 1, 0)] else [])

/-- resonanceFitReadData.cc:232-272: parts that are not used are set to zero. -/
noncomputable def paMask (uc : UseCov) (anchor : ℕ) (skipAnchor : Bool) (ws : List (ℕ × ℕ)) : List (ℕ × ℕ × ℝ) :=
  if uc ≠ .full then ws.flatMap fun i => ws.flatMap fun j => paMaskOne uc anchor skipAnchor i j else []

/-- resonanceFitReadData.cc:276-304: back into the full matrix for two waves. -/
noncomputable def paBackOne (anchor : ℕ) (skipAnchor : Bool) (red : Mat ℝ) (i j : ℕ × ℕ) : List (ℕ × ℕ × ℝ) :=
  let r := paRow anchor skipAnchor i
  let c := paRow anchor skipAnchor j
  [(2 * i.1, 2 * j.1, red r c)] ++ (if j.1 ≠ anchor then [(2 * i.1, 2 * j.1 + 1, red r (c + 1))] else []) ++
    (if i.1 ≠ anchor then [(2 * i.1 + 1, 2 * j.1, red (r + 1) c)] else []) ++
    (if i.1 ≠ anchor ∧ j.1 ≠ anchor then [(2 * i.1 + 1, 2 * j.1 + 1, red (r + 1) (c + 1))] else [])

/-- resonanceFitReadData.cc:276-304: back into the full matrix. -/
noncomputable def paBack (anchor : ℕ) (skipAnchor : Bool) (red : Mat ℝ) (ws : List (ℕ × ℕ)) : List (ℕ × ℕ × ℝ) :=
  ws.flatMap fun i => ws.flatMap fun j => paBackOne anchor skipAnchor red i j

/-- resonanceFitReadData.cc:139-224: the covariance matrix that is inverted, all parts. -/
noncomputable def paStart (anchor : ℕ) (skipAnchor realAnchor : Bool) (kept : ℕ) (amp : ℕ → ℂ) (cov : Mat ℝ) (ws : List (ℕ × ℕ)) : Mat ℝ :=
  if realAnchor then applyWrites zeros (paFill anchor skipAnchor cov ws)
  else
    mul (2 * kept) (mul (2 * kept) (applyWrites zeros (paJacobian anchor skipAnchor amp ws)) (applyWrites zeros (paFillAll cov ws)))
      fun a b => applyWrites zeros (paJacobian anchor skipAnchor amp ws) b a

/-- resonanceFitReadData.cc:77-304: one mass bin: amplitudes and matrix. -/
noncomputable def paPrepare (inv : ℕ → Mat ℝ → Mat ℝ) (uc : UseCov) (n anchor : ℕ) (inRange : ℕ → Bool) (amp : ℕ → ℂ) (cov : Mat ℝ) :
    Option ((ℕ → ℂ) × Mat ℝ) :=
  match leftOut n (paZero amp cov) inRange with
  | none => none
  | some zero =>
    if (decide (anchor < n) && paZero amp cov anchor) ∨ ((List.range n).any fun w => decide (w ≠ anchor) && !paZero amp cov w && paReal amp cov w) then none
    else
      let skipAnchor := decide (anchor ∈ zero)
      let ws := visit zero n 0 0
      let size := 2 * (n - zero.length) - if skipAnchor then 0 else 1
      let realAnchor := !decide (anchor < n) || paReal amp cov anchor
      let start := paStart anchor skipAnchor realAnchor (n - zero.length) amp cov ws
      let red := inv size (applyWrites start (paMask uc anchor skipAnchor ws))
      some (if realAnchor then amp else fun w => amp w / (amp anchor / ‖amp anchor‖), applyWrites zeros (paBack anchor skipAnchor red ws))

/-- resonanceFitReadData.cc:54-318 `prepareProductionAmplitudes` for one bin. -/
noncomputable def prepareProductionAmplitudes (inv : ℕ → Mat ℝ → Mat ℝ) (uc : UseCov) (maxMass n anchor : ℕ) (limits : ℕ → ℕ × ℕ) (amp : ℕ → ℕ → ℂ)
    (cov : ℕ → Mat ℝ) : Option (List (Option ((ℕ → ℂ) × Mat ℝ))) :=
  prepareBin maxMass n limits fun m inRange => paPrepare inv uc n anchor inRange (amp m) (cov m)

end

end Rpwa.FitCov
