import Verif.Model.Likelihood
import Mathlib.Analysis.SpecialFunctions.Sqrt
/-!
# partialWaveFit/pwaLikelihood.cc: derivative cache, sign convention, covariance matrix, normalisation

Same conventions as `Model/Likelihood.lean`. -/
namespace Rpwa.Lik

open Complex

/-! ## derivative cache (C26) -/

/-- the object with its two mutable caches (pwaLikelihood.h:292-293, 311-312); prior type and width live in `lik`. -/
structure DerivState where
  lik : LikData
  parCache : ℕ → ℝ
  derivCache : ℕ → ℝ

namespace DerivState

/-- after `init` (pwaLikelihood.cc:1519-1520): caches filled with 0. -/
def start (L : LikData) : DerivState := ⟨L, fun _ => 0, fun _ => 0⟩

/-- pwaLikelihood.cc:513-515, 188-189: `for i < nmbPars: parCache[i] = par[i]`. -/
def storePar (d : ParData) (par cache : ℕ → ℝ) : ℕ → ℝ := fun i => if i < d.nmbPars then par i else cache i

/-- pwaLikelihood.cc:483-637 `Gradient` with its caches: new state and output array. -/
noncomputable def gradient (d : ParData) (s : DerivState) (par out : ℕ → ℝ) : DerivState × (ℕ → ℝ) :=
  (⟨s.lik, storePar d par s.parCache, s.lik.gradient d par s.derivCache⟩, s.lik.gradient d par out)

/-- pwaLikelihood.cc:171-313 `FdF` with its caches: new state, function value and output array. -/
noncomputable def fdf (d : ParData) (s : DerivState) (par out : ℕ → ℝ) : DerivState × ℝ × (ℕ → ℝ) :=
  (⟨s.lik, storePar d par s.parCache, (s.lik.fdf d par s.derivCache).2⟩, s.lik.fdf d par out)

open Classical in
/-- pwaLikelihood.cc:438-472 `DoDerivative`; `junk` is the uninitialised local array. -/
noncomputable def doDerivative (d : ParData) (s : DerivState) (par : ℕ → ℝ) (k : ℕ) (junk : ℕ → ℝ) : DerivState × ℝ :=
  if (List.range d.nmbPars).all (fun i => decide (s.parCache i = par i)) then (s, s.derivCache k)
  else
    let r := s.fdf d par junk
    (r.1, r.2.2 k)

/-- the calls a user can make. -/
inductive Op where
  | doEval (par : ℕ → ℝ)
  | doDerivative (par : ℕ → ℝ) (k : ℕ) (junk : ℕ → ℝ)
  | gradient (par out : ℕ → ℝ)
  | fdf (par out : ℕ → ℝ)
  | setPriorType (p : Prior)
  | setCauchyWidth (w : ℝ)

/-- effect of a call on the object; `DoEval` has none (pwaLikelihood.cc:318-435), the setters are pwaLikelihood.h:212, 214. -/
noncomputable def step (d : ParData) (s : DerivState) : Op → DerivState
  | .doEval _ => s
  | .doDerivative par k junk => (s.doDerivative d par k junk).1
  | .gradient par out => (s.gradient d par out).1
  | .fdf par out => (s.fdf d par out).1
  | .setPriorType p => { s with lik := { s.lik with prior := p } }
  | .setCauchyWidth w => { s with lik := { s.lik with cauchyWidth := w } }

end DerivState

/-! ## sign convention (C27) -/

/-- body of the loop pwaLikelihood.cc:999-1007 for one rank and reflectivity; the array has shape `[rank][2][max(nW0, nW1)]`
(pwaLikelihood.cc:1688), so that `prodAmps[iRank][iRefl][iRank]` does not exist if the rank index reaches the number of waves. -/
noncomputable def correctStep (nW : ℕ → ℕ) (a : Amps) (re : ℕ × ℕ) : Outcome Amps :=
  if re.1 < max (nW 0) (nW 1) then
    if (a (re.1, re.2, re.1)).re < 0 ∧ (a (re.1, re.2, re.1)).im = 0 then
      .ok (fun s => if s.1 = re.1 ∧ s.2.1 = re.2 ∧ s.2.2 < nW re.2 then -a s else a s)
    else .ok a
  else .ub

/-- pwaLikelihood.cc:984-1013 `CorrectParamSigns`; the result vector has `nmbPars` elements, initially 0. -/
noncomputable def correctParamSigns (rank : ℕ) (nW : ℕ → ℕ) (d : ParData) (par : ℕ → ℝ) : Outcome (ℕ → ℝ) := do
  let p := copyFromParArray rank nW par
  let flat := if p.2 < 0 then p.2 * (-1) else p.2
  let blocks := (List.range rank).flatMap fun r => (List.range 2).map fun e => (r, e)
  let a ← blocks.foldlM (correctStep nW) p.1
  .ok (copyToParArray rank nW d a flat (fun _ => 0))

/-! ## covariance matrix (C28) -/

/-- rows (columns) visited by the loops with `iSkip`: pairs (index in the reduced matrix, index in the full matrix);
pwaLikelihood.cc:936-943.  `i - iSkip` where `iSkip` counts the fixed parameters before `i`. -/
def reducedRows (d : ParData) : List (ℕ × ℕ) :=
  ((List.range d.nmbPars).foldl (fun (st : ℕ × List (ℕ × ℕ)) i =>
    if LikData.fixedAt d i then (st.1 + 1, st.2) else (st.1, st.2 ++ [(i - st.1, i)])) (0, [])).2

/-- first loop, pwaLikelihood.cc:934-952: `hessianRed[i - iSkip][j - jSkip] = hessian[i][j]` on a zero matrix of size
`nmbPars - nmbParsFixed`; an index outside the matrix is `ub`. -/
noncomputable def reduceMatrix (d : ParData) (H : ℕ → ℕ → ℝ) : Outcome (ℕ → ℕ → ℝ) :=
  (reducedRows d).foldlM (fun M ri => (reducedRows d).foldlM (fun M cj =>
    if ri.1 < d.nmbPars - d.nmbParsFixed ∧ cj.1 < d.nmbPars - d.nmbParsFixed then
      .ok (LikData.setEntry M ri.1 cj.1 (H ri.2 cj.2)) else .ub) M) (fun _ _ => 0)

/-- second loop, pwaLikelihood.cc:957-978: `covariance[i][j] = covarianceRed[i - iSkip][j - jSkip]`. -/
noncomputable def expandMatrix (d : ParData) (C : ℕ → ℕ → ℝ) : ℕ → ℕ → ℝ :=
  (reducedRows d).foldl (fun M ri => (reducedRows d).foldl (fun M cj => LikData.setEntry M ri.2 cj.2 (C ri.1 cj.1)) M) (fun _ _ => 0)

/-- pwaLikelihood.cc:928-982 `CovarianceMatrix(hessian)`; `inv n M` is ROOT's inversion of an `n × n` matrix. -/
noncomputable def covarianceMatrix (inv : ℕ → (ℕ → ℕ → ℝ) → (ℕ → ℕ → ℝ)) (d : ParData) (H : ℕ → ℕ → ℝ) : Outcome (ℕ → ℕ → ℝ) := do
  let red ← reduceMatrix d H
  .ok (expandMatrix d (inv (d.nmbPars - d.nmbParsFixed) red))

/-- pwaLikelihood.cc:892-916, end of `HessianEigenVectors(hessian)`: an eigenvector of the reduced matrix is filled up with zeros
(the vector starts as zero). -/
noncomputable def expandVector (d : ParData) (v : ℕ → ℝ) : ℕ → ℝ :=
  (reducedRows d).foldl (fun out rj => fun k => if k = rj.2 then v rj.1 else out k) (fun _ => 0)

/-- pwaLikelihood.cc:863-917 `HessianEigenVectors(hessian)`; `eig n M` are ROOT's eigenvectors (columns) and eigenvalues of an `n × n`
matrix. -/
noncomputable def hessianEigenVectors (eig : ℕ → (ℕ → ℕ → ℝ) → ℕ → (ℕ → ℝ) × ℝ) (d : ParData) (H : ℕ → ℕ → ℝ) :
    Outcome (List ((ℕ → ℝ) × ℝ)) := do
  let red ← reduceMatrix d H
  let n := d.nmbPars - d.nmbParsFixed
  .ok ((List.range n).map fun i => (expandVector d (eig n red i).1, (eig n red i).2))

/-! ## normalised amplitudes (C29) -/

/-- index of a wave: reflectivity index and number. -/
abbrev WaveIx := ℕ × ℕ

/-- `_normMatrix`, `_accMatrix` with indices `[iRefl][iWave][jRefl][jWave]`. -/
structure Ints where
  norm : WaveIx → WaveIx → ℂ
  acc : WaveIx → WaveIx → ℂ

/-- pwaLikelihood.cc:1255-1264: rescaling of the decay amplitudes of one wave in `addAmplitude` if amplitudes are normalised;
`none`: the call is refused. -/
noncomputable def normalizeAmps (normInt : ℂ) (nmbEvents : ℕ) (amps : ℕ → ℂ) : Option (ℕ → ℂ) :=
  if ∃ ev < nmbEvents, normInt = 0 ∧ amps ev ≠ 0 then none
  else some (fun ev => if normInt ≠ 0 then amps ev / ((Real.sqrt normInt.re : ℝ) : ℂ) else amps ev)

/-- `norm_i`, pwaLikelihood.cc:1317-1318. -/
noncomputable def waveNorm (M : WaveIx → WaveIx → ℂ) (i : WaveIx) : ℝ :=
  if Real.sqrt (M i i).re = 0 then 1 else Real.sqrt (M i i).re

/-- the loops over reflectivities and waves. -/
def waveIxs (nW : ℕ → ℕ) : List WaveIx := (List.range 2).flatMap fun e => (List.range (nW e)).map fun w => (e, w)

/-- assignment to a matrix element. -/
def setIx (M : WaveIx → WaveIx → ℂ) (i j : WaveIx) (x : ℂ) : WaveIx → WaveIx → ℂ := fun a b => if a = i ∧ b = j then x else M a b

/-- inner loop body, pwaLikelihood.cc:1321-1327. -/
noncomputable def rescaleStep (i : WaveIx) (norm_i : ℝ) (m : Ints) (j : WaveIx) : Ints :=
  let norm_j := waveNorm m.norm j
  let nm := if i ≠ j then setIx m.norm i j (m.norm i j / ((norm_i * norm_j : ℝ) : ℂ)) else m.norm
  ⟨nm, setIx m.acc i j (m.acc i j / ((norm_i * norm_j : ℝ) : ℂ))⟩

/-- pwaLikelihood.cc:1315-1334: rescaling of the integral matrices in `finishInit`. -/
noncomputable def rescaleIntegrals (nW : ℕ → ℕ) (m : Ints) : Ints :=
  let m := (waveIxs nW).foldl (fun m i =>
    let norm_i := waveNorm m.norm i
    (waveIxs nW).foldl (rescaleStep i norm_i) m) m
  ⟨(waveIxs nW).foldl (fun M i => if M i i ≠ 0 then setIx M i i 1 else M) m.norm, m.acc⟩

/-- the object after loading all waves and `finishInit` (`none`: some `addAmplitude` was refused): without normalisation the
amplitudes and integrals are taken as they are. -/
noncomputable def finishInit (rank : ℕ) (nW : ℕ → ℕ) (nmbEvents : ℕ) (amps : WaveIx → ℕ → ℂ) (ints : Ints) (totAcc : ℝ)
    (useNormalized : Bool) (prior : Prior) (cauchyWidth : ℝ) : Option LikData :=
  if useNormalized then do
    let loaded := fun i : WaveIx => normalizeAmps (ints.norm i i) nmbEvents (amps i)
    if ∃ i ∈ waveIxs nW, loaded i = none then none
    else
      let m := rescaleIntegrals nW ints
      some ⟨rank, nW, nmbEvents, fun e ev w => ((loaded (e, w)).getD (fun _ => 0)) ev, fun e i j => m.acc (e, i) (e, j), totAcc, true, prior,
        cauchyWidth⟩
  else some ⟨rank, nW, nmbEvents, fun e ev w => amps (e, w) ev, fun e i j => ints.acc (e, i) (e, j), totAcc, false, prior, cauchyWidth⟩

end Rpwa.Lik
