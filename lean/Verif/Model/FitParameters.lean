import Verif.Model.Basic
import Mathlib.Data.Complex.Basic
import Mathlib.Data.List.Basic
/-!
# partialWaveFit/pwaLikelihood.cc: layout of the fit parameters

Arrays of production amplitudes `[rank][reflectivity][wave]` are functions of a slot `(rank, refl, wave)`; `refl` is 0 (negative)
or 1 (positive).  `double` is `ℝ`. -/
namespace Rpwa.Lik

/-- index triple `(iRank, iRefl, iWave)`. -/
abbrev Slot := ℕ × ℕ × ℕ

/-- The iteration order of all nested loops `for iRank < rank, for iRefl < 2, for iWave < nW[iRefl]` of the file
(e.g. pwaLikelihood.cc:1680-1682). -/
def slots (rank : ℕ) (nW : ℕ → ℕ) : List Slot :=
  (List.range rank).flatMap fun r => (List.range 2).flatMap fun e => (List.range (nW e)).map fun w => (r, e, w)

/-- pwaLikelihood.h:107-146 `fitParameter`. -/
structure FitPar where
  waveName : String
  rank : ℕ
  threshold : ℝ
  fixed : Bool
  realPart : Bool

/-- default constructor, pwaLikelihood.h:112-113. -/
noncomputable def FitPar.default : FitPar := ⟨"", 0, 0, true, true⟩

/-- pwaLikelihood.cc:106-121 `parName`. -/
def FitPar.parName (p : FitPar) : String :=
  "V" ++ (if p.waveName ≠ "flat" then toString p.rank else "") ++ "_" ++ p.waveName ++ (if p.realPart then "_RE" else "_IM")

/-- wave list of one likelihood: names and thresholds `[refl][wave]` (pwaLikelihood.cc:1441-1486 `readWaveList`). -/
structure WaveList where
  nW : ℕ → ℕ
  name : ℕ → ℕ → String
  threshold : ℕ → ℕ → ℝ

/-- pwaLikelihood.cc:1452-1485 `readWaveList` on a new object: waves `(name, reflectivity, threshold)` are sorted into
negative (0) and positive (1) reflectivity, keeping their order. -/
noncomputable def readWaveList (ws : List (String × ℤ × ℝ)) : WaveList :=
  let sel : ℕ → List (String × ℤ × ℝ) := fun e => ws.filter fun w => (decide (w.2.1 > 0)) == (e == 1)
  { nW := fun e => (sel e).length
    name := fun e w => ((sel e).getD w ("", 0, 0)).1
    threshold := fun e w => ((sel e).getD w ("", 0, 0)).2.2 }

/-- pwaLikelihood.cc:1497-1516, number of parameters. -/
def countPars (rank : ℕ) (nW : ℕ → ℕ) : ℤ :=
  ((List.range rank).map fun (r : ℕ) =>
    let pos : ℤ := (nW 1 : ℤ) - r
    let posC : ℤ := if pos - 1 < 0 then 0 else pos - 1
    let neg : ℤ := (nW 0 : ℤ) - r
    let negC : ℤ := if neg - 1 < 0 then 0 else neg - 1
    2 * (posC + negC) + (if pos > 0 then 1 else 0) + (if neg > 0 then 1 else 0)).sum + 1

/-- data filled by `buildParDataStruct`: `_nmbPars`, `_parameters`, `_prodAmpToFuncParMap` (negative indices are `none`),
`_nmbParsFixed`. -/
structure ParData where
  nmbPars : ℕ
  params : List FitPar
  map : Slot → Option ℕ × Option ℕ
  nmbParsFixed : ℕ

/-- `_parameters[i] = p`; out of range is undefined behaviour. -/
def setPar (d : ParData) (i : ℕ) (p : FitPar) : Outcome ParData :=
  if i < d.params.length then .ok { d with params := d.params.set i p } else .ub

open Classical in
/-- pwaLikelihood.cc:1529-1531: a parameter is fixed if the wave has a threshold and the mass bin is not above it. -/
noncomputable def belowThreshold (thr massBinCenter : ℝ) : Bool := decide (thr ≠ 0 ∧ thr ≥ massBinCenter)

/-- one iteration of the loop pwaLikelihood.cc:1527-1556; the state is `(parIndex, data)`. -/
noncomputable def buildStep (wl : WaveList) (massBinCenter : ℝ) (st : ℕ × ParData) (s : Slot) : Outcome (ℕ × ParData) := do
  let (r, e, w) := s
  let thr := wl.threshold e w
  let fixed : Bool := belowThreshold thr massBinCenter
  let (k, d) := st
  if w < r then
    .ok (k, { d with map := fun t => if t = s then (none, none) else d.map t })
  else if w = r then
    let d ← setPar d k ⟨wl.name e w, r, thr, fixed, true⟩
    .ok (k + 1, { d with
      nmbParsFixed := if fixed then d.nmbParsFixed + 1 else d.nmbParsFixed
      map := fun t => if t = s then (some k, none) else d.map t })
  else
    let d ← setPar d k ⟨wl.name e w, r, thr, fixed, true⟩
    let d ← setPar d (k + 1) ⟨wl.name e w, r, thr, fixed, false⟩
    .ok (k + 2, { d with
      nmbParsFixed := if fixed then d.nmbParsFixed + 2 else d.nmbParsFixed
      map := fun t => if t = s then (some k, some (k + 1)) else d.map t })

/-- a loop over slots. -/
def forSlots {σ : Type} (l : List Slot) (s : σ) (f : σ → Slot → Outcome σ) : Outcome σ := l.foldlM f s

/-- pwaLikelihood.cc:1491-1560 `buildParDataStruct`; `none`: returned `false` (no waves). -/
noncomputable def buildParDataStruct (wl : WaveList) (rank : ℕ) (massBinCenter : ℝ) : Outcome (Option ParData) :=
  if wl.nW 0 + wl.nW 1 = 0 then .ok none
  else do
    let n := (countPars rank wl.nW).toNat
    let (k, d) ← forSlots (slots rank wl.nW)
      (0, (⟨n, List.replicate n FitPar.default, fun _ => (some 0, some 0), 0⟩ : ParData)) (buildStep wl massBinCenter)
    let d ← setPar d k ⟨"flat", 0, 0, false, true⟩
    .ok (some d)

/-- pwaLikelihood.cc:1268-1282, end of `addAmplitude` for a wave without any non-zero amplitude: its parameters are fixed.
`_nmbParsFixed` is not changed. -/
def fixWave (d : ParData) (name : String) : ParData :=
  { d with params := d.params.map fun p => if p.waveName ≠ name then p else { p with fixed := true } }

/-- production amplitudes, indexed by slot. -/
abbrev Amps := Slot → ℂ

/-- one iteration of the loop of `copyFromParArray`, pwaLikelihood.cc:1683-1696. -/
noncomputable def copyFromStep (par : ℕ → ℝ) (st : ℕ × Amps) (s : Slot) : ℕ × Amps :=
  let (r, _, w) := s
  let (k, out) := st
  if w < r then (k, fun t => if t = s then 0 else out t)
  else if w = r then (k + 1, fun t => if t = s then ⟨par k, 0⟩ else out t)
  else (k + 2, fun t => if t = s then ⟨par k, par (k + 1)⟩ else out t)

/-- pwaLikelihood.cc:1670-1699 `copyFromParArray`: production amplitudes (on a new, zero-initialised array) and flat wave. -/
noncomputable def copyFromParArray (rank : ℕ) (nW : ℕ → ℕ) (par : ℕ → ℝ) : Amps × ℝ :=
  let st := (slots rank nW).foldl (copyFromStep par) (0, fun _ => 0)
  (st.2, par st.1)

/-- one iteration of `copyToParArray`, pwaLikelihood.cc:1714-1718. -/
noncomputable def copyToStep (map : Slot → Option ℕ × Option ℕ) (amps : Amps) (out : ℕ → ℝ) (s : Slot) : ℕ → ℝ :=
  let out := match (map s).1 with
    | some k => fun i => if i = k then (amps s).re else out i
    | none => out
  match (map s).2 with
    | some k => fun i => if i = k then (amps s).im else out i
    | none => out

/-- pwaLikelihood.cc:1705-1721 `copyToParArray`, writing into the array `out`. -/
noncomputable def copyToParArray (rank : ℕ) (nW : ℕ → ℕ) (d : ParData) (amps : Amps) (flat : ℝ) (out : ℕ → ℝ) : ℕ → ℝ :=
  let out := (slots rank nW).foldl (copyToStep d.map amps) out
  fun i => if i = d.nmbPars - 1 then flat else out i

/-- result of `buildProdAmpArrays`: amplitude values, parameter indices, names. -/
structure ProdAmp where
  value : ℂ
  parIndices : ℕ × Option ℕ
  name : String

/-- one iteration of `buildProdAmpArrays`, pwaLikelihood.cc:1629-1651. -/
noncomputable def prodAmpStep (wl : WaveList) (par : ℕ → ℝ) (st : ℕ × List ProdAmp) (s : Slot) : ℕ × List ProdAmp :=
  let (r, e, w) := s
  let (k, out) := st
  let name := "V" ++ toString r ++ "_" ++ wl.name e w
  if w < r then (k, out)
  else if w = r then (k + 1, out ++ [⟨⟨par k, 0⟩, (k, none), name⟩])
  else (k + 2, out ++ [⟨⟨par k, par (k + 1)⟩, (k, some (k + 1)), name⟩])

/-- pwaLikelihood.cc:1615-1660 `buildProdAmpArrays`. -/
noncomputable def buildProdAmpArrays (wl : WaveList) (rank : ℕ) (par : ℕ → ℝ) (withFlat : Bool) : List ProdAmp :=
  let st := (slots rank wl.nW).foldl (prodAmpStep wl par) (0, [])
  if withFlat then st.2 ++ [⟨⟨par st.1, 0⟩, (st.1, none), "V_flat"⟩] else st.2

end Rpwa.Lik
