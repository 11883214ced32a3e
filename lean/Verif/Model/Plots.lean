import Verif.Model.Basic
import Mathlib.Data.Nat.Notation
import Mathlib.Algebra.Order.Field.Basic
import Mathlib.Algebra.BigOperators.Group.List.Basic
/-!
# Graphs of a resonance fit

Models resonanceFit/resonanceFitPlot.cc.  Simplifications: numbers are from an ordered field and 0/0 is an error bar `none`; the values of the
model that was fitted are functions of the mass and of the index of the mass bin (`none` is the largest `size_t`); colors, names and titles are
left out; a point of a graph has error bars in graphs without errors too.  The limits of the mass bins of a pair of waves are taken to be mass
bins, and the interpolator of the phase space is part of its function. -/
namespace Rpwa.Plots

variable {K : Type} [Field K] [LinearOrder K]

/-- a point of a graph with its error bars. -/
structure Pt (K : Type) where
  x : K
  y : K
  ex : Option K
  ey : K
  deriving DecidableEq

abbrev Graph (K : Type) := List (Pt K)

/-- `TGraph::SetPoint` of ROOT: a graph is enlarged by points at the origin. -/
def setPoint (g : Graph K) (i : ℕ) (x y : K) : Graph K :=
  if i < g.length then g.modify i (fun p => { p with x := x, y := y })
  else g ++ List.replicate (i - g.length) ⟨0, 0, some 0, 0⟩ ++ [⟨x, y, some 0, 0⟩]

/-- `TGraphErrors::SetPointError` of ROOT. -/
def setError (g : Graph K) (i : ℕ) (ex : Option K) (ey : K) : Graph K :=
  (if i < g.length then g else setPoint g i 0 0).modify i (fun p => { p with ex := ex, ey := ey })

/-- plotted values with errors (or with the upper end of a systematic band): intensities, spin-density matrix, phases. -/
structure Elems (K : Type) where
  int : ℕ → ℕ → K × K
  re : ℕ → ℕ → ℕ → K × K
  im : ℕ → ℕ → ℕ → K × K
  ph : ℕ → ℕ → ℕ → K × K

/-- what the fit knows of one bin. -/
structure Bin (K : Type) where
  nMass : ℕ
  centers : ℕ → K
  nWaves : ℕ
  val : Elems K
  hasSys : Bool
  sys : Elems K
  limits : ℕ → ℕ → ℕ × ℕ

/-- what the fitted model says in one bin: intensity of a wave, its components, its phase space, and for two waves the element of the
spin-density matrix and the phase in degrees. -/
structure Curves (K : Type) where
  int : ℕ → K → Option ℕ → K
  comps : ℕ → List (K → Option ℕ → K)
  ps : ℕ → K → Option ℕ → K
  elem : ℕ → ℕ → K → Option ℕ → K × K
  phase : ℕ → ℕ → K → Option ℕ → K

/-- resonanceFitPlot.cc:50-70 `zeroWaveForPlotting`, :73-93 `zeroWaveForSysPlotting`. -/
def zeroWave (e : Elems K) (nWaves m w : ℕ) : Bool :=
  decide ((e.int m w).1 = 0) && decide ((e.int m w).2 = 0) && (List.range nWaves).all fun j =>
    decide ((e.re m w j).1 = 0) && decide ((e.re m w j).2 = 0) && decide ((e.im m w j).1 = 0) && decide ((e.im m w j).2 = 0) &&
      decide ((e.ph m w j).1 = 0) && decide ((e.ph m w j).2 = 0)

/-- resonanceFitPlot.cc:169: half of the distance of two mass bins; 0/0 for a single one. -/
def halfBin (b : Bin K) : Option K :=
  if b.nMass - 1 = 0 then none else some (1 / 2 * (b.centers (b.nMass - 1) - b.centers 0) / ((b.nMass - 1 : ℕ) : K))

/-- resonanceFitPlot.cc:196-198 (and :226-228, :337-339, :514-516, :526-528, :555-557, :621-623): the mass bin and the mass of a point. -/
def gridIdx (eb p : ℕ) : Option ℕ := if p % eb = 0 then some (p / eb) else none

def gridMass (b : Bin K) (eb p : ℕ) : K :=
  match gridIdx eb p with
  | some m => b.centers m
  | none => b.centers (p / eb) + ((p % eb : ℕ) : K) * ((b.centers (b.nMass - 1) - b.centers 0) / ((b.nMass - 1 : ℕ) : K) / (eb : K))

/-- resonanceFitPlot.cc:193-194, :334-335, :511-512: the range of points. -/
def firstPoint (b : Bin K) (rangePlotting : Bool) (eb i j : ℕ) : ℕ := if rangePlotting then eb * (b.limits i j).1 else 0
def lastPoint (b : Bin K) (rangePlotting : Bool) (eb i j : ℕ) : ℕ := if rangePlotting then eb * (b.limits i j).2 else eb * (b.nMass - 1)

/-- resonanceFitPlot.cc:171-177, :180-188 and alike: a point with error bars at index `point - skip`, or a skipped one. -/
def addPoint (show? : Bool) (m : ℕ) (p : Pt K) (s : ℕ × Graph K) : ℕ × Graph K :=
  if show? then (s.1, setError (setPoint s.2 (m - s.1) p.x p.y) (m - s.1) p.ex p.ey) else (s.1 + 1, s.2)

/-- resonanceFitPlot.cc:181-184 and alike: a systematic band as point with error bar. -/
def band (mass : K) (h : Option K) (v : K × K) : Pt K := ⟨mass, (v.2 + v.1) / 2, h, (v.2 - v.1) / 2⟩

/-- resonanceFitPlot.cc:195-217 and alike: a curve, one point after the other. -/
def curve (b : Bin K) (eb first last : ℕ) (f : K → Option ℕ → K) : Graph K :=
  (List.range' first (last + 1 - first)).foldl (fun g p => setPoint g (p - first) (gridMass b eb p) (f (gridMass b eb p) (gridIdx eb p))) []

structure WavePlot (K : Type) where
  sys : Option (Graph K)
  data : Graph K
  fit : Graph K
  ps : Graph K
  comps : List (Graph K)

/-- resonanceFitPlot.cc:164-190: data and systematics of a wave and the largest value so far. -/
def waveData (lowest : K) (b : Bin K) (w : ℕ) : (ℕ × Graph K) × (ℕ × Graph K) × K :=
  (List.range b.nMass).foldl (fun s m =>
    let showD := !zeroWave b.val b.nWaves m w
    let showS := b.hasSys && !zeroWave b.sys b.nWaves m w
    let mx := if showD then max s.2.2 ((b.val.int m w).1 + (b.val.int m w).2) else s.2.2
    (addPoint showD m ⟨b.centers m, (b.val.int m w).1, halfBin b, (b.val.int m w).2⟩ s.1,
      if b.hasSys then addPoint (!zeroWave b.sys b.nWaves m w) m (band (b.centers m) (halfBin b) (b.sys.int m w)) s.2.1 else s.2.1,
      if showS then max mx (b.sys.int m w).2 else mx)) ((0, []), (0, []), lowest)

/-- resonanceFitPlot.cc:239-243: one point of the phase space is scaled. -/
def scalePoint (f : K → K) (g : Graph K) (i : ℕ) : Graph K :=
  match g[i]? with
  | some p => setPoint g i p.x (f p.y)
  | none => g

/-- resonanceFitPlot.cc:96-247 `createPlotsWave`; `lowest` is the smallest number.  The maximum over the points of the curves is taken curve by
curve. -/
def createPlotsWave (lowest : K) (b : Bin K) (c : Curves K) (rangePlotting : Bool) (eb w : ℕ) : Outcome (WavePlot K) :=
  if b.nMass = 0 ∨ eb = 0 then .ub else
    let d := waveData lowest b w
    let first := firstPoint b rangePlotting eb w w
    let last := lastPoint b rangePlotting eb w w
    let fit := curve b eb first last (c.int w)
    let comps := (c.comps w).map (curve b eb first last)
    let maxIE := (fit :: comps).foldl (fun mx g => g.foldl (fun mx p => max mx p.y) mx) d.2.2
    let ps := curve b eb 0 (eb * (b.nMass - 1)) (c.ps w)
    let maxP := ps.foldl (fun mx p => max mx p.y) lowest
    .ok ⟨if b.hasSys then some d.2.1.2 else none, d.1.2, fit,
      (List.range ps.length).foldl (fun g i => scalePoint (fun y => y * (1 / 2) * maxIE / maxP) g i) ps, comps⟩

/-- resonanceFitPlot.cc:314-323: intensities and squared errors of all bins in a mass bin, and whether there are any. -/
def sumBins (bins : List (Bin K)) (m w : ℕ) : Bool × K × K :=
  bins.foldl (fun s b => if zeroWave b.val b.nWaves m w then s else (false, s.2.1 + (b.val.int m w).1, s.2.2 + (b.val.int m w).2 * (b.val.int m w).2)) (true, 0, 0)

/-- resonanceFitPlot.cc:250-366 `createPlotsWaveSum`; the error bars are squared, the curves are the sums over the bins of the given ones (`comps`
of every bin in the same order).  `throw` ends the program if the bins are different. -/
def createPlotsWaveSum (equal : Bool) (bins : List (Bin K × Curves K)) (rangePlotting : Bool) (eb w : ℕ) : Outcome (WavePlot K) :=
  if !equal then .terminate else
    match bins with
    | [] => .ub
    | (b, c) :: _ =>
      if b.nMass = 0 ∨ eb = 0 then .ub else
        let data := (List.range b.nMass).foldl (fun s m =>
          addPoint (!(sumBins (bins.map (·.1)) m w).1) m ⟨b.centers m, (sumBins (bins.map (·.1)) m w).2.1, halfBin b, (sumBins (bins.map (·.1)) m w).2.2⟩ s) (0, [])
        let first := firstPoint b rangePlotting eb w w
        let last := lastPoint b rangePlotting eb w w
        .ok ⟨none, data.2, curve b eb first last fun x i => (bins.map fun q => q.2.int w x i).sum, [],
          (List.range (c.comps w).length).map fun k => curve b eb first last fun x i =>
            (bins.map fun q => (((q.2.comps w)[k]?).map fun f => f x i).getD 0).sum⟩

/-- the offsets that are tried: resonanceFitPlot.cc:539, :570. -/
def offsets : List ℤ := [-5, -4, -3, -2, -1, 0, 1, 2, 3, 4, 5]

/-- resonanceFitPlot.cc:533-546, :565-577: the first of the offsets that comes closest. -/
def bestOffs (v ref : K) : ℤ :=
  (offsets.foldl (fun (s : ℤ × Option K) k =>
    match s.2 with
    | none => (k, some |v + k * 360 - ref|)
    | some d => if |v + k * 360 - ref| < d then (k, some |v + k * 360 - ref|) else s) (0, none)).1

/-- the value shifted by whole turns next to a reference. -/
def near (v ref : K) : K := v + bestOffs v ref * 360

/-- resonanceFitPlot.cc:523-550: the phase over all mass bins. -/
def phaseAll (b : Bin K) (eb : ℕ) (f : K → Option ℕ → K) : Graph K :=
  (List.range (eb * (b.nMass - 1) + 1)).foldl (fun g p =>
    let v := f (gridMass b eb p) (gridIdx eb p)
    if p ≠ 0 then setPoint g p (gridMass b eb p) (near v ((g[p - 1]?.map (·.y)).getD 0)) else setPoint g p (gridMass b eb p) v) []

/-- the graphs of a pair of waves. -/
structure PairPlot (K : Type) where
  reSys : Graph K
  imSys : Graph K
  phSys : Graph K
  re : Graph K
  im : Graph K
  ph : Graph K
  reFit : Graph K
  imFit : Graph K
  phFit : Graph K

/-- resonanceFitPlot.cc:475, :564: the data of a pair are shown. -/
def showPair (b : Bin K) (i j m : ℕ) : Bool := !zeroWave b.val b.nWaves m i && !zeroWave b.val b.nWaves m j

/-- resonanceFitPlot.cc:489: the systematics of a pair are shown; the second wave is looked up in the values. -/
def showPairSys (b : Bin K) (i j m : ℕ) : Bool := !zeroWave b.sys b.nWaves m i && !zeroWave b.val b.nWaves m j

/-- resonanceFitPlot.cc:470-508: points for the mass bins that are shown. -/
def shownLoop (n : ℕ) (show? : ℕ → Bool) (pt : ℕ → Pt K) : Graph K := ((List.range n).foldl (fun s m => addPoint (show? m) m (pt m) s) (0, [])).2

/-- resonanceFitPlot.cc:563-585: the phases of the data and of the systematics next to the curve, in one mass bin. -/
def rectifyBin (hasSys : Bool) (show? : Bool) (m : ℕ) (valueFit : K) (s : ℕ × Graph K × Graph K) : ℕ × Graph K × Graph K :=
  if show? then
    match s.2.1[m - s.1]? with
    | none => s
    | some p =>
      let k := bestOffs p.y valueFit
      let data := setPoint s.2.1 (m - s.1) p.x (p.y + k * 360)
      if hasSys then
        let q := (s.2.2[m - s.1]?.map fun q => (q.x, q.y)).getD (p.x, p.y)
        (s.1, data, setPoint s.2.2 (m - s.1) q.1 (q.2 + k * 360))
      else (s.1, data, s.2.2)
  else (s.1 + 1, s.2.1, s.2.2)

/-- resonanceFitPlot.cc:552-594: all points; the curve is copied in the range of the pair. -/
def rectify (b : Bin K) (eb first last i j : ℕ) (all : Graph K) (ph phSys : Graph K) : (ℕ × Graph K × Graph K) × Graph K :=
  (List.range (eb * (b.nMass - 1) + 1)).foldl (fun s p =>
    let valueFit := (all[p]?.map (·.y)).getD 0
    (match gridIdx eb p with
      | some m => rectifyBin b.hasSys (showPair b i j m) m valueFit s.1
      | none => s.1,
     if p < first ∨ last < p then s.2 else setPoint s.2 (p - first) (gridMass b eb p) valueFit)) ((0, ph, phSys), [])

/-- resonanceFitPlot.cc:369-600 `createPlotsWavePair`. -/
def createPlotsWavePair (b : Bin K) (c : Curves K) (rangePlotting : Bool) (eb i j : ℕ) : Outcome (PairPlot K) :=
  if b.nMass = 0 ∨ eb = 0 then .ub else
    let h := halfBin b
    let data (e : ℕ → ℕ → ℕ → K × K) := shownLoop b.nMass (showPair b i j) fun m => ⟨b.centers m, (e m i j).1, h, (e m i j).2⟩
    let sys (e : ℕ → ℕ → ℕ → K × K) := if b.hasSys then shownLoop b.nMass (showPairSys b i j) fun m => band (b.centers m) h (e m i j) else []
    let first := firstPoint b rangePlotting eb i j
    let last := lastPoint b rangePlotting eb i j
    let r := rectify b eb first last i j (phaseAll b eb (c.phase i j)) (data b.val.ph) (sys b.sys.ph)
    .ok ⟨sys b.sys.re, sys b.sys.im, r.1.2.2, data b.val.re, data b.val.im, r.1.2.1,
      curve b eb first last fun x k => (c.elem i j x k).1, curve b eb first last fun x k => (c.elem i j x k).2, r.2⟩

/-- what is drawn and where: a directory for each bin (`none` is the main one). -/
inductive Job where
  | wave (dir : Option ℕ) (bin w : ℕ)
  | pair (dir : Option ℕ) (bin i j : ℕ)
  | fsmd (dir : Option ℕ) (bin : ℕ)
  | sum (w : ℕ)
  deriving DecidableEq

/-- resonanceFitPlot.cc:603-730 `createPlotsFsmd` and `createPlots`; `nWaves` are the waves of each bin, `fsmd` the number of bins of the final-state mass dependence. -/
def createPlots (nWaves : List ℕ) (fsmd : Option ℕ) (equalStructure equalMapping : Bool) : List Job :=
  nWaves.zipIdx.flatMap (fun q =>
    let dir := if nWaves.length = 1 then none else some q.2
    (List.range q.1).map (fun w => Job.wave dir q.2 w) ++
      (List.range q.1).flatMap (fun i => (List.range' (i + 1) (q.1 - (i + 1))).map fun j => Job.pair dir q.2 i j) ++
      (match fsmd with
        | some k => if k ≠ 1 ∨ equalStructure = false then [Job.fsmd dir q.2] else []
        | none => [])) ++
    (if nWaves.length ≠ 1 ∧ equalStructure = true ∧ equalMapping = true then (List.range (nWaves.headD 0)).map Job.sum else []) ++
    (match fsmd with
      | some k => if k = 1 ∧ equalStructure = true then [Job.fsmd none 0] else []
      | none => [])

end Rpwa.Plots
