import Verif.Model.PhysUtils
import Mathlib.Data.Complex.Basic
import Mathlib.Analysis.SpecialFunctions.Exp
import Mathlib.Analysis.Complex.Norm
import Mathlib.Data.ZMod.Defs

/-!
# `resonanceFit/`: the resonance-model fit

Model of `resonanceFit/{components,fsmd,model,function,parameters,cache}.{h,cc}` and of the parts of
`resonanceFitReadConfig.cc` and `minimizerRoot.cc` that build the model and the array of fit
parameters.

Simplifications, for the whole file: `double` is `ℝ` and `std::complex<double>` is `ℂ`; the
`boost::multi_array`s of the parameter store and of the cache are total functions (array bounds are
not modelled); `std::numeric_limits<size_t>::max()`, which means "all" or "not there", is `none`;
`throw` and a failing `assert` (both end the program, assertions are enabled in all build types) are
`none`; wave and component names are lists of characters.
-/

namespace Rpwa.ResFit

/-- a name (`std::string`) -/
abbrev Name := List Char

/-! ## parameter store and cache -/

/-- `parameters` (resonanceFit/parameters.h:40-80): couplings `[id][idxCoupling][idxBin]`, branchings
`[id][idxBranching]`, parameters `[id][idxParameter]`. -/
structure Params where
  coup : ℕ → ℕ → ℕ → ℂ
  br : ℕ → ℕ → ℂ
  par : ℕ → ℕ → ℝ

/-- a newly constructed store: `boost::multi_array` is zero-initialised
(resonanceFit/parameters.cc:41-50). -/
def Params.empty : Params := ⟨fun _ _ _ => 0, fun _ _ => 0, fun _ _ => 0⟩

/-- `parameters::setCoupling` (resonanceFit/parameters.h:58). -/
def Params.setCoup (P : Params) (id k b : ℕ) (v : ℂ) : Params :=
  { P with coup := (fun i j l => if i = id ∧ j = k ∧ l = b then v else P.coup i j l) }

/-- `parameters::setBranching` (resonanceFit/parameters.h:57). -/
def Params.setBr (P : Params) (id k : ℕ) (v : ℂ) : Params :=
  { P with br := (fun i j => if i = id ∧ j = k then v else P.br i j) }

/-- `parameters::setParameter` (resonanceFit/parameters.h:59). -/
def Params.setPar (P : Params) (id k : ℕ) (v : ℝ) : Params :=
  { P with par := (fun i j => if i = id ∧ j = k then v else P.par i j) }

/-- `cache` (resonanceFit/cache.h:40-75): couplings times phase space
`[id][idxChannel][idxBin][idxMass]`, component values `[id][idxBin][idxMass]`, production amplitudes
`[idxWave][idxBin][idxMass]`. -/
structure Cache where
  coup : ℕ → ℕ → ℕ → ℕ → ℂ
  comp : ℕ → ℕ → ℕ → ℂ
  amp : ℕ → ℕ → ℕ → ℂ

/-- a newly constructed cache (resonanceFit/cache.cc:33-41): all entries are 0, which means "not
cached". -/
def Cache.empty : Cache := ⟨fun _ _ _ _ => 0, fun _ _ _ => 0, fun _ _ _ => 0⟩

/-- does the index `j` match the argument `i` of a cache setter, where `none` means all indices? -/
def hits (i : Option ℕ) (j : ℕ) : Prop := i = none ∨ i = some j

instance (i : Option ℕ) (j : ℕ) : Decidable (hits i j) := by unfold hits; infer_instance

/-- `cache::setCoupling` (resonanceFit/cache.cc:44-67), its four branches. -/
def Cache.setCoup (K : Cache) (id ch : ℕ) (bin mass : Option ℕ) (v : ℂ) : Cache :=
  { K with coup := (fun i c b m => if i = id ∧ c = ch ∧ hits bin b ∧ hits mass m then v
                                   else K.coup i c b m) }

/-- `cache::setComponent` (resonanceFit/cache.cc:70-92), its four branches. -/
def Cache.setComp (K : Cache) (id : ℕ) (bin mass : Option ℕ) (v : ℂ) : Cache :=
  { K with comp := (fun i b m => if i = id ∧ hits bin b ∧ hits mass m then v else K.comp i b m) }

/-- `cache::setProdAmp` (resonanceFit/cache.cc:95-143), its eight branches. -/
def Cache.setAmp (K : Cache) (wave bin mass : Option ℕ) (v : ℂ) : Cache :=
  { K with amp := (fun w b m => if hits wave w ∧ hits bin b ∧ hits mass m then v
                                else K.amp w b m) }

/-- the two objects `chiSquare` keeps between calls: parameter store and cache
(resonanceFit/function.cc:150-159). -/
structure St where
  P : Params
  K : Cache

/-- state before the first call -/
def St.empty : St := ⟨Params.empty, Cache.empty⟩

/-! ## fit input and data -/

/-- `input` and `baseData`: for each bin the waves (names), the number of mass bins and the mass-bin
centres, phase-space integrals `[bin][mass][wave]` and their interpolation
(resonanceFit/input.h, resonanceFit/data.h). -/
structure Input where
  waves : List (List Name)
  nrMass : List ℕ
  center : ℕ → ℕ → ℝ
  phaseSpace : ℕ → ℕ → ℕ → ℝ
  phaseSpaceAt : ℕ → ℕ → ℝ → ℝ

/-- number of bins -/
def Input.nrBins (I : Input) : ℕ := I.nrMass.length

/-- waves of one bin -/
def Input.wavesOf (I : Input) (b : ℕ) : List Name := I.waves.getD b []

/-- number of mass bins of one bin -/
def Input.nrMassOf (I : Input) (b : ℕ) : ℕ := I.nrMass.getD b 0

/-! ## components -/

/-- `component::channel` (resonanceFit/components.h:56-84). -/
structure Channel where
  waveName : Name
  waveIdx : List (Option ℕ)
  ps : ℕ → ℕ → ℝ
  psAt : ℕ → ℝ → ℝ

/-- index of the wave in a bin: `getWaveIndices()[idxBin]` -/
def Channel.waveAt (ch : Channel) (b : ℕ) : Option ℕ := ch.waveIdx.getD b none

/-- `_bins` of a channel as filled by its constructor: the bins that contain the wave
(resonanceFit/components.cc:171-180). -/
def Channel.bins (ch : Channel) : List ℕ :=
  (List.range ch.waveIdx.length).filter fun b => (ch.waveAt b).isSome

/-- `channel::getPhaseSpaceIntegral` (resonanceFit/components.h:482-493). -/
def Channel.phaseSpaceIntegral (ch : Channel) (b : ℕ) (mass : ℝ) : Option ℕ → ℝ
  | some m => ch.ps b m
  | none => ch.psAt b mass

/-- the `waveIndices` map of `readModelComponentDecayChannels`
(resonanceFit/resonanceFitReadConfig.cc:658-668) evaluated for one name: for each bin the index of
the (last) wave of that name. -/
def waveIndices (I : Input) (name : Name) : List (Option ℕ) :=
  (List.range I.nrBins).map fun b =>
    ((I.wavesOf b).zipIdx.foldl
      (fun acc (wi : Name × ℕ) => if wi.1 = name then some wi.2 else acc) none)

/-- one decay channel of the configuration: `readModelComponentDecayChannels`
(resonanceFit/resonanceFitReadConfig.cc:704-719) and the constructor of `channel`
(resonanceFit/components.cc:130-190); throws if the wave is in no bin.  Phase-space integrals are
only copied for the bins of the wave, they are 0 elsewhere. -/
def mkChannel (I : Input) (name : Name) : Option Channel :=
  let wi := waveIndices I name
  if wi.all (fun w => w.isNone) then none
  else some
    { waveName := name
      waveIdx := wi
      ps := fun b m => match wi.getD b none with
        | some w => I.phaseSpace b m w
        | none => 0
      psAt := fun b x => match wi.getD b none with
        | some w => I.phaseSpaceAt b w x
        | none => 0 }

/-- `readModelComponentDecayChannels` (resonanceFit/resonanceFitReadConfig.cc:648-722): channels in
the order of the configuration, a wave may not be given twice. -/
def readChannels (I : Input) (names : List Name) : Option (List Channel) :=
  names.foldlM (fun acc name =>
    if acc.any (fun ch => ch.waveName = name) then none
    else (mkChannel I name).map fun ch => acc ++ [ch]) []

/-- mapping of the channels to couplings and branchings, members of `component`
(resonanceFit/components.h:162-172). -/
structure Maps where
  chanCoup : List ℕ
  chanBr : List ℕ
  nrCoup : ℕ
  fromCoup : List ℕ
  nrBr : ℕ
  fromBr : List ℕ
  brFixed : List Bool
  deriving DecidableEq

/-- quantum numbers of a wave: the name up to the first `=`
(resonanceFit/components.cc:250; `substr(0, find("="))`, the whole name if there is no `=`). -/
def waveQN (name : Name) : Name := name.takeWhile fun c => c ≠ '='

/-- local variables of the loop over the bins of one channel
(resonanceFit/components.cc:244-248) and the map `couplingsQN`. -/
structure QnSt where
  readCoup : Bool
  readBr : Bool
  fixedBr : Bool
  idx : ℕ
  qn : List ((Name × ℕ) × ℕ)
  deriving DecidableEq

/-- one iteration of the loop over the bins of a channel (resonanceFit/components.cc:253-288); the
consistency checks are made for the loop counter `i > 1` only. -/
def qnStep (q : Name) (s : QnSt) (ib : ℕ × ℕ) : Option QnSt :=
  match s.qn.lookup (q, ib.2) with
  | none =>
    if ib.1 > 1 ∧ (s.readCoup = false ∨ s.fixedBr = false) then none
    else if ib.1 > 1 ∧ s.readBr = false then none
    else some { readCoup := true, readBr := true, fixedBr := true, idx := s.idx,
                qn := s.qn ++ [((q, ib.2), s.idx)] }
  | some k =>
    if ib.1 > 1 ∧ (s.readCoup = true ∨ s.fixedBr = true ∨ s.idx ≠ k) then none
    else if ib.1 > 1 ∧ s.readBr = false then none
    else some { readCoup := false, readBr := true, fixedBr := false, idx := k, qn := s.qn }

/-- state of the loop over the channels in the constructor of `component` -/
structure MapSt where
  maps : Maps
  names : List (ℕ × Name)
  qn : List ((Name × ℕ) × ℕ)
  deriving DecidableEq

/-- the loop over the bins of a channel (resonanceFit/components.cc:253-288) -/
def qnLoop (q : Name) (bins : List ℕ) (s : QnSt) : Option QnSt :=
  (bins.zipIdx.map fun x => (x.2, x.1)).foldlM (qnStep q) s

/-- end of the body of the loop over the channels (resonanceFit/components.cc:291-311): a new
coupling and a new branching are appended if required. -/
def pushChannel (ch : ℕ) (st : MapSt) (names : List (ℕ × Name)) (r : QnSt) : Option MapSt :=
  if r.readCoup = true ∧ r.idx ≠ st.maps.nrCoup then none
  else
    some
      { maps :=
          { chanCoup := st.maps.chanCoup ++ [r.idx]
            chanBr := st.maps.chanBr ++ [st.maps.nrBr]
            nrCoup := if r.readCoup then st.maps.nrCoup + 1 else st.maps.nrCoup
            fromCoup := if r.readCoup then st.maps.fromCoup ++ [ch] else st.maps.fromCoup
            nrBr := if r.readBr then st.maps.nrBr + 1 else st.maps.nrBr
            fromBr := if r.readBr then st.maps.fromBr ++ [ch] else st.maps.fromBr
            brFixed := if r.readBr then st.maps.brFixed ++ [r.fixedBr] else st.maps.brFixed }
        names := names
        qn := r.qn }

/-- body of the loop over the channels in the constructor of `component`
(resonanceFit/components.cc:224-311) for the channel number `ch` with wave `name` and the bins
`bins`; `branch` is `useBranchings and _channels.size() > 1`. -/
def mapStep (branch : Bool) (st : MapSt) (ch : ℕ) (name : Name) (bins : List ℕ) : Option MapSt :=
  if bins.any (fun b => decide ((b, name) ∈ st.names)) then none
  else
    let names := st.names ++ bins.map (fun b => (b, name))
    let start : QnSt := ⟨true, false, true, st.maps.nrCoup, st.qn⟩
    (if branch then qnLoop (waveQN name) bins start else some start).bind
      (pushChannel ch st names)

/-- the mapping computed by the constructor of `component`
(resonanceFit/components.cc:218-318), for the list of (wave name, bins) of the channels. -/
def mkMaps (useBranchings : Bool) (chans : List (Name × List ℕ)) : Option Maps :=
  let branch := useBranchings && decide (chans.length > 1)
  (chans.zipIdx.foldlM (fun st (x : (Name × List ℕ) × ℕ) => mapStep branch st x.2 x.1.1 x.1.2)
    ({ maps := ⟨[], [], 0, [], 0, [], []⟩, names := [], qn := [] } : MapSt)).map fun st =>
      if st.maps.nrBr = 0 then
        { st.maps with fromBr := st.maps.fromBr ++ [0], brFixed := st.maps.brFixed ++ [true],
                       nrBr := st.maps.nrBr + 1 }
      else st.maps

/-- The kinds of components with their constants (resonanceFit/components.h:180-478). -/
inductive Shape where
  /-- `fixedWidthBreitWigner` -/
  | fixedWidth
  /-- `dynamicWidthBreitWigner`: (ratio, relative angular momentum, isobar masses) of the channels -/
  | dynamicWidth (chans : List (ℝ × ℤ × ℝ × ℝ))
  /-- `integralWidthBreitWigner`: (ratio, interpolated phase-space integral) of the channels -/
  | integralWidth (chans : List (ℝ × (ℝ → ℝ)))
  /-- `constantBackground` -/
  | constant
  /-- `exponentialBackground` -/
  | exponential (l : ℤ) (m1 m2 norm exponent : ℝ)
  /-- `tPrimeDependentBackground` -/
  | tPrime (tMean : ℕ → ℝ) (l : ℤ) (m1 m2 norm exponent : ℝ)
  /-- `exponentialBackgroundIntegral` -/
  | exponentialIntegral (ps : ℝ → ℝ) (norm exponent : ℝ)
  /-- `tPrimeDependentBackgroundIntegral` -/
  | tPrimeIntegral (tMean : ℕ → ℝ) (ps : ℝ → ℝ) (norm exponent : ℝ)

/-- number of parameters, enforced by `checkParameters` (resonanceFit/components.cc:97-122) and the
`getDefaultParameters` functions. -/
def Shape.nrParams : Shape → ℕ
  | .fixedWidth => 2
  | .dynamicWidth _ => 2
  | .integralWidth _ => 2
  | .constant => 0
  | .exponential .. => 1
  | .tPrime .. => 5
  | .exponentialIntegral .. => 1
  | .tPrimeIntegral .. => 5

/-- which kinds call `initBinsEqualValuesFromMassBinning` in their constructor
(resonanceFit/components.cc:531, 591, 713, 799, 857, 1069); the `t'`-dependent ones keep
`initBinsEqualValuesForSingleBins`. -/
def Shape.sharesBins : Shape → Bool
  | .tPrime .. => false
  | .tPrimeIntegral .. => false
  | _ => true

/-- breakup momentum as used by the component values: below threshold the program ends with an
exception; such evaluations are outside the model, 0 is used here. -/
noncomputable def brkMom (M m1 m2 : ℝ) : ℝ := (Phys.breakupMomentum M m1 m2).getD 0

open Classical in
/-- mass-dependent width of `dynamicWidthBreitWigner` (resonanceFit/components.cc:623-648) -/
noncomputable def dynamicGamma (chans : List (ℝ × ℤ × ℝ × ℝ)) (m0 gamma0 mass : ℝ) : ℝ :=
  (chans.foldl (fun gamma (c : ℝ × ℤ × ℝ × ℝ) =>
      if c.1 = 0 then gamma
      else if mass ≥ c.2.2.1 + c.2.2.2 then
        let q := brkMom mass c.2.2.1 c.2.2.2
        let q0 := brkMom m0 c.2.2.1 c.2.2.2
        gamma + c.1 * q / q0 * Phys.barrierFactorSquared (2 * c.2.1) q
          / Phys.barrierFactorSquared (2 * c.2.1) q0
      else gamma) 0) * (gamma0 * m0 / mass)

open Classical in
/-- width of `integralWidthBreitWigner` (resonanceFit/components.cc:746-760) -/
noncomputable def integralGamma (chans : List (ℝ × (ℝ → ℝ))) (m0 gamma0 mass : ℝ) : ℝ :=
  (chans.foldl (fun gamma (c : ℝ × (ℝ → ℝ)) =>
      if c.1 = 0 then gamma else gamma + c.1 * c.2 mass / c.2 m0) 0) * gamma0

open Classical in
/-- the virtual functions `val(fitParameters, idxBin, mass)` (resonanceFit/components.cc:538-549,
615-652, 739-763, 806-812, 876-892, 982-1004, 1089-1100, 1187-1204); `p` is the row of parameters of
the component, `std::pow` is `Real.rpow`. -/
noncomputable def Shape.value (s : Shape) (p : ℕ → ℝ) (bin : ℕ) (mass : ℝ) : ℂ :=
  match s with
  | .fixedWidth =>
    ((p 1 * p 0 : ℝ) : ℂ) / (⟨p 0 * p 0 - mass * mass, -(p 1 * p 0)⟩ : ℂ)
  | .dynamicWidth chans =>
    ((p 1 * p 0 : ℝ) : ℂ)
      / (⟨p 0 * p 0 - mass * mass, -(dynamicGamma chans (p 0) (p 1) mass * p 0)⟩ : ℂ)
  | .integralWidth chans =>
    ((p 1 * p 0 : ℝ) : ℂ)
      / (⟨p 0 * p 0 - mass * mass, -(integralGamma chans (p 0) (p 1) mass * p 0)⟩ : ℂ)
  | .constant => 1
  | .exponential l m1 m2 norm exponent =>
    if mass < m1 + m2 then 1 else
    let q := brkMom mass m1 m2
    let f2 := Phys.barrierFactorSquared (2 * l) q
    let c := (q * f2 * norm) ^ exponent
    ((Real.exp (-p 0 * c) : ℝ) : ℂ)
  | .tPrime tMean l m1 m2 norm exponent =>
    if mass < m1 + m2 then (((mass - p 0) ^ p 1 : ℝ) : ℂ) else
    let q := brkMom mass m1 m2
    let f2 := Phys.barrierFactorSquared (2 * l) q
    let c := (q * f2 * norm) ^ exponent
    let t := tMean bin
    let pol := p 2 + p 3 * t + p 4 * t * t
    (((mass - p 0) ^ p 1 * Real.exp (-pol * c) : ℝ) : ℂ)
  | .exponentialIntegral ps norm exponent =>
    let c := (mass * ps mass * norm) ^ exponent
    ((Real.exp (-p 0 * c) : ℝ) : ℂ)
  | .tPrimeIntegral tMean ps norm exponent =>
    let c := (mass * ps mass * norm) ^ exponent
    let t := tMean bin
    let pol := p 2 + p 3 * t + p 4 * t * t
    (((mass - p 0) ^ p 1 * Real.exp (-pol * c) : ℝ) : ℂ)

/-- do two bins have the same mass binning (resonanceFit/components.cc:71-85, fsmd.cc:101-117)? -/
def sameBinning (I : Input) (i j : ℕ) : Prop :=
  I.nrMassOf i = I.nrMassOf j ∧ ∀ m < I.nrMassOf i, I.center i m = I.center j m

open Classical in
/-- `initBinsEqualValuesFromMassBinning` (resonanceFit/components.cc:57-93; the same loop is in
fsmd.cc:94-127): groups of bins with the same mass binning. -/
noncomputable def massBinGroups (I : Input) : Option (List (List ℕ)) :=
  (List.range I.nrBins).foldlM (fun groups i =>
    if (groups.getD i []).length ≠ 0 then some groups
    else
      let bins := i :: ((List.range I.nrBins).filter fun j => i < j ∧ sameBinning I i j)
      bins.foldlM (fun (g : List (List ℕ)) j =>
        if (g.getD j []).length ≠ 0 then none else some (g.set j bins)) groups)
    (List.replicate I.nrBins [])

/-- `initBinsEqualValuesForSingleBins` (resonanceFit/components.cc:42-52) -/
def singleBinGroups (I : Input) : List (List ℕ) := (List.range I.nrBins).map fun b => [b]

/-- `component` (resonanceFit/components.h:52-178) -/
structure Component where
  id : ℕ
  name : Name
  channels : List Channel
  maps : Maps
  groups : List (List ℕ)
  shape : Shape

/-- `_channels[ch]` -/
def Component.chan (c : Component) (ch : ℕ) : Channel :=
  c.channels.getD ch ⟨[], [], fun _ _ => 0, fun _ _ => 0⟩

/-- `getChannelFromCouplingIdx(k).getBins()` -/
def Component.coupBins (c : Component) (k : ℕ) : List ℕ :=
  (c.chan (c.maps.fromCoup.getD k 0)).bins

/-- constructor of a component (resonanceFit/components.cc:193-320 and those of the derived classes) -/
noncomputable def mkComponent (I : Input) (useBranchings : Bool) (id : ℕ) (name : Name) (shape : Shape)
    (chans : List Name) : Option Component :=
  (readChannels I chans).bind fun channels =>
  (mkMaps useBranchings (channels.map fun ch => (ch.waveName, ch.bins))).bind fun maps =>
  (if shape.sharesBins then massBinGroups I else some (singleBinGroups I)).map fun groups =>
    ⟨id, name, channels, maps, groups, shape⟩

/-! ### import of the parameters of one component -/

open Classical in
/-- body of the loops of `component::importCouplings` for coupling `k` and bin `b`
(resonanceFit/components.cc:332-350): `par` is the array behind the pointer, `counter` the running
index. -/
noncomputable def coupStep (c : Component) (par : ℕ → ℝ) (k : ℕ) (acc : ℕ × St) (b : ℕ) : ℕ × St :=
  let counter := acc.1
  let st := acc.2
  let coupling : ℂ := ⟨par counter, par (counter + 1)⟩
  (counter + 2,
    if st.P.coup c.id k b = coupling then st
    else
      { P := st.P.setCoup c.id k b coupling
        K := (List.range c.channels.length).foldl (fun (K : Cache) ch =>
          if c.maps.chanCoup.getD ch 0 = k then
            (K.setCoup c.id ch (some b) none 0).setAmp ((c.chan ch).waveAt b) (some b) none 0
          else K) st.K })

/-- `component::importCouplings` (resonanceFit/components.cc:323-355) -/
noncomputable def importCouplings (c : Component) (par : ℕ → ℝ) (st : St) : ℕ × St :=
  (List.range c.maps.nrCoup).foldl (fun acc k => (c.coupBins k).foldl (coupStep c par k) acc) (0, st)

/-- loop over the bins of a channel in `importBranchings` and `importParameters`
(resonanceFit/components.cc:382-384, 408-410) -/
def invalidateChannel (ch : Channel) (K : Cache) : Cache :=
  ch.bins.foldl (fun (K : Cache) b => K.setAmp (ch.waveAt b) (some b) none 0) K

open Classical in
/-- body of the loop of `component::importBranchings` (resonanceFit/components.cc:365-388) -/
noncomputable def brStep (c : Component) (par : ℕ → ℝ) (acc : ℕ × St) (k : ℕ) : ℕ × St :=
  let counter := acc.1
  let st := acc.2
  let fixed := c.maps.brFixed.getD k false
  let branching : ℂ := if fixed then ⟨1, 0⟩ else ⟨par counter, par (counter + 1)⟩
  (if fixed then counter else counter + 2,
    if st.P.br c.id k = branching then st
    else
      { P := st.P.setBr c.id k branching
        K := (List.range c.channels.length).foldl (fun (K : Cache) ch =>
          if c.maps.chanBr.getD ch 0 = k then
            invalidateChannel (c.chan ch) (K.setCoup c.id ch none none 0)
          else K) st.K })

/-- `component::importBranchings` (resonanceFit/components.cc:358-391) -/
noncomputable def importBranchings (c : Component) (par : ℕ → ℝ) (st : St) : ℕ × St :=
  (List.range c.maps.nrBr).foldl (brStep c par) (0, st)

open Classical in
/-- the loop that stores parameters and remembers whether one of them changed
(resonanceFit/components.cc:399-405, fsmd.cc:220-227): parameters `first, …, first + n - 1` of row
`id`. -/
noncomputable def storePars (id first n : ℕ) (par : ℕ → ℝ) (P : Params) : Bool × Params :=
  (List.range n).foldl (fun acc j =>
    if acc.2.par id (first + j) = par (first + j) then acc
    else (true, acc.2.setPar id (first + j) (par (first + j)))) (false, P)

/-- `component::importParameters` (resonanceFit/components.cc:394-415) -/
noncomputable def importParameters (c : Component) (par : ℕ → ℝ) (st : St) : ℕ × St :=
  let r := storePars c.id 0 c.shape.nrParams par st.P
  (c.shape.nrParams,
    { P := r.2
      K := if r.1 then
          (List.range c.channels.length).foldl (fun K ch => invalidateChannel (c.chan ch) K)
            (st.K.setComp c.id none none 0)
        else st.K })

/-! ### values of one component -/

/-- write a value to all bins of the group of bin `b`
(resonanceFit/components.cc:434-444, fsmd.cc:264-273) -/
def cacheGroup (groups : List (List ℕ)) (id b m : ℕ) (v : ℂ) (K : Cache) : Cache :=
  if (groups.getD b []).length = groups.length then K.setComp id none (some m) v
  else (groups.getD b []).foldl (fun (K : Cache) j => K.setComp id (some j) (some m) v) K

open Classical in
/-- `component::val` with cache (resonanceFit/components.cc:418-447); `idxMass = none` stands for
`max`, i.e. a mass that is not a mass-bin centre. -/
noncomputable def Component.val (c : Component) (P : Params) (K : Cache) (b : ℕ) (mass : ℝ) :
    Option ℕ → ℂ × Cache
  | some m =>
    if K.comp c.id b m ≠ 0 then (K.comp c.id b m, K)
    else
      let v := c.shape.value (P.par c.id) b mass
      (v, cacheGroup c.groups c.id b m v K)
  | none => (c.shape.value (P.par c.id) b mass, K)

/-- product of coupling, branching and phase-space integral
(resonanceFit/components.h:513-520) -/
noncomputable def Component.couplingPure (c : Component) (P : Params) (ch b : ℕ) (mass : ℝ)
    (idxMass : Option ℕ) : ℂ :=
  P.coup c.id (c.maps.chanCoup.getD ch 0) b * P.br c.id (c.maps.chanBr.getD ch 0)
    * (((c.chan ch).phaseSpaceIntegral b mass idxMass : ℝ) : ℂ)

open Classical in
/-- `component::getCouplingPhaseSpace` (resonanceFit/components.h:496-527) -/
noncomputable def Component.couplingPhaseSpace (c : Component) (P : Params) (K : Cache) (ch b : ℕ)
    (mass : ℝ) : Option ℕ → ℂ × Cache
  | some m =>
    if K.coup c.id ch b m ≠ 0 then (K.coup c.id ch b m, K)
    else
      let v := c.couplingPure P ch b mass (some m)
      (v, K.setCoup c.id ch (some b) (some m) v)
  | none => (c.couplingPure P ch b mass none, K)

/-! ## final-state mass dependence -/

/-- a `TFormula` with `npar` parameters: `EvalPar(&mass, p)` reads `p[0] … p[npar-1]`. -/
structure Formula where
  npar : ℕ
  eval : ℝ → List ℝ → ℝ

/-- `fsmd` (resonanceFit/fsmd.h:51-110).  The functions are never null: both constructors dereference
them. -/
structure Fsmd where
  id : ℕ
  same : Bool
  functions : List Formula
  parIndex : List ℕ
  groups : List (List ℕ)

/-- `_functions[idxBin]` -/
def Fsmd.fn (f : Fsmd) (b : ℕ) : Formula := f.functions.getD b ⟨0, fun _ _ => 0⟩

/-- constructor with one function for all bins (resonanceFit/fsmd.cc:43-128) -/
noncomputable def mkFsmdSame (I : Input) (id : ℕ) (f : Formula) : Option Fsmd :=
  (massBinGroups I).map fun groups =>
    ⟨id, true, List.replicate I.nrBins f, List.replicate I.nrBins 0, groups⟩

/-- indices of the first parameter of each function: `index[i] = index[i-1] + npar[i-1]`
(resonanceFit/fsmd.cc:172-175) -/
def parIndices : ℕ → List Formula → List ℕ
  | _, [] => []
  | first, f :: fs => first :: parIndices (first + f.npar) fs

/-- constructor with one function per bin (resonanceFit/fsmd.cc:131-205), throws if their number is
not the number of bins. -/
def mkFsmdPerBin (I : Input) (id : ℕ) (fs : List Formula) : Option Fsmd :=
  if fs.length ≠ I.nrBins then none
  else some ⟨id, false, fs, parIndices 0 fs, singleBinGroups I⟩

/-- invalidation in `fsmd::importParameters` (resonanceFit/fsmd.cc:230-242) -/
def Fsmd.invalidate (f : Fsmd) (b : ℕ) (K : Cache) : Cache :=
  if f.same = true ∨ (f.groups.getD b []).length = f.groups.length then
    (K.setComp f.id none none 0).setAmp none none none 0
  else
    (f.groups.getD b []).foldl (fun (K : Cache) j =>
      (K.setComp f.id (some j) none 0).setAmp none (some j) none 0) K

/-- number of functions with parameters of their own: `_sameFunctionForAllBins ? 1 : _nrBins` -/
def Fsmd.nrFn (f : Fsmd) : ℕ := if f.same then 1 else f.functions.length

/-- body of the loop of `fsmd::importParameters` (resonanceFit/fsmd.cc:218-243) -/
noncomputable def fsmdStep (f : Fsmd) (par : ℕ → ℝ) (acc : ℕ × St) (b : ℕ) : ℕ × St :=
  let r := storePars f.id (f.parIndex.getD b 0) (f.fn b).npar par acc.2.P
  (acc.1 + (f.fn b).npar,
    { P := r.2, K := if r.1 then f.invalidate b acc.2.K else acc.2.K })

/-- `fsmd::importParameters` (resonanceFit/fsmd.cc:210-247) -/
noncomputable def Fsmd.importParameters (f : Fsmd) (par : ℕ → ℝ) (st : St) : ℕ × St :=
  (List.range f.nrFn).foldl (fsmdStep f par) (0, st)

/-- the function of bin `b` evaluated with the stored parameters (resonanceFit/fsmd.cc:261) -/
noncomputable def Fsmd.pure (f : Fsmd) (P : Params) (b : ℕ) (mass : ℝ) : ℂ :=
  (((f.fn b).eval mass ((List.range (f.fn b).npar).map fun j =>
    P.par f.id (f.parIndex.getD b 0 + j)) : ℝ) : ℂ)

open Classical in
/-- `fsmd::val` (resonanceFit/fsmd.cc:250-276) -/
noncomputable def Fsmd.val (f : Fsmd) (P : Params) (K : Cache) (b : ℕ) (mass : ℝ) :
    Option ℕ → ℂ × Cache
  | some m =>
    if K.comp f.id b m ≠ 0 then (K.comp f.id b m, K)
    else
      let v := f.pure P b mass
      (v, cacheGroup f.groups f.id b m v K)
  | none => (f.pure P b mass, K)

/-! ## model -/

/-- `model` (resonanceFit/model.h): components, final-state mass dependence, input, index of the
anchor wave and of the anchor component of each bin. -/
structure Model where
  comps : List Component
  fsmd : Option Fsmd
  input : Input
  anchorWave : List ℕ
  anchorComp : List ℕ

/-- `_components[i]` -/
def Model.comp (M : Model) (i : ℕ) : Component :=
  M.comps.getD i ⟨0, [], [], ⟨[], [], 0, [], 0, [], []⟩, [], .constant⟩

/-- `_waveComponentChannel[idxBin][idxWave]` as filled by `initMapping`
(resonanceFit/model.cc:193-227): all (component, channel) whose channel has the name of the wave. -/
def Model.mapping (M : Model) (b w : ℕ) : List (ℕ × ℕ) :=
  (List.range M.comps.length).flatMap fun ic =>
    ((List.range (M.comp ic).channels.length).filter fun ch =>
      ((M.comp ic).chan ch).waveName = (M.input.wavesOf b).getD w []).map fun ch => (ic, ch)

/-- `_nrParameters` as computed by the constructor of `model` (resonanceFit/model.cc:71-107). -/
def Model.nrParameters (M : Model) : ℕ :=
  (M.comps.foldl (fun n c =>
      (List.range c.maps.nrBr).foldl (fun n k => if c.maps.brFixed.getD k false then n else n + 2)
        ((List.range c.maps.nrCoup).foldl (fun n k => n + 2 * (c.coupBins k).length)
          (n + c.shape.nrParams))) 0)
  + (match M.fsmd with
    | none => 0
    | some f => (List.range f.nrFn).foldl (fun n b => n + (f.fn b).npar) 0)

/-- one of the loops over the components in `model::importParameters`
(resonanceFit/model.cc:293-307): `parcount` and the state are threaded through. -/
noncomputable def importLoop (imp : Component → (ℕ → ℝ) → St → ℕ × St) (comps : List Component)
    (par : ℕ → ℝ) (acc : ℕ × St) : ℕ × St :=
  comps.foldl (fun acc c =>
    let r := imp c (fun i => par (acc.1 + i)) acc.2
    (acc.1 + r.1, r.2)) acc

/-- `model::importParameters` (resonanceFit/model.cc:284-315), the final `parcount` is returned with
the state (it is compared with `_nrParameters` by an assertion). -/
noncomputable def Model.importAll (M : Model) (par : ℕ → ℝ) (st : St) : ℕ × St :=
  let a1 := importLoop importCouplings M.comps par (0, st)
  let a2 := importLoop importBranchings M.comps par a1
  let a3 := importLoop ResFit.importParameters M.comps par a2
  match M.fsmd with
  | none => a3
  | some f =>
    let r := f.importParameters (fun i => par (a3.1 + i)) a3.2
    (a3.1 + r.1, r.2)

open Classical in
/-- `model::productionAmplitude` (resonanceFit/model.cc:318-357) -/
noncomputable def Model.productionAmplitude (M : Model) (P : Params) (K : Cache) (w b : ℕ) (mass : ℝ)
    (idxMass : Option ℕ) : ℂ × Cache :=
  let compute : ℂ × Cache :=
    let r := (M.mapping b w).foldl (fun (acc : ℂ × Cache) (x : ℕ × ℕ) =>
      let v := (M.comp x.1).val P acc.2 b mass idxMass
      let g := (M.comp x.1).couplingPhaseSpace P v.2 x.2 b mass idxMass
      (acc.1 + v.1 * g.1, g.2)) (0, K)
    match M.fsmd with
    | none => r
    | some f =>
      let v := f.val P r.2 b mass idxMass
      (r.1 * v.1, v.2)
  match idxMass with
  | some m =>
    if K.amp w b m ≠ 0 then (K.amp w b m, K)
    else (compute.1, compute.2.setAmp (some w) (some b) (some m) compute.1)
  | none => compute

/-- `model::spinDensityMatrix` (resonanceFit/model.cc:388-402) -/
noncomputable def Model.spinDensityMatrix (M : Model) (P : Params) (K : Cache) (i j b : ℕ) (mass : ℝ)
    (idxMass : Option ℕ) : ℂ × Cache :=
  let a := M.productionAmplitude P K i b mass idxMass
  let c := M.productionAmplitude P a.2 j b mass idxMass
  (a.1 * star c.1, c.2)

/-! ## chi-square -/

/-- which elements of the covariance matrices are used (resonanceFit/data.h) -/
inductive Covariance where
  | diagonalOnly
  | complexDiagonalOnly
  | full
  deriving DecidableEq

/-- `data` (resonanceFit/data.h:60-168): mass-bin limits of the wave pairs, measured spin-density
matrix elements with inverted covariance, measured production amplitudes with inverted covariance. -/
structure Data where
  limits : ℕ → ℕ → ℕ → ℕ × ℕ
  rho : ℕ → ℕ → ℕ → ℕ → ℂ
  rhoCovInv : ℕ → ℕ → ℕ → ℕ → Fin 2 → Fin 2 → ℝ
  amps : ℕ → ℕ → ℕ → ℂ
  ampsCovInv : ℕ → ℕ → ℕ → ℕ → ℝ
  useCov : Covariance

open Classical in
/-- mass bins used for one wave, `prepareMassLimit` (resonanceFit/resonanceFitReadData.cc:1243-1262)
for `n` mass bins; a negative limit means no limit.  (For `n = 0` the program reads outside of the
array; such inputs are not modelled.) -/
noncomputable def waveLimits (n : ℕ) (center : ℕ → ℝ) (lim : ℝ × ℝ) : ℕ × ℕ :=
  let r := (List.range n).foldl (fun (r : ℕ × ℕ) m =>
    let first := if center m < lim.1 then m + 1 else r.1
    let first := if center m = lim.1 then m else first
    (first, if center m ≤ lim.2 then m else r.2)) (0, n - 1)
  (if lim.1 < 0 then 0 else r.1, if lim.2 < 0 then n - 1 else r.2)

/-- mass bins used for a pair of waves (resonanceFit/resonanceFitReadData.cc:1278-1284);
`lims b w` are the mass limits of the wave in the configuration. -/
noncomputable def pairLimits (I : Input) (lims : ℕ → ℕ → ℝ × ℝ) (b i j : ℕ) : ℕ × ℕ :=
  let li := waveLimits (I.nrMassOf b) (I.center b) (lims b i)
  let lj := waveLimits (I.nrMassOf b) (I.center b) (lims b j)
  (max li.1 lj.1, min li.2 lj.2)

/-- `function` (resonanceFit/function.h): model, data and kind of fit -/
structure Fn where
  M : Model
  D : Data
  useProdAmps : Bool

/-- number of waves in a bin -/
def Fn.nrWaves (F : Fn) (b : ℕ) : ℕ := (F.M.input.wavesOf b).length

/-- `_idxMassMin`, `_idxMassMax` (resonanceFit/function.cc:58-68); `maxNrMassBins` is the start value
of the minimum. -/
def Fn.massRange (F : Fn) (b : ℕ) : ℕ × ℕ :=
  (List.range (F.nrWaves b)).foldl (fun (r : ℕ × ℕ) w =>
    (min r.1 (F.D.limits b w w).1, max r.2 (F.D.limits b w w).2))
    (F.M.input.nrMass.foldl max 0, 0)

/-- the mass bins of the loop `for(idxMass = min; idxMass <= max; ++idxMass)` -/
def Fn.massBins (F : Fn) (b : ℕ) : List ℕ :=
  List.range' (F.massRange b).1 ((F.massRange b).2 + 1 - (F.massRange b).1)

/-- contribution of one element of the spin-density matrix
(resonanceFit/function.cc:321-339); `none` is the failing `assert(false)`. -/
noncomputable def rhoTerm (D : Data) (b m i j : ℕ) (rhoDiff : ℂ) : Option ℝ :=
  let c := D.rhoCovInv b m i j
  if i = j then some (rhoDiff.re * c 0 0 * rhoDiff.re)
  else match D.useCov with
    | .diagonalOnly => some (rhoDiff.re * c 0 0 * rhoDiff.re + rhoDiff.im * c 1 1 * rhoDiff.im)
    | .complexDiagonalOnly =>
      some (rhoDiff.re * c 0 0 * rhoDiff.re + rhoDiff.re * c 0 1 * rhoDiff.im
        + rhoDiff.im * c 1 0 * rhoDiff.re + rhoDiff.im * c 1 1 * rhoDiff.im)
    | .full => none

/-- `chiSquareSpinDensityMatrix` (resonanceFit/function.cc:298-349) -/
noncomputable def Fn.chiSquareRho (F : Fn) (P : Params) (K : Cache) : Option (ℝ × Cache) :=
  (List.range F.M.input.nrBins).foldlM (fun acc b =>
    (F.massBins b).foldlM (fun acc m =>
      (List.range (F.nrWaves b)).foldlM (fun acc i =>
        ((List.range (F.nrWaves b)).filter fun j => i ≤ j).foldlM (fun (acc : ℝ × Cache) j =>
          if m < (F.D.limits b i j).1 ∨ m > (F.D.limits b i j).2 then some acc
          else
            let r := F.M.spinDensityMatrix P acc.2 i j b (F.M.input.center b m) (some m)
            (rhoTerm F.D b m i j (r.1 - F.D.rho b m i j)).map fun t => (acc.1 + t, r.2)) acc) acc) acc)
    (0, K)

/-- `TMatrixTSym::Similarity(TVectorT)`: `vᵀ A v` for the `n` components of `v` -/
noncomputable def similarity (A : ℕ → ℕ → ℝ) (n : ℕ) (v : ℕ → ℝ) : ℝ :=
  ((List.range n).map fun i => ((List.range n).map fun j => v i * A i j * v j).sum).sum

/-- the loop over the waves in `chiSquareProductionAmplitudes`
(resonanceFit/function.cc:271-289): vector of differences and cache. -/
noncomputable def Fn.ampLoop (F : Fn) (P : Params) (b m : ℕ) (phase : ℂ) (K : Cache) :
    (ℕ → ℝ) × Cache :=
  (List.range (F.nrWaves b)).foldl (fun (acc : (ℕ → ℝ) × Cache) w =>
    if m < (F.D.limits b w w).1 ∨ m > (F.D.limits b w w).2 then acc
    else
      let r := F.M.productionAmplitude P acc.2 w b (F.M.input.center b m) (some m)
      let d := r.1 / phase - F.D.amps b m w
      (fun i => if i = 2 * w then d.re
                else if i = 2 * w + 1 ∧ w ≠ F.M.anchorWave.getD b 0 then d.im
                else acc.1 i, r.2)) (fun _ => 0, K)

/-- `chiSquareProductionAmplitudes` (resonanceFit/function.cc:249-295) -/
noncomputable def Fn.chiSquareAmps (F : Fn) (P : Params) (K : Cache) : ℝ × Cache :=
  (List.range F.M.input.nrBins).foldl (fun acc b =>
    (F.massBins b).foldl (fun (acc : ℝ × Cache) m =>
      let a := F.M.productionAmplitude P acc.2 (F.M.anchorWave.getD b 0) b
        (F.M.input.center b m) (some m)
      let r := F.ampLoop P b m (a.1 / ((‖a.1‖ : ℝ) : ℂ)) a.2
      (acc.1 + similarity (F.D.ampsCovInv b m) (2 * F.nrWaves b) r.1, r.2)) acc) (0, K)

/-- `function::chiSquare(par)` (resonanceFit/function.cc:143-177): import the parameters, evaluate,
keep store and cache for the next call. -/
noncomputable def Fn.chiSquare (F : Fn) (st : St) (par : ℕ → ℝ) : Option (ℝ × St) :=
  let s := (F.M.importAll par st).2
  if F.useProdAmps then
    let r := F.chiSquareAmps s.P s.K
    some (r.1, ⟨s.P, r.2⟩)
  else
    (F.chiSquareRho s.P s.K).map fun r => (r.1, ⟨s.P, r.2⟩)

/-- `logLikelihood(par)` (resonanceFit/function.cc:187-191) -/
noncomputable def Fn.logLikelihood (F : Fn) (st : St) (par : ℕ → ℝ) : Option (ℝ × St) :=
  (F.chiSquare st par).map fun r => (-0.5 * r.1, r.2)

/-- `second - first + 1` in the 64-bit unsigned arithmetic of `size_t` -/
def spanOf (l : ℕ × ℕ) : ZMod (2 ^ 64) := (l.2 : ZMod (2 ^ 64)) - (l.1 : ZMod (2 ^ 64)) + 1

/-- `function::getNrDataPoints` (resonanceFit/function.cc:99-137) -/
def Fn.nrDataPoints (F : Fn) : ZMod (2 ^ 64) :=
  (List.range F.M.input.nrBins).foldl (fun n b =>
    if F.useProdAmps then
      (List.range (F.nrWaves b)).foldl (fun n w =>
        let n := n + spanOf (F.D.limits b w w)
        if w ≠ F.M.anchorWave.getD b 0 then n + spanOf (F.D.limits b w w) else n) n
    else
      (List.range (F.nrWaves b)).foldl (fun n i =>
        (List.range (F.nrWaves b)).foldl (fun n j => n + spanOf (F.D.limits b i j)) n) n) 0

/-! ## reading the model from the configuration -/

/-- one entry of `components` in the configuration -/
structure CompCfg where
  name : Name
  shape : Shape
  chans : List Name

/-- final-state mass dependence in the configuration: absent, a map, or a sequence -/
inductive FsmdCfg where
  | absent
  | same (f : Formula)
  | perBin (fs : List Formula)

/-- configuration of the model -/
structure Cfg where
  comps : List CompCfg
  fsmd : FsmdCfg
  anchors : List (Name × Name)
  useBranchings : Bool

/-- `readModelComponents` (resonanceFit/resonanceFitReadConfig.cc:1277-1328): the id of a component is
its index, names must be unique. -/
noncomputable def readComponents (I : Input) (useBranchings : Bool) (cfgs : List CompCfg) :
    Option (List Component) :=
  cfgs.foldlM (fun acc cfg =>
    (mkComponent I useBranchings acc.length cfg.name cfg.shape cfg.chans).bind fun c =>
      if acc.any (fun c' => c'.name = c.name) then none else some (acc ++ [c])) []

/-- `readModelFsmd` (resonanceFit/resonanceFitReadConfig.cc:1373-1463) -/
noncomputable def readFsmd (I : Input) (id : ℕ) : FsmdCfg → Option (Option Fsmd)
  | .absent => some none
  | .same f => (mkFsmdSame I id f).map some
  | .perBin fs => (mkFsmdPerBin I id fs).map some

/-- check of `initMapping` (resonanceFit/model.cc:146-178): each wave of each bin is the wave of a
channel used in that bin. -/
def allWavesUsed (I : Input) (comps : List Component) : Bool :=
  (List.range I.nrBins).all fun b => (I.wavesOf b).all fun w =>
    comps.any fun c => c.channels.any fun ch =>
      decide (b ∈ ch.bins) && decide (ch.waveName = w)

/-- the search for the anchor wave of a bin in `initMapping` (resonanceFit/model.cc:181-255): exactly
one (wave, component, channel) with the configured names must exist and the channel must be the first
one of the component that is used in the bin. -/
def findAnchor (I : Input) (comps : List Component) (b : ℕ) (anchor : Name × Name) :
    Option (ℕ × ℕ) :=
  let hits := (List.range (I.wavesOf b).length).flatMap fun w =>
    (List.range comps.length).flatMap fun ic =>
      match comps[ic]? with
      | none => []
      | some c =>
        ((List.range c.channels.length).filter fun ch =>
          (c.chan ch).waveName = (I.wavesOf b).getD w [] ∧ anchor.1 = (I.wavesOf b).getD w []
            ∧ anchor.2 = c.name).map fun ch => (w, ic, ch)
  match hits with
  | [(w, ic, ch)] =>
    match comps[ic]? with
    | none => none
    | some c =>
      if ((List.range c.channels.length).find? fun j => decide (b ∈ (c.chan j).bins)).getD 0 = ch
      then some (w, ic) else none
  | _ => none

/-- `readInput` rejects a bin with two waves of the same name
(resonanceFit/resonanceFitReadConfig.cc:203-209). -/
def wavesUnique (I : Input) : Bool := I.waves.all fun ws => decide ws.Nodup

/-- `readModel` and the constructor of `model` (resonanceFit/resonanceFitReadConfig.cc:1468-1512,
resonanceFit/model.cc:44-281). -/
noncomputable def readModel (I : Input) (cfg : Cfg) : Option Model :=
  if I.nrBins = 0 ∨ I.waves.length ≠ I.nrBins ∨ cfg.anchors.length ≠ I.nrBins
      ∨ wavesUnique I = false then none
  else
    (readComponents I cfg.useBranchings cfg.comps).bind fun comps =>
    (readFsmd I comps.length cfg.fsmd).bind fun fsmd =>
    if allWavesUsed I comps = false then none
    else
      (cfg.anchors.zipIdx.mapM fun (a : (Name × Name) × ℕ) => findAnchor I comps a.2 a.1).map fun as =>
        ⟨comps, fsmd, I, as.map (·.1), as.map (·.2)⟩

/-! ## start values of the fit -/

/-- the values handed to the minimizer by `minimizerRoot::initParameters`
(resonanceFit/minimizerRoot.cc:289-369, 372-427, 431-490, 493-548), in the order of `parcount`: all
couplings, all free branchings, all component parameters (rows of the store are taken by the *index*
of the component), the parameters of the final-state mass dependence.  The imaginary part of the
coupling of the anchor wave is set to 0. -/
def startValues (M : Model) (P : Params) : List ℝ :=
  ((List.range M.comps.length).flatMap fun ic =>
    (List.range (M.comp ic).maps.nrCoup).flatMap fun k =>
      ((M.comp ic).coupBins k).flatMap fun b =>
        let ch := (M.comp ic).chan ((M.comp ic).maps.fromCoup.getD k 0)
        [(P.coup ic k b).re,
          if ch.waveAt b = some (M.anchorWave.getD b 0) ∧ M.anchorComp.getD b 0 = ic then 0
          else (P.coup ic k b).im])
  ++ ((List.range M.comps.length).flatMap fun ic =>
    (List.range (M.comp ic).maps.nrBr).flatMap fun k =>
      if (M.comp ic).maps.brFixed.getD k false then []
      else [(P.br ic k).re, (P.br ic k).im])
  ++ ((List.range M.comps.length).flatMap fun ic =>
    (List.range (M.comp ic).shape.nrParams).map fun k => P.par ic k)
  ++ (match M.fsmd with
    | none => []
    | some f => (List.range f.nrFn).flatMap fun b =>
        (List.range (f.fn b).npar).map fun j => P.par M.comps.length (f.parIndex.getD b 0 + j))

end Rpwa.ResFit
