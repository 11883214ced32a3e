import Verif.Model.ResonanceFit
import Verif.Model.Plots
/-!
# Which sums over bins a resonance fit plots

Models `baseData::binsHaveEqualStructure` (resonanceFit/data.cc:87-113), the last loop of `model::initMapping` (resonanceFit/model.cc:256-279) and
their use in `createPlots` (resonanceFit/resonanceFitPlot.cc:650-728) for a model that was read.  Simplifications: mass-bin centres are real numbers;
the number of waves and the names of the data are those of the input, from which they were read. -/
namespace Rpwa.ResFit

/-- resonanceFit/data.cc:90-99: the waves of every bin are compared with those of the first bin, in their order. -/
def equalWaves (I : Input) : Bool :=
  (List.range I.waves.length).all fun b =>
    decide ((I.wavesOf b).length = (I.wavesOf 0).length) &&
      (List.range (I.wavesOf b).length).all fun w => decide ((I.wavesOf b).getD w [] = (I.wavesOf 0).getD w [])

open Classical in
/-- resonanceFit/data.cc:101-110: the mass bins of every bin are compared with those of the first bin. -/
noncomputable def equalMassBins (I : Input) : Bool :=
  (List.range I.nrBins).all fun b =>
    decide (I.nrMassOf b = I.nrMassOf 0) && (List.range (I.nrMassOf b)).all fun m => decide (I.center b m = I.center 0 m)

/-- resonanceFit/data.cc:87-113 `binsHaveEqualStructure`. -/
noncomputable def equalStructure (I : Input) : Bool := equalWaves I && equalMassBins I

/-- `_anchorChannelIndices[idxBin]`; resonanceFit/model.cc:237-252: a model is only made if this is the first channel of the anchor component that is
used in the bin. -/
def Model.anchorChannel (M : Model) (b : ℕ) : ℕ :=
  ((List.range (M.comp (M.anchorComp.getD b 0)).channels.length).find? fun j => decide (b ∈ ((M.comp (M.anchorComp.getD b 0)).chan j).bins)).getD 0

/-- resonanceFit/model.cc:256-279 `_mappingEqualInAllBins`: anchors and mappings of the bins are compared with those of the first bin. -/
def Model.mappingEqual (M : Model) : Bool :=
  (List.range' 1 (M.input.nrBins - 1)).all fun b =>
    decide (M.anchorWave.getD b 0 = M.anchorWave.getD 0 0) && decide (M.anchorComp.getD b 0 = M.anchorComp.getD 0 0) &&
      decide (M.anchorChannel b = M.anchorChannel 0) &&
      (List.range (M.input.wavesOf b).length).all fun w => decide (M.mapping b w = M.mapping 0 w)

/-- resonanceFit/resonanceFitPlot.cc:650-728 for a model; `getNrBins` of the final-state mass dependence is the number of bins of the data
(resonanceFit/fsmd.cc:54, :144), also if it has one function for all of them. -/
noncomputable def Model.plots (M : Model) : List Plots.Job :=
  Plots.createPlots (M.input.waves.map List.length) (M.fsmd.map fun _ => M.input.nrBins) (equalStructure M.input) M.mappingEqual

end Rpwa.ResFit
