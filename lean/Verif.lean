import Verif.Props.Spin
import Verif.Props.Clebsch
import Verif.Props.Factorial
import Verif.Props.DFunction
import Verif.Props.Accumulators
import Verif.Props.ArrayUtils
import Verif.Props.FileUtils
import Verif.Props.Fraction
import Verif.Props.Particle
import Verif.Props.Symmetrization
import Verif.Props.Isospin
import Verif.Props.EventMomenta
import Verif.Props.Vertex
import Verif.Props.WaveSet
import Verif.Props.IntegralMatrix
import Verif.Props.IntegralAscii
import Verif.Props.FitParameters
import Verif.Props.Likelihood
import Verif.Props.Hessian
import Verif.Props.LikTools
import Verif.Props.Covariance
import Verif.Props.SpinDensity
import Verif.Props.Coherence
import Verif.Props.FitErrors
import Verif.Props.FitErrorsLabelled
import Verif.Props.FitRefill
import Verif.Props.FitExamples
import Verif.Props.WaveName
import Verif.Props.BestResult
import Verif.Props.ComplexMatrix
import Verif.Props.ParameterSpace
import Verif.Props.Storage
import Verif.Props.StorageMerge
import Verif.Props.OtfBin
import Verif.Props.OtfAmps
import Verif.Props.MultiBin
import Verif.Props.FileManager
import Verif.Props.Config
import Verif.Props.ResonanceFit
import Verif.Props.ResonanceFitData
import Verif.Props.ResonanceFitEx
import Verif.Props.KinematicsRoundTrip
import Verif.Props.PhaseSpaceAll
import Verif.Props.PhaseSpaceGenbod
import Verif.Props.GeneratorEvent
import Verif.Props.FramesHelicity
import Verif.Props.Amplitude
import Verif.Props.AmplitudeFrames
import Verif.Props.AmplitudeExample
import Verif.Props.PhysUtils
import Verif.Props.MassDependence
import Verif.Props.MassDependenceS
import Verif.Props.KeyFile
import Verif.Props.PhaseSpaceIntegralS
import Verif.Props.KeyExpand
import Verif.Props.PwaFit
import Verif.Props.PwaFitEx
import Verif.Props.PwaFitMatrices
import Verif.Props.PwaFitStart
import Verif.Props.PwaFitYield
import Verif.Props.PwaNlopt
import Verif.Props.LikSetup
import Verif.Props.LikSetupMain
import Verif.Props.LikSetupUse
import Verif.Props.Rounding
import Verif.Props.EventWeights
import Verif.Props.EventWeightsMain
import Verif.Props.EventWeightsTotal
import Verif.Props.ModelIntensity
import Verif.Props.ModelIntensityEx
import Verif.Props.VariedAmps
import Verif.Props.Pickers
import Verif.Props.PickersInit
import Verif.Props.PickersShape
import Verif.Props.PickersT
import Verif.Props.PickersPick
import Verif.Props.PickersMain
import Verif.Props.PickersOther
import Verif.Props.BeamVertex
import Verif.Props.BeamVertexRun
import Verif.Props.BeamVertexMore
import Verif.Props.StorageMergeAux
import Verif.Props.MassDependenceVes
import Verif.Props.GeneratorManagerRead
import Verif.Props.GeneratorManagerEvent
import Verif.Props.GeneratorManager
import Verif.Props.GeneratorManagerEx
import Verif.Props.DecayGraphSum
import Verif.Props.DecayGraphCloneTree
import Verif.Props.ModelIntensityMore
import Verif.Props.ResonanceFitMaps
import Verif.Props.KeyFileMore
import Verif.Props.ResonanceShapesEx
import Verif.Props.DecayGraphSubMain
import Verif.Props.DecayGraphHolds
import Verif.Props.WaveGraph
import Verif.Props.EvtFile
import Verif.Props.ImportanceSampler
import Verif.Props.ResFitConfig
import Verif.Props.ResFitConfigEx
import Verif.Props.ResFitMinimize
import Verif.Props.ResFitResume
import Verif.Props.ResFitSteps
import Verif.Props.CgBox
import Verif.Props.SpinWave
import Verif.Props.SpinAmpl
import Verif.Props.SpinChannel
import Verif.Props.SpinHelicity
import Verif.Props.CudaLik
import Verif.Props.FitIntegralsEx
import Verif.Props.FitAttempts
import Verif.Props.FitAttemptsMatrices
import Verif.Props.FitAttemptsEx
import Verif.Props.IntegralMeta
import Verif.Props.IntegralFiles
import Verif.Props.IntegralOtf
import Verif.Props.IntegralMetaEx
import Verif.Props.Refit
import Verif.Props.RefitMain
import Verif.Props.RefitEx
import Verif.Props.FitSelect
import Verif.Props.WaveList
import Verif.Props.FitSelectEx
import Verif.Props.AmpCalc
import Verif.Props.AmpCalcEx
import Verif.Props.Deweight
import Verif.Props.DeweightProb
import Verif.Props.DeweightEx
import Verif.Props.EvtConvert
import Verif.Props.EvtConvertMain
import Verif.Props.EvtConvertEx
import Verif.Props.CheckKey
import Verif.Props.CheckKeyMain
import Verif.Props.CheckKeyEx
import Verif.Props.TreeLeaf
import Verif.Props.TreeLeafEx
import Verif.Props.PhaseGen
import Verif.Props.PhaseGenEx
import Verif.Props.Arrays
import Verif.Props.ArraysEx
import Verif.Props.Plots
import Verif.Props.PlotsEx
import Verif.Props.FitCov
import Verif.Props.FitCovAmp
import Verif.Props.FitCovRun
import Verif.Props.FitCovEx
import Verif.Props.FitRead
import Verif.Props.FitReadSys
import Verif.Props.FitReadEx
import Verif.Props.FitChi2
import Verif.Props.FitChi2Ex
import Verif.Props.Angles
import Verif.Props.MassShapes
import Verif.Props.SumPlots
import Verif.Props.SumPlotsEx
import Verif.Props.SlicesLine
import Verif.Props.Slices
import Verif.Props.SlicesEx
import Verif.Props.DataObj
import Verif.Props.SlicesTaylor
import Verif.Props.Anchors
import Verif.Props.DataMissing
import Verif.Props.GenSample
