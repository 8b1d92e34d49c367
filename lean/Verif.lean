import Verif.Action
import Verif.ActionMore
import Verif.ActionProps
import Verif.AllGenProps
import Verif.Arith
import Verif.ArithProps
import Verif.Averages
import Verif.AveragesProps
import Verif.AxisRounding
import Verif.AxisRoundingProps
import Verif.BandLimitProps
import Verif.Basic
import Verif.CascadeProps
import Verif.ChiExpectProps
import Verif.ComptonRounding
import Verif.ComptonRoundingProps
import Verif.Construct
import Verif.ConstructProps
import Verif.CountSharesProps
import Verif.CppArrays
import Verif.CppArraysMore
import Verif.CppArraysProps
import Verif.CutAction
import Verif.CutActionProps
import Verif.CutRounding
import Verif.CutRoundingMore
import Verif.CutRoundingProps
import Verif.DecomposeFit
import Verif.DecomposeFitProps
import Verif.Decomposition
import Verif.DecompositionProps
import Verif.DiagRounding
import Verif.DiagRoundingMore
import Verif.DiagRoundingProps
import Verif.Diagonal
import Verif.DiagonalProps
import Verif.Discrete
import Verif.DiscreteMore
import Verif.DiscreteProps
import Verif.Draw
import Verif.DrawMore
import Verif.DrawProps
import Verif.EnergyUnitProps
import Verif.EnsLimit
import Verif.EnsLimitProps
import Verif.EnsNorm
import Verif.EnsNormMore
import Verif.EnsNormProps
import Verif.EnsObj
import Verif.EnsObjProps
import Verif.EnsPerturb
import Verif.EnsPerturbProps
import Verif.EnsRebin
import Verif.EnsRebinProps
import Verif.Ensemble
import Verif.EnsembleProps
import Verif.Equality
import Verif.EqualityProps
import Verif.ErrorRounding
import Verif.ErrorRoundingProps
import Verif.ExtStats
import Verif.ExtStatsProps
import Verif.ExtractLoop
import Verif.ExtractLoopProps
import Verif.Extractor
import Verif.ExtractorMore
import Verif.ExtractorProps
import Verif.FactorRounding
import Verif.FactorRoundingProps
import Verif.FanEndRounding
import Verif.FanEndRoundingProps
import Verif.FgSettleProps
import Verif.FileIO
import Verif.FileIOMore
import Verif.FileIOProps
import Verif.Finv
import Verif.FinvProps
import Verif.FirstGen
import Verif.FirstGenMore
import Verif.FirstGenProps
import Verif.FirstGenRounding
import Verif.FirstGenRoundingMore
import Verif.FirstGenRoundingProps
import Verif.FitFiles
import Verif.FitFilesProps
import Verif.GaugeProps
import Verif.GlobalRng
import Verif.GlobalRngMore
import Verif.GlobalRngProps
import Verif.GsfNorm
import Verif.GsfNormMore
import Verif.GsfNormProps
import Verif.GsfNormTotal
import Verif.GsfObj
import Verif.GsfObjProps
import Verif.Helpers
import Verif.HelpersProps
import Verif.Index
import Verif.IndexLemmas
import Verif.IndexProps
import Verif.InterpMat
import Verif.InterpMatProps
import Verif.InterpRounding
import Verif.InterpRoundingProps
import Verif.Introspection
import Verif.IntrospectionMore
import Verif.IntrospectionProps
import Verif.Library
import Verif.LibraryMore
import Verif.LibraryProps
import Verif.Lifecycle
import Verif.LifecycleMore
import Verif.LifecycleProps
import Verif.LikeBiasProps
import Verif.LoadObj
import Verif.LoadObjMore
import Verif.LoadObjProps
import Verif.LogInterpRounding
import Verif.LogInterpRoundingProps
import Verif.MamaText
import Verif.MamaTextMore
import Verif.MamaTextProps
import Verif.MatMul
import Verif.MatMulProps
import Verif.Matrix
import Verif.MatrixMore
import Verif.MatrixProps
import Verif.MatrixRebin
import Verif.MatrixRebinMore
import Verif.MatrixRebinProps
import Verif.ModelFiles
import Verif.ModelFilesMore
import Verif.ModelFilesProps
import Verif.Models
import Verif.ModelsProps
import Verif.NldLike
import Verif.NldLikeProps
import Verif.NldLikeRounding
import Verif.NldLikeRoundingMore
import Verif.NldLikeRoundingProps
import Verif.NldNorm
import Verif.NldNormMore
import Verif.NldNormProps
import Verif.NormPlot
import Verif.NormPlotProps
import Verif.ObjHistoryProps
import Verif.ObjRaiseProps
import Verif.ObjectsMore
import Verif.PeakRounding
import Verif.PeakRoundingProps
import Verif.Pipeline
import Verif.PipelineProps
import Verif.Plots
import Verif.PlotsMore
import Verif.PlotsProps
import Verif.Printf
import Verif.PrintfMore
import Verif.PrintfProps
import Verif.Prior
import Verif.PriorMore
import Verif.PriorProps
import Verif.PriorRounding
import Verif.PriorRoundingProps
import Verif.Rebin
import Verif.RebinLemmas
import Verif.RebinProps
import Verif.RebinRounding
import Verif.RebinRoundingProps
import Verif.RepoTests
import Verif.Report
import Verif.ReportMore
import Verif.ReportProps
import Verif.Response
import Verif.ResponseCompton
import Verif.ResponseDir
import Verif.ResponseDirProps
import Verif.ResponseMore
import Verif.ResponseProps
import Verif.ResponseTable
import Verif.ResultFile
import Verif.ResultFileMore
import Verif.ResultFileProps
import Verif.RhoSigChi
import Verif.RhoSigChiFit
import Verif.RhoSigChiFitMore
import Verif.RhoSigChiFitProps
import Verif.RhoSigChiLemmas
import Verif.RhoSigChiProps
import Verif.Rounding
import Verif.RoundingMore
import Verif.RoundingProps
import Verif.RscErrors
import Verif.RscErrorsProps
import Verif.RscRounding
import Verif.RscRoundingMore
import Verif.RscRoundingProps
import Verif.Samples
import Verif.SamplesProps
import Verif.SaveTxt
import Verif.SaveTxtMore
import Verif.SaveTxtProps
import Verif.ScaleProps
import Verif.SelfIfNone
import Verif.SelfIfNoneProps
import Verif.Sharing
import Verif.SharingLemmas
import Verif.SharingMore
import Verif.SharingProps
import Verif.Simultan
import Verif.SimultanProps
import Verif.SmoothRounding
import Verif.SmoothRoundingMore
import Verif.SmoothRoundingProps
import Verif.Smoothing
import Verif.SmoothingMore
import Verif.SmoothingProps
import Verif.Spin
import Verif.SpinMore
import Verif.SpinProps
import Verif.SpinRounding
import Verif.SpinRoundingProps
import Verif.Start
import Verif.StartMore
import Verif.StartProps
import Verif.Stats
import Verif.StatsProps
import Verif.StdRounding
import Verif.StdRoundingMore
import Verif.StdRoundingProps
import Verif.SumRounding
import Verif.SumRoundingProps
import Verif.TarJobs
import Verif.TarJobsMore
import Verif.TarJobsProps
import Verif.TornExtract
import Verif.TornExtractProps
import Verif.TornFiles
import Verif.TornFilesProps
import Verif.TornText
import Verif.TornTextProps
import Verif.TransformRounding
import Verif.TransformRoundingProps
import Verif.Trapezoid
import Verif.TrapezoidProps
import Verif.Unchecked
import Verif.UncheckedProps
import Verif.UnfoldNoise
import Verif.UnfoldNoiseProps
import Verif.UnfoldRounding
import Verif.UnfoldRoundingProps
import Verif.UnfoldRowsProps
import Verif.UnfoldSettleMore
import Verif.UnfoldSettleProps
import Verif.Unfolder
import Verif.UnfolderMore
import Verif.UnfolderProps
import Verif.UnitRounding
import Verif.UnitRoundingProps
import Verif.Vector
import Verif.VectorProps
import Verif.WidthRounding
import Verif.WidthRoundingCurves
import Verif.WidthRoundingMore
import Verif.WidthRoundingProps
