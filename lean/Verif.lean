import Verif.Py
import Verif.Sk
import Verif.MP
import Verif.Tuner.Model
import Verif.Tuner.Spec
import Verif.Tuner.Lemmas
import Verif.Tuner.Props
import Verif.Tuner.PropsSolve
import Verif.Fit.Model
import Verif.Fit.Spec
import Verif.Fit.Lemmas
import Verif.Fit.Invariant
import Verif.Fit.FitLemmas
import Verif.Fit.Props
import Verif.Fit.Props2
import Verif.Fit.Examples2
import Verif.Fit.Guided
import Verif.Fit.Examples
import Verif.BDR.Model
import Verif.BDR.Spec
import Verif.BDR.Lemmas
import Verif.BDR.SubLemmas
import Verif.BDR.PriceLemmas
import Verif.BDR.MasterLemmas
import Verif.BDR.Props
import Verif.BDR.PriceProps
import Verif.BDR.Fit
import Verif.BDR.FitLemmas
import Verif.BDR.FitContract
import Verif.BDR.FitProps
import Verif.BDR.FitExamples
import Verif.MPAbs
import Verif.DTree.Model
import Verif.DTree.Spec
import Verif.DTree.TreeLemmas
import Verif.DTree.TreeProps
import Verif.DTree.ReachProps
import Verif.DTree.Master
import Verif.DTree.MasterSpec
import Verif.DTree.MasterLemmas
import Verif.DTree.MasterInv
import Verif.DTree.MasterHist
import Verif.DTree.MasterProps
import Verif.DTree.LpProps
import Verif.DTree.CutProps
import Verif.DTree.Demo
import Verif.DTree.Sub
import Verif.DTree.SubSpec
import Verif.DTree.SubLemmas
import Verif.DTree.SubPoints
import Verif.DTree.SubProps
import Verif.DTree.SubDemo
import Verif.DTree.Heur
import Verif.DTree.HeurProps
import Verif.DTree.HeurDemo
import Verif.DTree.Link
import Verif.DTree.LinkProps
import Verif.DTree.LinkDemo
import Verif.DTree.Fit
import Verif.DTree.FitSpec
import Verif.DTree.FitLemmas
import Verif.DTree.FitCols
import Verif.DTree.FitSig
import Verif.Fit.Trace
import Verif.DTree.FitInv
import Verif.Fit.Classes
import Verif.DTree.FitProps
import Verif.LP.Duality
import Verif.LP.Integer
import Verif.DTree.FitIdeal
import Verif.DTree.FitDemo
import Verif.DTree.RefitProps
import Verif.DTree.RefitDemo
import Verif.Exp.Preprocess
import Verif.Exp.MergeLemmas
import Verif.Exp.PreprocessProps
import Verif.Exp.SplitSets
import Verif.Exp.AggressiveProps
import Verif.Exp.Pipeline
import Verif.Exp.SplitProps
import Verif.Exp.CartProps
import Verif.Exp.NodeProps
import Verif.Exp.PathProps
import Verif.Exp.PipelineLemmas
import Verif.Exp.PrepareLemmas
import Verif.Exp.PrepareProps
import Verif.Exp.ExperimentProps
import Verif.Exp.CandProps
import Verif.Exp.PrepareDemo
import Verif.Fit.TimeProps
import Verif.Fit.Examples3
import Verif.DTree.OnceProps
import Verif.DTree.OldDemo
import Verif.Fit.Simulation
import Verif.Fit.SimProps
import Verif.Tests.Tuner
import Verif.Tests.BDR
import Verif.Tests.BDRHeuristic
import Verif.Tests.DTree
import Verif.LP.Min
import Verif.BDR.FitIdeal
import Verif.BDR.RuleProps
import Verif.Tuner.RegretProps
import Verif.Fit.Relabel
import Verif.Fit.RelabelProps
import Verif.BDR.RefitProps
import Verif.BDR.SessionProps
import Verif.BDR.SessionDemo
import Verif.DTree.CutComplete
import Verif.DTree.CutCompleteDemo
import Verif.Fit.Balance
import Verif.Exp.Report
import Verif.Exp.ReportProps
import Verif.Exp.ReportDemo
import Verif.Exp.CartCompare
import Verif.Exp.CartDemo
import Verif.Fit.Bisim
import Verif.DTree.OrderLemmas
import Verif.DTree.OrderSub
import Verif.DTree.OrderProps
import Verif.DTree.OrderDemo
import Verif.DTree.PredictExact
import Verif.Exp.Options
import Verif.Exp.OptionsProps
import Verif.Exp.OptionsDemo
import Verif.Exp.Main
import Verif.Exp.MainProps
import Verif.Exp.ProgramProps
import Verif.Exp.MainDemo
import Verif.Noise
import Verif.DTree.NoiseProps
import Verif.DTree.NoiseDemo
import Verif.BDR.NoiseProps
import Verif.BDR.CertProps
import Verif.BDR.CertDemo
import Verif.BDR.ZeroProps
import Verif.BDR.ZeroDemo
import Verif.BDR.Strict
import Verif.BDR.StrictLemmas
import Verif.BDR.StrictProps
import Verif.BDR.StrictDemo
import Verif.Fit.Prog
import Verif.Fit.Until
import Verif.Fit.Raised
import Verif.DTree.Strict
import Verif.DTree.StrictLemmas
import Verif.DTree.StrictAgree
import Verif.DTree.StrictProps
import Verif.DTree.StrictDemo
import Verif.DTree.ReuseProps
import Verif.DTree.ReuseDemo
import Verif.DTree.RowsProps
import Verif.DTree.RowsDemo
import Verif.Params.Model
import Verif.Params.Props
import Verif.Params.Demo
import Verif.DTree.CertProps
import Verif.DTree.CertDemo
import Verif.DTree.EmptyProps
import Verif.Fit.Stuck
import Verif.LP.Weak
import Verif.Fit.Rounds
import Verif.BDR.MultiProps
import Verif.DTree.StartProps
import Verif.DTree.StartDemo
import Verif.Fl
import Verif.Tuner.RoundModel
import Verif.Tuner.RoundLemmas
import Verif.Tuner.RoundProps
import Verif.Tuner.RoundDemo
import Verif.Exp.IntProps
import Verif.Exp.LargeProps
import Verif.Exp.LargeDemo
import Verif.DTree.SharedProps
import Verif.DTree.SharedDemo
import Verif.Fit.LimitLemmas
import Verif.Fit.LimitProps
import Verif.BDR.LimitProps
import Verif.DTree.LimitProps
import Verif.BDR.GuidedDemo
import Verif.BDR.LimitDemo
import Verif.DTree.OtherData
import Verif.DTree.OtherDemo
import Verif.FlNearest
import Verif.Exp.SingleProps
import Verif.Exp.SingleDemo
import Verif.Exp.BestProps
import Verif.Exp.BestDemo
import Verif.DTree.Narrow
import Verif.DTree.NarrowDemo
import Verif.DTree.FloatPrice
import Verif.DTree.FloatPriceDemo
import Verif.BDR.FloatHeur
import Verif.DTree.FloatHeur
import Verif.DTree.FloatHeurDemo
import Verif.DTree.FloatCut
import Verif.DTree.FloatRounds
import Verif.DTree.FloatCutDemo
import Verif.Fit.Degraded
import Verif.BDR.SolverProps
import Verif.BDR.SolverDemo
import Verif.DTree.SolverProps
import Verif.DTree.SolverDemo
import Verif.Fit.Life
import Verif.BDR.LifeProps
import Verif.BDR.LifeDemo
import Verif.DTree.LifeProps
import Verif.DTree.LifeDemo
import Verif.DTree.Heap
import Verif.DTree.HeapLemmas
import Verif.DTree.HeapRefine
import Verif.DTree.HeapProps
import Verif.DTree.HeapFrame
import Verif.DTree.HeapShare
import Verif.DTree.HeapDup
import Verif.DTree.HeapDemo
import Verif.DTree.StaleProps
import Verif.DTree.StaleDemo
import Verif.DTree.IntProps
import Verif.DTree.IntDemo
import Verif.DTree.ScheduleProps
import Verif.DTree.ScheduleDemo
import Verif.BDR.Sparse
import Verif.DTree.Sparse
import Verif.DTree.SparseDemo
import Verif.BDR.SwapProps
import Verif.DTree.SwapProps
import Verif.DTree.SwapDemo
import Verif.BDR.LeanProps
import Verif.BDR.LeanDemo
import Verif.DTree.BestProps
import Verif.DTree.BestDemo
import Verif.BDR.RepeatProps
import Verif.BDR.RepeatDemo
import Verif.DTree.MoreRowsProps
import Verif.DTree.MoreRowsDemo
import Verif.Fit.PointProps
import Verif.Fit.PointDemo
import Verif.Check
import Verif.BDR.CheckProps
import Verif.DTree.CheckProps
import Verif.BDR.CheckDemo
import Verif.Fit.ScoreProps
import Verif.Fit.ScoreDemo
import Verif.Fit.OneClassProps
import Verif.Fit.OneClassDemo
import Verif.Exp.ScoreProps
import Verif.BDR.SepProps
import Verif.BDR.SepDemo
import Verif.BDR.ApproxProps
import Verif.BDR.ApproxDemo
import Verif.Fit.ClashProps
import Verif.Fit.ClashDemo
import Verif.DTree.CutGen
import Verif.DTree.CutGenProps
import Verif.Exp.NodesList
import Verif.Fit.WeightProps
import Verif.BDR.SparseRuleProps
import Verif.BDR.SparseRuleDemo
import Verif.DTree.WitnessProps
import Verif.DTree.WitnessDemo
import Verif.Fit.BaselineProps
import Verif.Fit.BaselineDemo
import Verif.DTree.RulesProps
import Verif.DTree.RulesDemo
import Verif.Tuner.StatsProps
import Verif.Exp.ResultFile
import Verif.DTree.FloatLeaf
import Verif.Fit.FloatScoreProps
import Verif.Fit.OverrunProps
import Verif.BDR.NegativeProps
import Verif.BDR.PrecisionProps
import Verif.Fit.CallsProps
