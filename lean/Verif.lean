import Verif.Props.TreeProps
import Verif.Props.DiscretiseProps
import Verif.Props.GammaProps
import Verif.Props.ProxProps
import Verif.Props.CostProps
import Verif.Props.SgdProps
import Verif.Props.SmoothProps
import Verif.Props.CleanProps
import Verif.Props.DepthTuneProps
import Verif.Props.PruneProps
import Verif.Props.BoxProps
import Verif.Props.LevelProps
import Verif.Props.SmoothAllProps
import Verif.Props.TorchProps
import Verif.Props.TorchRunProps
import Verif.Props.TorchCenterProps
import Verif.Props.DataProps
import Verif.Props.ImpurityProps
import Verif.Props.OobProps
import Verif.Props.LinalgProps
import Verif.Props.KernelProps
import Verif.Props.MetricProps
import Verif.Props.NormProps
import Verif.Props.BoxCoverProps
import Verif.Props.TreeMoreProps
import Verif.Props.TuneLossProps
import Verif.Props.AdamBoundProps
import Verif.Props.DescentProps
import Verif.Props.SearchProps
import Verif.Props.AliveProps
import Verif.Props.AffineProps
import Verif.Props.OrderProps
import Verif.Props.TreeOrderProps
import Verif.Props.AllExactProps
import Verif.Props.TorchSourceProps
import Verif.Props.SmoothImpProps
import Verif.Props.ExperimentProps
import Verif.Props.GrowProps
import Verif.Props.ReturnProps
import Verif.Props.CleanReturnProps
import Verif.Props.RenameProps
import Verif.Props.RepeatProps
import Verif.Props.CleanOrderProps
import Verif.Props.CallProps
import Verif.Props.ImpOrderProps
import Verif.Props.ImpRenameProps
import Verif.Props.ForestHeapProps
import Verif.Props.AssessProps
import Verif.Props.RepoTests
import Verif.Props.FitProps
import Verif.Props.TrainTuneProps
import Verif.Props.DistArgsProps
import Verif.Props.RangeProps
import Verif.Props.CooProps
import Verif.Props.EmptyProps
import Verif.Props.TestTreeProps
import Verif.Props.TestGammaProps
import Verif.Props.FloatProps
import Verif.Props.TestCleanProps
import Verif.Props.TestLevelProps
import Verif.Props.UpdateCloseProps
import Verif.Props.TestTorchProps
import Verif.Props.TestSanityProps
import Verif.Props.TestPruneProps
import Verif.Props.FloatImpurityProps
import Verif.Props.FloatProxProps
import Verif.Props.FloatSmoothProps
import Verif.Props.FloatSanityProps
import Verif.Props.TruncProps
import Verif.Props.CountProps
import Verif.Props.DataTests
import Verif.Props.FloatDepthProps
import Verif.Props.DepthTwiceProps
import Verif.Props.AdamLimitProps
import Verif.Props.TestCallProps
import Verif.Props.ReversibleProps
import Verif.Props.PosTolProps
import Verif.Props.FloatAllProps
import Verif.Props.FloatQuantileProps
import Verif.Props.FloatBoxProps
import Verif.Props.FloatCostProps
import Verif.Props.MarginProps
import Verif.Props.CopiesProps
import Verif.Props.ProxCeProps
import Verif.Props.ForestMarginProps
import Verif.Props.OldScriptsProps
import Verif.Props.FloatGradProps
import Verif.Props.FloatGradCeProps
import Verif.Props.ProxContinuityProps
import Verif.Props.StuckProps
import Verif.Props.AllDepthProps
import Verif.Props.WeakestLinkProps
import Verif.Props.SmoothTwiceProps
import Verif.Props.ObjectiveProps
import Verif.Props.FloatCleanProps
import Verif.Props.BinaryProps
import Verif.Props.RaiseProps
import Verif.Props.FloatSgdProps
import Verif.Props.FloatForestProps
import Verif.Props.FloatCleanForestProps
import Verif.Props.FloatCleanGradProps
import Verif.Props.TorchGradProps
import Verif.Props.TestOobFloatProps
import Verif.Props.FloatPruneProps
import Verif.Props.FloatAdamProps
import Verif.Props.FloatUnitsProps
import Verif.Props.CleanUnitsProps
import Verif.Props.TuneUnitsProps
import Verif.Props.AllUnitsProps
import Verif.Props.CmdLineProps
import Verif.Props.ImpUnitsProps
import Verif.Props.GammaArgsProps
import Verif.Props.ImpReturnProps
import Verif.Props.CountClsProps
import Verif.Props.AllSourceProps
import Verif.Props.AllRepeatProps
import Verif.Props.AllSmoothProps
import Verif.Props.DictProps
import Verif.Props.DepthOrderProps
import Verif.Props.FeasibleProps
import Verif.Props.AllNamesProps
import Verif.Props.DepthNamesProps
import Verif.Props.BatchProps
import Verif.Props.CleanRepeatProps
import Verif.Props.LevelPairProps
import Verif.Props.ForestCrashProps
import Verif.Props.SeedProps
import Verif.Props.FloatTuneUnitsProps
import Verif.Props.FloatDepthOrderProps
import Verif.Props.FloatCleanUnitsProps
import Verif.Props.FloatScoresProps
import Verif.Props.FloatWeightedScoreProps
import Verif.Props.FloatScoreOrderProps
import Verif.Audit
