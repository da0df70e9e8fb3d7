import Verif.Store.Props
import Verif.Trial.Props
import Verif.Trial.FileProps
import Verif.Run.Props
import Verif.Run.Policy
import Verif.Opt.Simple
import Verif.MF.Props
import Verif.Space.DomainProps
import Verif.Space.EncodeProps
import Verif.Space.ParamProps
import Verif.Space.SpaceProps
import Verif.Space.CompareProps
import Verif.Space.Prior
import Verif.Space.PriorSpec
import Verif.Space.PriorProps
import Verif.Space.ScoreProps
import Verif.Space.GridProps
import Verif.Args.YamlProps
import Verif.Args.SettingsProps
import Verif.Args.SearcherProps
import Verif.Args.SpaceYamlProps
import Verif.Status.Props
import Verif.Status.ParallelProps
import Verif.Run.LineageProps
import Verif.Seed.Props
import Verif.Seed.MFProps
import Verif.Create.Props
import Verif.Sampling.Model
import Verif.Sampling.Spec
import Verif.Sampling.BorderProps
import Verif.Sampling.WeightedProps
import Verif.Sampling.PriorProps
import Verif.Sampling.AlignProps
import Verif.Sampling.LogProbProps
import Verif.Bo.Model
import Verif.Bo.DesignProps
import Verif.Bo.DataProps
import Verif.Bo.AcqProps
import Verif.PriorBand.Model
import Verif.PriorBand.Spec
import Verif.PriorBand.WeightProps
import Verif.PriorBand.ActivationProps
import Verif.PriorBand.ChoiceProps
import Verif.PriorBand.Vary
import Verif.PriorBand.VaryProps
import Verif.PriorBand.DistProps
import Verif.PriorBand.ModelBased
import Verif.PriorBand.ModelBasedProps
import Verif.Ifbo.Model
import Verif.Ifbo.Spec
import Verif.Ifbo.Casts
import Verif.Ifbo.Levels
import Verif.Ifbo.Acquire
import Verif.Ifbo.History
import Verif.Ifbo.DataProps
import Verif.Ifbo.Props
import Verif.Grammar.Model
import Verif.Grammar.Spec
import Verif.Grammar.TextLemmas
import Verif.Grammar.Locate
import Verif.Grammar.SampleLemmas
import Verif.Grammar.Props
import Verif.Grammar.Cases
import Verif.Grammar.PriorModel
import Verif.Grammar.PriorProps
import Verif.Grammar.ComposeModel
import Verif.Grammar.ComposeLemmas
import Verif.Grammar.ComposeProps
import Verif.Grammar.ConstrainedModel
import Verif.Grammar.ConstrainedLemmas
import Verif.Grammar.ConstrainedRule
import Verif.Grammar.ConstrainedProps
import Verif.Grammar.ContextModel
import Verif.Grammar.ContextLemmas
import Verif.Grammar.CollectLemmas
import Verif.Grammar.ContextSpec
import Verif.Grammar.ContextPlace
import Verif.Grammar.ContextProps
import Verif.Grammar.ContextCross
import Verif.Arch.Model
import Verif.Arch.Spec
import Verif.Arch.Props
import Verif.Cli.Model
import Verif.Cli.Spec
import Verif.Cli.Lemmas
import Verif.Cli.ResultsProps
import Verif.Cli.StatusProps
import Verif.Cli.TextProps
import Verif.Arch.TopoModel
import Verif.Arch.TopoLemmas
import Verif.Arch.TopoProps
import Verif.Arch.FlattenModel
import Verif.Arch.FlattenLemmas
import Verif.Arch.NetLemmas
import Verif.Arch.FlattenProps
import Verif.Arch.PruneModel
import Verif.Arch.PruneLemmas
import Verif.Arch.CodeModel
import Verif.Arch.CodeLemmas
import Verif.Arch.CodeProps
import Verif.Run.Checkpoint
import Verif.Run.CheckpointProps
import Verif.Tb.Model
import Verif.Tb.Props
import Verif.Tb.GridModel
import Verif.Tb.GridProps
import Verif.Plot.Model
import Verif.Plot.Spec
import Verif.Plot.Lemmas
import Verif.Plot.CurveLemmas
import Verif.Plot.Props
import Verif.Grammar.DictModel
import Verif.Grammar.DictSpec
import Verif.Grammar.DictLemmas
import Verif.Grammar.DictRead
import Verif.Grammar.DictProps
import Verif.Run.OvershootProps
import Verif.Run.ProgressProps
import Verif.Run.TogetherProps
import Verif.Args.ConfigSpaceProps
import Verif.Arch.ParamProps
import Verif.Repr.Model
import Verif.Repr.Spec
import Verif.Repr.CellLemmas
import Verif.Repr.DrawLemmas
import Verif.Repr.ExpandLemmas
import Verif.Repr.RunLemmas
import Verif.Repr.TextLemmas
import Verif.Repr.FlowLemmas
import Verif.Repr.Props
import Verif.Repr.Builtin
import Verif.Sampling.NormalProps
import Verif.Args.DirectoryProps
import Verif.Create.WatchProps
import Verif.Space.EnhanceProps
import Verif.Space.NewConfigProps
import Verif.Space.ConfidenceProps
import Verif.Args.Info
import Verif.Args.InfoProps
import Verif.Sampling.Whole
import Verif.Sampling.WholeProps
import Verif.Space.IllegalProps
import Verif.Space.EqualProps
import Verif.Run.CacheModel
import Verif.Run.CacheSpec
import Verif.Run.CacheLemmas
import Verif.Run.CacheSim
import Verif.Run.CacheProps
import Verif.Args.OwnSearcherProps
import Verif.Budget.Props
import Verif.Locks.Props
import Verif.Grammar.CPriorModel
import Verif.Grammar.CPriorSpec
import Verif.Grammar.CPriorLemmas
import Verif.Grammar.CPriorLoop
import Verif.Grammar.CPriorText
import Verif.Grammar.CPriorProps
import Verif.Args.ConstructProps
import Verif.Process.Props
import Verif.Arch.BuildProps
import Verif.Args.InitProps
import Verif.Seed.ReadProps
import Verif.Bo.WeightedProps
import Verif.Bo.KernelProps
import Verif.Run.SurvivorProps
import Verif.Seed.GridProps
import Verif.Run.Success
import Verif.Seed.Endless
import Verif.Seed.JobProps
import Verif.Locks.EnvProps
import Verif.Locks.MessageProps
import Verif.Cli.ErrorsProps
import Verif.Plot.CurvesProps
import Verif.Seed.FilesProps
import Verif.Bo.PoolProps
import Verif.Bo.AcquisitionProps
import Verif.Bo.PriorWeightedProps
import Verif.Arch.EdgeProps
import Verif.Arch.ScopeModel
import Verif.Arch.ScopeProps
import Verif.Arch.PrimModel
import Verif.Arch.PrimSpec
import Verif.Arch.PrimProps
import Verif.Ifbo.DownloadModel
import Verif.Ifbo.DownloadProps
import Verif.Overwrite.Props
import Verif.Space.Continue
import Verif.Space.ContinueProps
import Verif.MF.Draw
import Verif.MF.DrawProps
import Verif.Ifbo.CacheModel
import Verif.Ifbo.CacheProps
import Verif.Ifbo.ShapeModel
import Verif.Ifbo.ShapeProps
import Verif.Create.WatchReason
import Verif.Run.SpentSpec
import Verif.Axioms
