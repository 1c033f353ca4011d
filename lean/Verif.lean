import Verif.Attr.ArnoldiModel
import Verif.Attr.ArnoldiProps
import Verif.Attr.BatchLemmas
import Verif.Attr.BatchModel
import Verif.Attr.BatchProps
import Verif.Attr.BatchSpec
import Verif.Attr.BufModel
import Verif.Attr.BufProps
import Verif.Attr.CGAttrModel
import Verif.Attr.CGAttrProps
import Verif.Attr.ConvexProps
import Verif.Attr.DerivModel
import Verif.Attr.DerivProps
import Verif.Attr.DropModel
import Verif.Attr.DropProps
import Verif.Attr.GradModel
import Verif.Attr.GradProps
import Verif.Attr.IFModel
import Verif.Attr.Lemmas
import Verif.Attr.LissaAttrModel
import Verif.Attr.LissaAttrProps
import Verif.Attr.LoaderModel
import Verif.Attr.LoaderProps
import Verif.Attr.LoaderProps2
import Verif.Attr.LooProps
import Verif.Attr.MaskModel
import Verif.Attr.MaskProps
import Verif.Attr.Model
import Verif.Attr.NaNModel
import Verif.Attr.NaNProps
import Verif.Attr.OrderProps
import Verif.Attr.PrecLemmas
import Verif.Attr.PrecModel
import Verif.Attr.PrecProps
import Verif.Attr.Props
import Verif.Attr.RandModel
import Verif.Attr.RandProps
import Verif.Attr.RelatifModel
import Verif.Attr.RelatifProps
import Verif.Attr.RotateProps
import Verif.Attr.SelfLemmas
import Verif.Attr.Spec
import Verif.Attr.SymmetryProps
import Verif.Attr.UnitProps
import Verif.Base.Blocks
import Verif.Base.DropLoader
import Verif.Base.LastIdx
import Verif.Base.PyDict
import Verif.Base.Tensor
import Verif.Bench.AdamModel
import Verif.Bench.AdamProps
import Verif.Bench.CharModel
import Verif.Bench.CharProps
import Verif.Bench.FlipModel
import Verif.Bench.FlipProps
import Verif.Bench.GPTGenModel
import Verif.Bench.GPTGenProps
import Verif.Bench.GPTModel
import Verif.Bench.GPTNormProps
import Verif.Bench.GPTProps
import Verif.Bench.LoadInv
import Verif.Bench.LoadLemmas
import Verif.Bench.LoadModel
import Verif.Bench.LoadProps
import Verif.Bench.LoadSpec
import Verif.Bench.LogRegModel
import Verif.Bench.LogRegProps
import Verif.Bench.LogRegSolveProps
import Verif.Bench.LossGTProps
import Verif.Bench.LossModel
import Verif.Bench.LossProps
import Verif.Bench.Maestro
import Verif.Bench.MaestroProps
import Verif.Bench.MomentumProps
import Verif.Bench.MusicGenModel
import Verif.Bench.MusicGenProps
import Verif.Bench.MusicLoss
import Verif.Bench.MusicLossProps
import Verif.Bench.MusicNetModel
import Verif.Bench.MusicNetProps
import Verif.Bench.NanoGPT
import Verif.Bench.NanoGPTData
import Verif.Bench.NanoGPTRetrain
import Verif.Bench.NanoGPTTrain
import Verif.Bench.PretrainedModel
import Verif.Bench.PretrainedProps
import Verif.Bench.ResNetModel
import Verif.Bench.ResNetProps
import Verif.Bench.ResNetTrainProps
import Verif.Bench.Skew
import Verif.Bench.SkewProps
import Verif.Bench.Texts
import Verif.Bench.TextsProps
import Verif.Bench.TrainModel
import Verif.Bench.TrainProps
import Verif.Bench.Windows
import Verif.Bench.WindowsProps
import Verif.BlockIF.BasisProps
import Verif.BlockIF.CacheLemmas
import Verif.BlockIF.ConcatModel
import Verif.BlockIF.ConcatProps
import Verif.BlockIF.DampProps
import Verif.BlockIF.DeviceModel
import Verif.BlockIF.DeviceProps
import Verif.BlockIF.DirLemmas
import Verif.BlockIF.DirProps
import Verif.BlockIF.DiskLemmas
import Verif.BlockIF.DiskModel
import Verif.BlockIF.DiskProps
import Verif.BlockIF.FailProps
import Verif.BlockIF.GrassProps
import Verif.BlockIF.IFLemmas
import Verif.BlockIF.IFModel
import Verif.BlockIF.IFProps
import Verif.BlockIF.MeanProps
import Verif.BlockIF.MetaLemmas
import Verif.BlockIF.MetaModel
import Verif.BlockIF.MetaProps
import Verif.BlockIF.NamesModel
import Verif.BlockIF.NamesProps
import Verif.BlockIF.OffloadModel
import Verif.BlockIF.OffloadProps
import Verif.BlockIF.PreProps
import Verif.BlockIF.PrecondModel
import Verif.BlockIF.PrecondProps
import Verif.BlockIF.RepeatProps
import Verif.BlockIF.SaveModel
import Verif.BlockIF.SaveProps
import Verif.BlockIF.ScaleProps
import Verif.BlockIF.ScoreLemmas
import Verif.BlockIF.SelfModel
import Verif.BlockIF.SelfProps
import Verif.BlockIF.SplitProps
import Verif.BlockIF.SpreadLemmas
import Verif.BlockIF.SpreadProps
import Verif.BlockIF.SymmProps
import Verif.BlockIF.TaskModel
import Verif.BlockIF.TaskProps
import Verif.Compress.ChoiceProps
import Verif.Compress.Model
import Verif.Compress.OptModel
import Verif.Compress.OptProps
import Verif.Compress.Props
import Verif.DVEmb.BiasProps
import Verif.DVEmb.CacheLemmas
import Verif.DVEmb.ContextModel
import Verif.DVEmb.ContextProps
import Verif.DVEmb.DerivModel
import Verif.DVEmb.DerivProps
import Verif.DVEmb.FactorModel
import Verif.DVEmb.FactorProps
import Verif.DVEmb.GroundTruthModel
import Verif.DVEmb.GroundTruthProps
import Verif.DVEmb.LayersModel
import Verif.DVEmb.LayersProps
import Verif.DVEmb.Lemmas
import Verif.DVEmb.Model
import Verif.DVEmb.Props
import Verif.DVEmb.RotateProps
import Verif.DVEmb.Spec
import Verif.DVEmb.TrainModel
import Verif.DVEmb.TrainProps
import Verif.DataInf.LayerNameModel
import Verif.DataInf.LayerNameProps
import Verif.DataInf.Model
import Verif.DataInf.OverProps
import Verif.DataInf.Props
import Verif.Disk.Discipline
import Verif.Disk.DropModel
import Verif.Disk.DropProps
import Verif.Disk.EmptyProps
import Verif.Disk.ExactLemmas
import Verif.Disk.ExactProps
import Verif.Disk.LoaderLemmas
import Verif.Disk.OverlapModel
import Verif.Disk.OverlapProps
import Verif.Disk.PoolModel
import Verif.Disk.PoolProps
import Verif.Disk.PrefetchModel
import Verif.Disk.PrefetchProps
import Verif.Disk.ReadModel
import Verif.Disk.ReadProps
import Verif.Disk.RetrieveModel
import Verif.Disk.RetrieveProps
import Verif.Disk.WaitModel
import Verif.Disk.WaitProps
import Verif.Disk.WriterLemmas
import Verif.Disk.WriterModel
import Verif.Disk.WriterProps
import Verif.EKFAC.CacheHookProps
import Verif.EKFAC.CacheModel
import Verif.EKFAC.CacheProps
import Verif.EKFAC.GradModel
import Verif.EKFAC.GradProps
import Verif.EKFAC.InputModel
import Verif.EKFAC.InputProps
import Verif.EKFAC.Model
import Verif.EKFAC.ModulesModel
import Verif.EKFAC.ModulesProps
import Verif.EKFAC.OptimalProps
import Verif.EKFAC.Props
import Verif.EKFAC.Stats
import Verif.Hessian.ArnoldiModel
import Verif.Hessian.ArnoldiProps
import Verif.Hessian.CGModel
import Verif.Hessian.CGProps
import Verif.Hessian.CGRateProps
import Verif.Hessian.CGSingularProps
import Verif.Hessian.CallModel
import Verif.Hessian.CallProps
import Verif.Hessian.FisherModel
import Verif.Hessian.FisherProps
import Verif.Hessian.HvpModel
import Verif.Hessian.HvpProps
import Verif.Hessian.LissaMeanProps
import Verif.Hessian.LissaModel
import Verif.Hessian.LissaProps
import Verif.Hessian.LissaRateProps
import Verif.Hessian.RotateProps
import Verif.Hook.Lemmas
import Verif.Hook.Model
import Verif.Hook.PassModel
import Verif.Hook.PassProps
import Verif.Hook.Props
import Verif.Hook.SessionModel
import Verif.Hook.SessionProps
import Verif.KNN.DistModel
import Verif.KNN.DistProps
import Verif.KNN.DropLemmas
import Verif.KNN.DropModel
import Verif.KNN.DropProps
import Verif.KNN.Lemmas
import Verif.KNN.Model
import Verif.KNN.ModelLemmas
import Verif.KNN.Props
import Verif.KNN.RoundModel
import Verif.KNN.RoundProps
import Verif.KNN.SignProps
import Verif.KNN.Spec
import Verif.Metric.AUCModel
import Verif.Metric.AUCProps
import Verif.Metric.BrittleModel
import Verif.Metric.BrittleProps
import Verif.Metric.BrittleScriptModel
import Verif.Metric.BrittleScriptProps
import Verif.Metric.EvalModel
import Verif.Metric.EvalProps
import Verif.Metric.FloatGTModel
import Verif.Metric.FloatGTProps
import Verif.Metric.LDSModel
import Verif.Metric.LDSProps
import Verif.Metric.LooProps
import Verif.Metric.RetrainModel
import Verif.Metric.RetrainProps
import Verif.Metric.RetrainProps2
import Verif.Metric.RetrainText
import Verif.Metric.SamplerModel
import Verif.Metric.SamplerProps
import Verif.Metric.SeedModel
import Verif.Metric.SeedProps
import Verif.Midi.Lemmas
import Verif.Midi.Model
import Verif.Midi.PrepModel
import Verif.Midi.PrepProps
import Verif.Midi.Props
import Verif.Midi.SustainLemmas
import Verif.Midi.SustainModel
import Verif.Midi.SustainProps
import Verif.ModelUtil.DropoutModel
import Verif.ModelUtil.DropoutProps
import Verif.Projection.ArnoldiProjModel
import Verif.Projection.ArnoldiProjProps
import Verif.Projection.BasicModel
import Verif.Projection.BasicProps
import Verif.Projection.ChunkModel
import Verif.Projection.ChunkProps
import Verif.Projection.CudaModel
import Verif.Projection.CudaProps
import Verif.Projection.GaussLemmas
import Verif.Projection.JLProps
import Verif.Projection.JLVarProps
import Verif.Projection.NormalProps
import Verif.Projection.ParseModel
import Verif.Projection.ParseProps
import Verif.Projection.RandomModel
import Verif.Projection.RandomProps
import Verif.Projection.TailLemmas
import Verif.Projection.TailProps
import Verif.RPS.AliasModel
import Verif.RPS.AliasProps
import Verif.RPS.CheckModel
import Verif.RPS.CheckProps
import Verif.RPS.Model
import Verif.RPS.Props
import Verif.RPS.SearchProps
import Verif.Script.CliLemmas
import Verif.Script.CliModel
import Verif.Script.CliProps
import Verif.Script.CliRunProps
import Verif.Script.ConfigModel
import Verif.Script.ConfigProps
import Verif.Script.Conv1DModel
import Verif.Script.Conv1DProps
import Verif.Script.ExamplesModel
import Verif.Script.ExamplesProps
import Verif.Script.ExperimentModel
import Verif.Script.ExperimentProps
import Verif.Script.MethodsModel
import Verif.Script.MethodsProps
import Verif.Script.OutlierModel
import Verif.Script.OutlierProps
import Verif.Script.TrainStepsModel
import Verif.Script.TrainStepsProps
import Verif.TRAK.FullProps
import Verif.TRAK.Lemmas
import Verif.TRAK.Model
import Verif.TRAK.OddsModel
import Verif.TRAK.OddsProps
import Verif.TRAK.OddsScoreProps
import Verif.TRAK.PolyLemmas
import Verif.TRAK.ProjModel
import Verif.TRAK.ProjProps
import Verif.TRAK.ProjRandProps
import Verif.TRAK.Props
import Verif.TRAK.RidgeProps
import Verif.TRAK.RotateProps
import Verif.TRAK.ShapeModel
import Verif.TRAK.ShapeProps
import Verif.Task.FlattenModel
import Verif.Task.FlattenProps
import Verif.Task.FreezeModel
import Verif.Task.FreezeProps
import Verif.Task.LayerMapModel
import Verif.Task.LayerMapProps
import Verif.Task.Lemmas
import Verif.Task.ModeModel
import Verif.Task.ModeProps
import Verif.Task.Model
import Verif.Task.Props
import Verif.Task.ShareModel
import Verif.Task.ShareProps
import Verif.Task.Spec
import Verif.Task.TiedModel
import Verif.Task.TiedProps
import Verif.TracIn.CosProps
import Verif.TracIn.ExactProps
import Verif.TracIn.Model
import Verif.TracIn.ProjModel
import Verif.TracIn.ProjProps
import Verif.TracIn.ProjRandProps
import Verif.TracIn.Props
import Verif.TracIn.RoundModel
import Verif.TracIn.RoundProps
