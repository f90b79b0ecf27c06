import Verif.ListUtils.Props
import Verif.Trials.NdxProps
import Verif.Trials.KeyProps
import Verif.Trials.ScoreProps
import Verif.Trials.ScoreMergeProps
import Verif.Scp.Props
import Verif.Scp.TextProps
import Verif.Kaldi.Props
import Verif.Kaldi.CmProps
import Verif.Kaldi.ArkProps
import Verif.Kaldi.BatchProps
import Verif.Kaldi.Shapes
import Verif.Kaldi.ShapesProps
import Verif.Kaldi.TextArk
import Verif.Kaldi.TextArkProps
import Verif.Kaldi.QuantProps
import Verif.Spec.Props
import Verif.Metrics.PavProps
import Verif.Metrics.EerProps
import Verif.Metrics.OptLlrProps
import Verif.Feats.Props
import Verif.MathUtils.PackProps
import Verif.Clustering.AhcProps
import Verif.ScoreNorm.Props
import Verif.Torch.MetricAcc
import Verif.Torch.LrProps
import Verif.Torch.CosProps
import Verif.Torch.PlateauProps
import Verif.Queues.Props
import Verif.Queues.OrderedQueueProps
import Verif.Generators.V1Seq
import Verif.Generators.V2Epoch
import Verif.Generators.Balance
import Verif.Tensors.To3D
import Verif.Utt2Info.Props
import Verif.Readers.VectorClassProps
import Verif.Readers.SplitProps
import Verif.Round
import Verif.Segments.RttmProps
import Verif.Segments.SegmentListProps
import Verif.Segments.ExtSegProps
import Verif.Folds.Props
import Verif.Clustering.KMeansProps
import Verif.Scp.EqProps
import Verif.Trials.MoreProps
import Verif.Trials.TxtFile
import Verif.Torch.TrainerProps
import Verif.MathUtils.NumericProps
import Verif.Pdfs.MixtureProps
import Verif.Pdfs.DiagGmmProps
import Verif.Pdfs.DiagGmmNeg
import Verif.Pdfs.NormalProps
import Verif.Transforms.Whiten
import Verif.Transforms.Pca
import Verif.Transforms.Rest
import Verif.Plda.SpNeg
import Verif.Torch.CosWarm
import Verif.Tighten
import Verif.Feats.StftProps
import Verif.Feats.FrontendProps
import Verif.Feats.FilterBankProps
import Verif.Feats.WindowProps
import Verif.Feats.MfccMore
import Verif.Feats.MfccExtras
import Verif.H5.ListProps
import Verif.Classifiers.CalibProps
import Verif.Classifiers.GbeMap
import Verif.Classifiers.QScoreProps
import Verif.Classifiers.LogRegProps
import Verif.Pipelines.LreProps
import Verif.FullCov.GmmProps
import Verif.Pipelines.ListProps
import Verif.SeqReader.LinearProps
import Verif.Confusion.TorchProps
import Verif.Persist.Props
import Verif.Persist.ListProps
import Verif.Segments.SegOpsProps
import Verif.Segments.OpensatProps
import Verif.Metrics.Invariance
import Verif.Copy.Examples
import Verif.Audio.Examples
import Verif.Train.Examples
import Verif.Pdfs.TiedMore
import Verif.Transforms.UpProps
import Verif.Transforms.NdaSim
import Verif.SeqReader.Sparse
import Verif.SeqReader.SparseProps
import Verif.SeqReader.Post
import Verif.SeqReader.PostProps
import Verif.Kaldi.OldReader
import Verif.Kaldi.OldReaderProps
import Verif.Keras.Pool
import Verif.Keras.PoolProps
import Verif.Keras.Post
import Verif.Keras.PostProps
import Verif.Keras.Losses
import Verif.Keras.LossesProps
import Verif.Keras.SeqEmbed
import Verif.Keras.SeqEmbedProps
import Verif.Misc.ThreadIter
import Verif.Misc.ThreadIterProps
import Verif.Misc.Tensors
import Verif.Misc.TensorsProps
import Verif.Keras.EvalLoop
import Verif.Keras.EvalLoopProps
import Verif.Keras.Callbacks
import Verif.Keras.Constraints
import Verif.Keras.ConstraintsProps
import Verif.Keras.CallbacksProps
import Verif.Feats.FrontendMore
import Verif.Folds.Files
import Verif.Folds.FilesProps
import Verif.Cli.Props
import Verif.Tighten2
import Verif.Cli.FeatsProps
import Verif.Plda.WeightsProps
import Verif.Misc.GainProps
import Verif.Tighten3
import Verif.Tighten4
import Verif.Cli.EvalProps
import Verif.Tighten5
import Verif.Torch.ActivationProps
import Verif.Torch.NetsProps
import Verif.Cli.FactoriesProps
import Verif.Cli.CallbacksProps
import Verif.Torch.ProgressProps
import Verif.Keras.ResumeProps
import Verif.Keras.Tdnn
import Verif.Keras.TdnnProps
import Verif.Extract.Props
import Verif.Keras.SeqQEmbedProps
import Verif.Keras.ResNetProps
import Verif.Keras.TdConv2dProps
import Verif.Keras.SaveLoadProps
import Verif.Keras.VaeProps
import Verif.Cli.JobsProps
import Verif.Segments.RttmOps
import Verif.Segments.RttmOpsProps
import Verif.Segments.SegFile
import Verif.Segments.SegFileProps
