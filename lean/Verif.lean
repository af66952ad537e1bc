import Verif.Py
import Verif.Model.Datamodel
import Verif.Model.ConlluIO
import Verif.Spec.Datamodel
import Verif.Spec.Conllu
import Verif.Spec.RoundTrip
import Verif.Proofs.PyLemmas
import Verif.Proofs.Datamodel
import Verif.Proofs.Validate
import Verif.Proofs.Built
import Verif.Proofs.Text
import Verif.Proofs.Reader
import Verif.Proofs.Reader2
import Verif.Proofs.Writer
import Verif.Proofs.Rows
import Verif.Proofs.WriterCount
import Verif.Spec.WordLines
import Verif.Proofs.RoundTrip
import Verif.Proofs.RoundTrip2
import Verif.Proofs.RoundTrip3
import Verif.Props.Datamodel
import Verif.Props.Datamodel2
import Verif.Props.Datamodel3
import Verif.Props.Conllu
import Verif.Props.Conllu2
import Verif.Props.Conllu3
import Verif.Model.UdEval
import Verif.Spec.UdEval
import Verif.Proofs.UdTree
import Verif.Proofs.UdLoad
import Verif.Proofs.UdLoad2
import Verif.Props.UdLoad
import Verif.Proofs.UdScore
import Verif.Proofs.Lcs
import Verif.Proofs.UdAlign
import Verif.Proofs.UdSelf
import Verif.Proofs.UdSame
import Verif.Props.UdEval
import Verif.Props.UdSame
import Verif.Model.Lemmas
import Verif.Proofs.Lemmas
import Verif.Props.Lemmas
import Verif.Model.Features
import Verif.Spec.Features
import Verif.Proofs.FeaturesPad
import Verif.Proofs.FeaturesDict
import Verif.Proofs.FeaturesMerge
import Verif.Proofs.FeaturesSem
import Verif.Props.Features
import Verif.Model.Extractors
import Verif.Spec.Extractors
import Verif.Proofs.Tables
import Verif.Proofs.Vocab
import Verif.Proofs.PosTable
import Verif.Props.Extractors
import Verif.Props.Embeddings
import Verif.Props.PosLabels
import Verif.Proofs.Retag
import Verif.Model.Evaluation
import Verif.Spec.Evaluation
import Verif.Proofs.Evaluation
import Verif.Proofs.Average
import Verif.Props.Evaluation
import Verif.Props.Views
import Verif.Spec.WriteLoad
import Verif.Proofs.WriteLoad
import Verif.Props.WriteLoad
import Verif.Proofs.Score
import Verif.Props.Score
import Verif.Spec.ConlluLine
import Verif.Props.ConlluLine
import Verif.Model.Grid
import Verif.Spec.Grid
import Verif.Proofs.Grid
import Verif.Proofs.GridBuild
import Verif.Proofs.GridCheck
import Verif.Props.Grid
import Verif.Model.Training
import Verif.Spec.Training
import Verif.Proofs.Shuffle
import Verif.Proofs.Training
import Verif.Props.Training
import Verif.Model.Pipeline
import Verif.Spec.Pipeline
import Verif.Proofs.Pipeline
import Verif.Proofs.Pipeline2
import Verif.Proofs.Pipeline3
import Verif.Props.Pipeline
import Verif.Model.Wrappers
import Verif.Spec.Wrappers
import Verif.Proofs.Wrappers
import Verif.Proofs.Tdozat
import Verif.Proofs.Wrappers2
import Verif.Props.Wrappers
import Verif.Model.Network
import Verif.Spec.Network
import Verif.Proofs.Network
import Verif.Proofs.Network2
import Verif.Proofs.NetBuild
import Verif.Proofs.NetBuild2
import Verif.Props.Network
import Verif.Model.Layers
import Verif.Spec.Layers
import Verif.Proofs.Layers
import Verif.Props.Layers
import Verif.Model.EvalMain
import Verif.Props.EvalMain
import Verif.Model.EvalRun
import Verif.Spec.EvalRun
import Verif.Proofs.EvalRun
import Verif.Proofs.EvalRun2
import Verif.Props.EvalRun
import Verif.Spec.EvalRel
import Verif.Props.EvalRel
import Verif.Spec.UdJoin
import Verif.Proofs.UdJoin
import Verif.Proofs.UdJoin2
import Verif.Props.UdJoin
import Verif.Model.DocStr
import Verif.Spec.DocStr
import Verif.Props.DocStr
import Verif.Model.Aliasing
import Verif.Spec.Aliasing
import Verif.Proofs.Aliasing
import Verif.Props.Aliasing
import Verif.Model.GridRun
import Verif.Props.GridRun
import Verif.Spec.FileScore
import Verif.Proofs.FileLoad
import Verif.Proofs.FileScore
import Verif.Proofs.FileOracle
import Verif.Props.FileScore
import Verif.Proofs.Resave
import Verif.Proofs.Resave2
import Verif.Props.Resave
import Verif.Proofs.NewErrors
import Verif.Props.Datamodel4
import Verif.Proofs.WriterErrors
import Verif.Props.Conllu4
import Verif.Props.UdSame2
import Verif.Props.LabelOrder
import Verif.Model.WrapperState
import Verif.Spec.WrapperState
import Verif.Props.WrapperState
import Verif.Model.Providers
import Verif.Spec.Providers
import Verif.Props.Providers
import Verif.Model.Files
import Verif.Spec.Files
import Verif.Proofs.PrintFields
import Verif.Props.PrintFields
import Verif.Props.Files
import Verif.Props.FileErrors
import Verif.Model.Interpreters
import Verif.Spec.Interpreters
import Verif.Proofs.Interpreters
import Verif.Proofs.Interpreters2
import Verif.Proofs.Interpreters3
import Verif.Proofs.Interpreters4
import Verif.Props.Interpreters
import Verif.Model.SharedLayers
import Verif.Spec.SharedLayers
import Verif.Proofs.SharedLayers
import Verif.Props.SharedLayers
import Verif.Model.Settings
import Verif.Props.Settings
import Verif.Model.Hyper
import Verif.Spec.Hyper
import Verif.Proofs.Hyper
import Verif.Props.Hyper
import Verif.Spec.HyperRequired
import Verif.Proofs.HyperRequired
import Verif.Props.HyperRequired
import Verif.Spec.HyperDoc
import Verif.Proofs.HyperDoc
import Verif.Props.HyperDoc
import Verif.Spec.Tagger
import Verif.Proofs.WordsOnly
import Verif.Proofs.Tagger
import Verif.Props.Tagger
import Verif.Model.Feeding
import Verif.Spec.Feeding
import Verif.Proofs.Feeding
import Verif.Props.Feeding
import Verif.Spec.Vocabulary
import Verif.Proofs.Vocabulary
import Verif.Props.Vocabulary
import Verif.Spec.Aggregation
import Verif.Props.Aggregation
import Verif.Spec.BestModel
import Verif.Props.BestModel
import Verif.Proofs.Names
import Verif.Spec.Total
import Verif.Proofs.Total
import Verif.Props.Total
import Verif.Proofs.TrainTotal
import Verif.Props.TrainTotal
import Verif.Spec.Trainable
import Verif.Props.Trainable
import Verif.Model.TrainRun
import Verif.Spec.TrainRun
import Verif.Proofs.TrainRun
import Verif.Props.TrainRun
import Verif.Model.RulesCache
import Verif.Props.RulesCache
import Verif.Props.RunSucceeds
import Verif.Props.Masking
import Verif.Props.Averages
import Verif.Props.SeedsAlone
import Verif.Props.LazyRun
import Verif.Model.Repeat
import Verif.Spec.Repeat
import Verif.Props.Repeat
import Verif.Spec.Pieces
import Verif.Proofs.Pieces
import Verif.Props.Pieces
import Verif.Spec.Limit
import Verif.Proofs.Limit
import Verif.Props.Limit
import Verif.Model.Repr
import Verif.Props.Repr
import Verif.Props.ContentScore
import Verif.Props.TagOrder
import Verif.Props.OwnTensors
import Verif.Model.TokenClass
import Verif.Spec.TokenClass
import Verif.Proofs.TokenClass
import Verif.Props.TokenClass
import Verif.Model.ReaderGen
import Verif.Props.ReaderGen
import Verif.Props.Floats
import Verif.Props.Unseen
import Verif.Props.CommandLine
import Verif.Spec.Again
import Verif.Proofs.Again
import Verif.Props.Again
import Verif.Spec.Forget
import Verif.Props.Forget
import Verif.Spec.UdOrder
import Verif.Props.UdOrder
import Verif.Props.LazyStore
import Verif.Spec.Unscored
import Verif.Proofs.Unscored
import Verif.Proofs.UnscoredEval
import Verif.Props.Unscored
import Verif.Spec.HyperTypes
import Verif.Proofs.HyperTypes
import Verif.Props.HyperTypes
import Verif.Spec.Thresholds
import Verif.Proofs.Thresholds
import Verif.Props.Thresholds
import Verif.Spec.MoreParams
import Verif.Props.MoreParams
import Verif.Spec.LongerTraining
import Verif.Props.LongerTraining
import Verif.Props.LongerHyper
import Verif.Spec.MoreVectors
import Verif.Props.MoreVectors
import Verif.Props.MoreVectorsMatrix
import Verif.Spec.Baseline
import Verif.Props.Baseline
import Verif.Spec.Interchange
import Verif.Props.Interchange
import Verif.Spec.GridOrder
import Verif.Proofs.GridOrder
import Verif.Props.GridOrder
import Verif.Props.InterchangeTraining
import Verif.Props.InterchangePipeline
import Verif.Props.InterchangeUdpipe
import Verif.Spec.OneByOne
import Verif.Props.OneByOne
import Verif.Props.HyperWidth
import Verif.Spec.HyperAtOnce
import Verif.Props.HyperAtOnce
import Verif.Spec.Relabel
import Verif.Props.Relabel
import Verif.Props.WrapperFlags
import Verif.Spec.RelabelRel
import Verif.Props.RelabelRel
import Verif.Props.StubRename
import Verif.Props.UdTwice
import Verif.Props.RelabelTest
import Verif.Conformance
