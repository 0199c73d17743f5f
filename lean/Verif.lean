import Verif.Conform.Data
import Verif.Conform.Numeric
import Verif.Conform.Probits
import Verif.Conform.Select
import Verif.Model.AbsAlign
import Verif.Model.AbsCache
import Verif.Model.AbsCdf
import Verif.Model.AbsInfo
import Verif.Model.AbsProbit
import Verif.Model.Alias
import Verif.Model.Alignment
import Verif.Model.Basic
import Verif.Model.BestProb
import Verif.Model.Cov
import Verif.Model.Data
import Verif.Model.Evaluation
import Verif.Model.Evidence
import Verif.Model.ExpAlign
import Verif.Model.Experiment
import Verif.Model.FakeFunction
import Verif.Model.FakeOther
import Verif.Model.FindMode
import Verif.Model.Float
import Verif.Model.GP
import Verif.Model.GVUcb
import Verif.Model.GreedyK
import Verif.Model.Hyper
import Verif.Model.HyperSearch
import Verif.Model.InfoGain
import Verif.Model.Kernel
import Verif.Model.LabelSlots
import Verif.Model.Laplace
import Verif.Model.LazyFit
import Verif.Model.Lifecycle
import Verif.Model.LinLoop
import Verif.Model.Mixed
import Verif.Model.MutualScale
import Verif.Model.Optim
import Verif.Model.OrdProbit
import Verif.Model.Pairs
import Verif.Model.Pareto
import Verif.Model.Picture
import Verif.Model.PrefProbit
import Verif.Model.Probability
import Verif.Model.ProbitCache
import Verif.Model.RateSamples
import Verif.Model.Recommend
import Verif.Model.RepIndex
import Verif.Model.RepQ
import Verif.Model.Rounded
import Verif.Model.RunResults
import Verif.Model.SampleSets
import Verif.Model.Samples
import Verif.Model.Sampling
import Verif.Model.SaveLoad
import Verif.Model.ScoreRating
import Verif.Model.Select
import Verif.Model.Study
import Verif.Model.SynthUser
import Verif.Model.TrainData
import Verif.Model.TrainLoop
import Verif.Model.TrainPrefer
import Verif.Model.Training
import Verif.Model.UcbLinear
import Verif.Model.UcbLoop
import Verif.Model.UserObj
import Verif.Proofs.AbsAlign
import Verif.Proofs.AbsCdf
import Verif.Proofs.AbsInfo
import Verif.Proofs.AbsProbit
import Verif.Proofs.Again
import Verif.Proofs.AgainCov
import Verif.Proofs.AgainOther
import Verif.Proofs.Alias
import Verif.Proofs.AliasValue
import Verif.Proofs.Alignment
import Verif.Proofs.Assign
import Verif.Proofs.Basic
import Verif.Proofs.BestProb
import Verif.Proofs.CandOrder
import Verif.Proofs.CandOrderRet
import Verif.Proofs.CandOrderValues
import Verif.Proofs.Copies
import Verif.Proofs.CovEntries
import Verif.Proofs.CovGrad
import Verif.Proofs.CovPSD
import Verif.Proofs.Data
import Verif.Proofs.Ergodic
import Verif.Proofs.FakeFunction
import Verif.Proofs.FarAway
import Verif.Proofs.FindMode
import Verif.Proofs.Float
import Verif.Proofs.FoldEmpty
import Verif.Proofs.Frequency
import Verif.Proofs.GP
import Verif.Proofs.GPActive
import Verif.Proofs.GPChain
import Verif.Proofs.GPLearns
import Verif.Proofs.GPNoisy
import Verif.Proofs.GPPosterior
import Verif.Proofs.GPSeq
import Verif.Proofs.GVUcb
import Verif.Proofs.Gamma
import Verif.Proofs.Hyper
import Verif.Proofs.HyperSearch
import Verif.Proofs.Influence
import Verif.Proofs.InfoGain
import Verif.Proofs.LabelSlots
import Verif.Proofs.Laplace
import Verif.Proofs.LinExact
import Verif.Proofs.LinLoop
import Verif.Proofs.LinearBest
import Verif.Proofs.ManyQuestions
import Verif.Proofs.MatrixCalc
import Verif.Proofs.MhAverage
import Verif.Proofs.MhLimit
import Verif.Proofs.ModeLearned
import Verif.Proofs.ModeLoop
import Verif.Proofs.ModeRate
import Verif.Proofs.NegType
import Verif.Proofs.NoLabels
import Verif.Proofs.Normal
import Verif.Proofs.Optim
import Verif.Proofs.OrdConcave
import Verif.Proofs.OrdProbit
import Verif.Proofs.OrdTail
import Verif.Proofs.Pairs
import Verif.Proofs.Pareto
import Verif.Proofs.PredictLarge
import Verif.Proofs.PrefProbit
import Verif.Proofs.Probability
import Verif.Proofs.RatingModes
import Verif.Proofs.Recommend
import Verif.Proofs.Renumber
import Verif.Proofs.RepQ
import Verif.Proofs.Rounded
import Verif.Proofs.RoundedAcc
import Verif.Proofs.RunResults
import Verif.Proofs.SampleSets
import Verif.Proofs.SampleSure
import Verif.Proofs.Sampling
import Verif.Proofs.Select
import Verif.Proofs.SelectExact
import Verif.Proofs.SelectRet
import Verif.Proofs.SelectSame
import Verif.Proofs.StrongLaw
import Verif.Proofs.Study
import Verif.Proofs.SynthUser
import Verif.Proofs.TrainData
import Verif.Proofs.Training
import Verif.Proofs.Truth
import Verif.Proofs.UcbActive
import Verif.Proofs.UcbBand
import Verif.Proofs.UcbBayes
import Verif.Proofs.UcbGood
import Verif.Proofs.UcbInfo
import Verif.Proofs.UcbLinear
import Verif.Proofs.UcbRegret
import Verif.Proofs.Unasked
import Verif.Proofs.Units
import Verif.Proofs.UnitsKernel
import Verif.Props.AbsAlign
import Verif.Props.AbsAlignMore
import Verif.Props.AbsCache
import Verif.Props.AbsInfo
import Verif.Props.AbsProbit
import Verif.Props.Again
import Verif.Props.AgainOther
import Verif.Props.Alias
import Verif.Props.Alignment
import Verif.Props.BestProb
import Verif.Props.Binary64
import Verif.Props.Calib
import Verif.Props.CalibExact
import Verif.Props.CandOrder
import Verif.Props.Copies
import Verif.Props.Cov
import Verif.Props.CovGrad
import Verif.Props.Data
import Verif.Props.DataExact
import Verif.Props.Dialogue
import Verif.Props.Downselect
import Verif.Props.Evaluation
import Verif.Props.Evidence
import Verif.Props.EvidenceBoth
import Verif.Props.ExpAlign
import Verif.Props.Experiment
import Verif.Props.FakeFunction
import Verif.Props.FakeOther
import Verif.Props.FarAway
import Verif.Props.FindMode
import Verif.Props.Frequency
import Verif.Props.GP
import Verif.Props.GPActive
import Verif.Props.GPChain
import Verif.Props.GPLearns
import Verif.Props.GPNoisy
import Verif.Props.GPPosterior
import Verif.Props.GPSeq
import Verif.Props.GVUcb
import Verif.Props.GreedyK
import Verif.Props.Hyper
import Verif.Props.HyperSearch
import Verif.Props.Influence
import Verif.Props.InfoGain
import Verif.Props.LabelSlots
import Verif.Props.Laplace
import Verif.Props.LazyFit
import Verif.Props.Lifecycle
import Verif.Props.LinExact
import Verif.Props.LinLoop
import Verif.Props.LineSharp
import Verif.Props.LinearBest
import Verif.Props.ManyQuestions
import Verif.Props.MhAverage
import Verif.Props.MhLimit
import Verif.Props.Mixed
import Verif.Props.ModeLearned
import Verif.Props.ModeRate
import Verif.Props.MutualScale
import Verif.Props.NoLabels
import Verif.Props.Optim
import Verif.Props.OrdMode
import Verif.Props.OrdProbit
import Verif.Props.OrdTail
import Verif.Props.Pairs
import Verif.Props.Pareto
import Verif.Props.Picture
import Verif.Props.PredictLarge
import Verif.Props.PrefProbit
import Verif.Props.Probability
import Verif.Props.ProbitCache
import Verif.Props.RateSamples
import Verif.Props.RatingCdf
import Verif.Props.RatingModes
import Verif.Props.Recommend
import Verif.Props.Renumber
import Verif.Props.RepIndex
import Verif.Props.RepQ
import Verif.Props.Repeat
import Verif.Props.Restart
import Verif.Props.RoundedAccChoice
import Verif.Props.RoundedAccKernels
import Verif.Props.RoundedChoice
import Verif.Props.RoundedExact
import Verif.Props.RoundedKernels
import Verif.Props.RoundedProbits
import Verif.Props.RoundedRatings
import Verif.Props.RunResults
import Verif.Props.SampleProb
import Verif.Props.SampleSets
import Verif.Props.SampleSure
import Verif.Props.Samples
import Verif.Props.Sampling
import Verif.Props.SaveLoad
import Verif.Props.ScoreRating
import Verif.Props.Select
import Verif.Props.SelectExact
import Verif.Props.SelectRet
import Verif.Props.SelectSame
import Verif.Props.Stationary
import Verif.Props.Study
import Verif.Props.SynthUser
import Verif.Props.TrainData
import Verif.Props.TrainLoop
import Verif.Props.TrainPrefer
import Verif.Props.Training
import Verif.Props.Truth
import Verif.Props.Turned
import Verif.Props.UcbBand
import Verif.Props.UcbBayes
import Verif.Props.UcbInfo
import Verif.Props.UcbLinear
import Verif.Props.UcbRegret
import Verif.Props.Unasked
import Verif.Props.Units
import Verif.Props.UserObj
import Verif.Spec.AbsAlign
import Verif.Spec.AbsInfo
import Verif.Spec.AbsProbit
import Verif.Spec.Again
import Verif.Spec.Alias
import Verif.Spec.Alignment
import Verif.Spec.BestProb
import Verif.Spec.Binary64
import Verif.Spec.Calculus
import Verif.Spec.CandOrder
import Verif.Spec.Copies
import Verif.Spec.Cov
import Verif.Spec.Data
import Verif.Spec.Dialogue
import Verif.Spec.Evaluation
import Verif.Spec.Evidence
import Verif.Spec.ExpAlign
import Verif.Spec.Experiment
import Verif.Spec.FakeFunction
import Verif.Spec.FarAway
import Verif.Spec.FindMode
import Verif.Spec.Frequency
import Verif.Spec.GP
import Verif.Spec.GPActive
import Verif.Spec.GPChain
import Verif.Spec.GPLearns
import Verif.Spec.GPNoisy
import Verif.Spec.GPPosterior
import Verif.Spec.GVUcb
import Verif.Spec.Gamma
import Verif.Spec.Hyper
import Verif.Spec.HyperSearch
import Verif.Spec.Influence
import Verif.Spec.InfoGain
import Verif.Spec.LabelSlots
import Verif.Spec.Laplace
import Verif.Spec.LazyFit
import Verif.Spec.Lifecycle
import Verif.Spec.LinLoop
import Verif.Spec.LinearBest
import Verif.Spec.ManyQuestions
import Verif.Spec.MhLimit
import Verif.Spec.Mixed
import Verif.Spec.ModeLearned
import Verif.Spec.NoLabels
import Verif.Spec.Normal
import Verif.Spec.Optim
import Verif.Spec.OrdMode
import Verif.Spec.OrdProbit
import Verif.Spec.Pairs
import Verif.Spec.Pareto
import Verif.Spec.PrefProbit
import Verif.Spec.Probability
import Verif.Spec.ProbitCache
import Verif.Spec.Recommend
import Verif.Spec.Renumber
import Verif.Spec.RepQ
import Verif.Spec.Restart
import Verif.Spec.RunResults
import Verif.Spec.SampleProb
import Verif.Spec.Sampling
import Verif.Spec.SaveLoad
import Verif.Spec.ScoreRating
import Verif.Spec.Select
import Verif.Spec.Stationary
import Verif.Spec.Study
import Verif.Spec.SynthUser
import Verif.Spec.TrainData
import Verif.Spec.TrainLoop
import Verif.Spec.Training
import Verif.Spec.Truth
import Verif.Spec.UcbLinear
import Verif.Spec.UcbRegret
import Verif.Spec.Unasked
import Verif.Spec.Units
