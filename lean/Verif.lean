import Verif.Hubness.Props
import Verif.MPEmp.Props
import Verif.MPEmp.CsrModel
import Verif.MPEmp.Csr
import Verif.MPPar.StoredModel
import Verif.MPPar.Stored
import Verif.Rounding.SingleModel
import Verif.Rounding.Single
import Verif.GK.Props
import Verif.Knn.TestSet
import Verif.Knn.FMeasure
import Verif.Knn.RPrecisionProps
import Verif.Knn.RDict
import Verif.Knn.FilterSelf
import Verif.HubClass.Neighbours
import Verif.LS.Sample
import Verif.LS.Reject
import Verif.SNN.SimhubSample
import Verif.Cent.Localized
import Verif.MPPar.Invariance
import Verif.MPPar.Sample
import Verif.MPPar.SparseMin
import Verif.Counter.Props
import Verif.IntDim.Props
import Verif.IntDim.Trafo
import Verif.Approx.Hnsw
import Verif.Approx.LocalSample
import Verif.Approx.GaussFormula
import Verif.Approx.Lsh
import Verif.Approx.Ctor
import Verif.Approx.Predict
import Verif.Dist.Cosine
import Verif.Dist.MpOrder
import Verif.Analysis.Model
import Verif.Analysis.Lemmas
import Verif.Analysis.Spec
import Verif.Analysis.Numbers
import Verif.Analysis.Success
import Verif.Analysis.Secondary
import Verif.InOut.Memory
import Verif.InOut.Random
import Verif.InOut.Files
import Verif.Relations.Renumber
import Verif.Relations.Isometry
import Verif.Relations.Uniform
import Verif.Relations.Classify
import Verif.Analysis.Report
import Verif.Analysis.ReportProps
import Verif.Approx.ClassModel
import Verif.Approx.ClassState
import Verif.Approx.ClassPredict
import Verif.Rounding.Format
import Verif.Rounding.CountModel
import Verif.Rounding.Count
import Verif.Rounding.CountProps
import Verif.Rounding.LocalModel
import Verif.Rounding.Local
import Verif.Rounding.LocalProps
import Verif.Rounding.NicdmRegular
import Verif.Rounding.Sum
import Verif.Rounding.GkModel
import Verif.Rounding.GkProps
import Verif.Rounding.GaussModel
import Verif.Rounding.GaussProps
import Verif.Rounding.SumError
import Verif.Rounding.DisSimModel
import Verif.Rounding.DisSimProps
import Verif.Spawn.Model
import Verif.Spawn.Props
import Verif.Spawn.Sample
import Verif.Rounding.KnnModel
import Verif.Rounding.KnnProps
import Verif.MPPar.Gumbel
import Verif.Hubness.Examples
import Verif.HubClass.Examples
import Verif.GK.Examples
import Verif.MPEmp.Examples
import Verif.LS.Examples
import Verif.SNN.SimhubClasses
import Verif.SNN.Examples
import Verif.Cent.Examples
import Verif.Knn.Examples
import Verif.MPPar.Examples
import Verif.Heap.Base
import Verif.Heap.Hubness
import Verif.Heap.HubnessProps
import Verif.Heap.Knn
import Verif.Heap.KnnProps
import Verif.Heap.Gammai
import Verif.Heap.GammaiProps
import Verif.Heap.DisSim
import Verif.Heap.DisSimProps
import Verif.Heap.SuQHR
import Verif.Heap.SuQHRProps
import Verif.Heap.Scaling
import Verif.Heap.ScalingProps
import Verif.Heap.MP
import Verif.Heap.MPProps
import Verif.Heap.Sample
import Verif.Heap.SampleProps
import Verif.Heap.SNN
import Verif.Heap.SNNProps
import Verif.Heap.Examples
import Verif.Dtype.Model
import Verif.Dtype.Props
import Verif.Relations.MpHubs
import Verif.Relations.SkewBound
import Verif.Relations.Triangle
import Verif.Relations.Monotone
import Verif.Relations.Locality
import Verif.Relations.Nested
import Verif.Relations.Exact
import Verif.Relations.ExactNan
import Verif.MPPar.Distributions
import Verif.MPPar.Real
import Verif.MPPar.Lipschitz
import Verif.HubClass.Indices
import Verif.Rounding.Cosine
import Verif.Rounding.CosineError
import Verif.Rounding.LocalError
import Verif.Rounding.Skew
import Verif.Rounding.NicdmError
import Verif.Rounding.GaussError
import Verif.HubClass.TruncNorm
import Verif.Analysis.Missing
import Verif.Relations.LocalOrder
import Verif.Relations.Clusters
import Verif.Relations.Bounds
import Verif.Relations.Duplicates
import Verif.Relations.PredictScore
import Verif.IntDim.Order
import Verif.Relations.NegativeTest
import Verif.Rounding.Centering
import Verif.Rounding.RandomSparse
import Verif.Spawn.Approx
import Verif.Rounding.Euclid
import Verif.Analysis.Units
import Verif.Analysis.Renumber
import Verif.MPPar.GammaExact
import Verif.LS.Range
import Verif.SNN.Range
import Verif.Knn.Ranks
import Verif.HubClass.LeftOut
import Verif.Approx.Units
import Verif.Approx.Order
import Verif.Dist.MpPerm
import Verif.Rounding.LocalSim
import Verif.Relations.RPrec
import Verif.SNN.Floats
import Verif.SNN.SimhubFloats
import Verif.Relations.DuplicatesPar
import Verif.Approx.GaussNan
import Verif.InOut.Text
import Verif.HubClass.Invariance
import Verif.HubClass.SparseStored
import Verif.Knn.Stored
import Verif.MPEmp.SparseInvariance
import Verif.Rounding.HubVec
import Verif.Rounding.Dsg
import Verif.Spawn.MpProps
import Verif.Relations.Separation
import Verif.Relations.SeparationHub
import Verif.Relations.SeparationRPrec
import Verif.Relations.SeparationGK
import Verif.Relations.HeldOut
import Verif.Rounding.HubStatsModel
import Verif.Rounding.HubStats
import Verif.Rounding.HubHood
import Verif.Rounding.HubFloat
import Verif.Rounding.IntDimModel
import Verif.Rounding.IntDimError
import Verif.Rounding.IntDimRow
import Verif.Rounding.IntDimProps
import Verif.Rounding.AtkinsonProps
import Verif.Rounding.RPrecProps
import Verif.Rounding.F1Model
import Verif.Rounding.F1Props
import Verif.Rounding.ShiModel
import Verif.Rounding.Shi
import Verif.Rounding.ShiProps
import Verif.Relations.StableGauss
import Verif.InOut.Dexter
import Verif.Rounding.Dsl
import Verif.Rounding.Lcent
import Verif.Relations.Diagonal
import Verif.Relations.StableDsl
import Verif.Relations.StableSim
import Verif.Relations.StableCos
import Verif.Analysis.Start
import Verif.Relations.Robust
import Verif.Relations.Pipeline
import Verif.Relations.PipelineCos
import Verif.Log.Model
import Verif.Log.Props
import Verif.Relations.RobustCount
import Verif.Relations.RobustKnn
import Verif.Relations.RobustGk
import Verif.Relations.PipelineCount
import Verif.Relations.PipelineCosCount
import Verif.IntDim.Robust
import Verif.Relations.FeatureErrors
import Verif.Rounding.IntDimMackay
import Verif.Relations.StoredSingle
import Verif.Relations.RobustRPrec
import Verif.Relations.RobustSim
import Verif.Relations.Stable
import Verif.Relations.StableMp
import Verif.Spawn.Rest
