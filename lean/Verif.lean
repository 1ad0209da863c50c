import Verif.Props.Similarity
import Verif.Props.MinHasher
import Verif.Props.Params
import Verif.Props.Index
import Verif.Props.Capacity
import Verif.Props.IndexRank
import Verif.Props.IndexBulk
import Verif.Props.IndexStore
import Verif.Props.Centroid
import Verif.Props.SuperMinHash
import Verif.Props.Text
import Verif.Props.StringIndex
import Verif.Props.StringExact
import Verif.Props.Ranked
import Verif.Props.DebugCluster
import Verif.Props.NotebookQuality
import Verif.Props.SimHash
import Verif.Props.SimHashIndex
import Verif.Props.ClusterSerial
import Verif.Props.ClusterPar
import Verif.Props.ClusterIndep
import Verif.Props.Hashers
import Verif.Props.Python
import Verif.Props.PythonContent
import Verif.Props.PythonFeatures
import Verif.Props.PythonSim
import Verif.Props.Recall
import Verif.Props.Unbiased
import Verif.Props.ClusterIndex
import Verif.Props.IndexEntries
import Verif.Props.PythonEntries
import Verif.Props.PythonTokens
import Verif.Props.Containers
import Verif.Props.Display
import Verif.Props.SimHashBits
import Verif.Props.BandProbability
import Verif.Props.Accuracy
import Verif.Props.PythonSimContent
import Verif.Props.Components
import Verif.Props.ClusterReal
import Verif.Props.IndexMore
import Verif.Props.PythonNative
import Verif.Props.PythonSimAnalyzer
import Verif.Props.SimStability
import Verif.Props.TokenHash
import Verif.Props.RandomSlopes
import Verif.Props.AffineAccuracy
import Verif.Props.AffineBias
import Verif.Props.NarrowHashes
import Verif.Props.Metamorphic
import Verif.Props.PythonMetamorphic
import Verif.Props.PythonVectors
import Verif.Props.ParamsFloat
import Verif.Props.HistoryFree
import Verif.Props.Hoeffding
import Verif.Props.SimHoeffding
import Verif.Props.Metric
import Verif.Props.AtThreshold
import Verif.Props.PythonDefaults
import Verif.Props.Sharding
import Verif.Props.SimSharding
import Verif.Props.DebugBuild
import Verif.Props.Dedup
import Verif.Props.HashSize
import Verif.Props.BandWidth
import Verif.Props.NativeSignatures
import Verif.Props.MeanSimilarity
import Verif.Props.BothClusterers
import Verif.Props.ParallelLabels
import Verif.Props.Sessions
import Verif.Props.Addresses
import Verif.Props.Separation
import Verif.Props.SimSeparation
import Verif.Props.NearestNeighbours
import Verif.Props.ExactProbability
import Verif.Props.SimExact
import Verif.Props.AffineExact
import Verif.Props.SimNearest
import Verif.Props.SuperLarge
import Verif.Props.ExpectedAnswers
import Verif.Props.AnyBandHash
import Verif.Props.Work
import Verif.Props.SimWork
import Verif.Props.SimMeanWork
