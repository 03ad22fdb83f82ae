import Verif.Prelude
import Verif.Sparsity.Schedule
import Verif.Sparsity.Mask
import Verif.Props.Schedule
import Verif.Props.Mask
import Verif.Sparsity.Block
import Verif.Props.Block
import Verif.Sparsity.MByN
import Verif.Props.MByN
import Verif.Sparsity.Wrapper
import Verif.Props.Wrapper
import Verif.Sparsity.Registry
import Verif.Sparsity.Prune
import Verif.Props.Prune
import Verif.Sparsity.Policy
import Verif.Props.Policy
import Verif.Encoding.BitPack
import Verif.Props.BitPack
import Verif.Encoding.Encoder
import Verif.Props.Encoder
import Verif.Encoding.Composer
import Verif.Props.Composer
import Verif.Encoding.Dict
import Verif.Props.Dict
import Verif.Clustering.Algorithm
import Verif.Clustering.Centroids
import Verif.Clustering.Wrapper
import Verif.Clustering.Model
import Verif.Props.ClusterAlgorithm
import Verif.Props.Centroids
import Verif.Props.ClusterWrapper
import Verif.Props.ClusterModel
import Verif.Encoding.Uniform
import Verif.Props.Uniform
import Verif.Encoding.Hadamard
import Verif.Props.Hadamard
import Verif.Encoding.Misc
import Verif.Props.Misc
import Verif.Quant.Ops
import Verif.Props.QuantOps
import Verif.Quant.Preserve
import Verif.Props.Preserve
import Verif.Quant.Regex
import Verif.Props.Regex
import Verif.Quant.Transformer
import Verif.Props.Transformer
import Verif.Props.GraphSemantics
import Verif.Quant.Transforms8Bit
import Verif.Props.Transforms8Bit
import Verif.Props.FloatFunction
import Verif.Props.FloatSequential
import Verif.Props.CustomConfig
import Verif.Props.Run8Bit
import Verif.Quant.Apply
import Verif.Props.Annotate
import Verif.Props.ReplaceEffect
import Verif.Props.Apply
import Verif.Props.QuantizeModel
import Verif.Compression.Algorithms
import Verif.Compression.EprConv
import Verif.Compression.Optimize
import Verif.Props.CompressionSchedules
import Verif.Props.CompressionSvd
import Verif.Props.CompressionLayers
import Verif.Keras.Names
import Verif.Props.Names
import Verif.Quant.Config
import Verif.Props.QuantRegistry
import Verif.Props.QuantConfigs
import Verif.Props.QuantSetters
import Verif.Quant.Wrapper
import Verif.Props.QuantWrapper
import Verif.Props.QuantWrapperCalls
import Verif.Props.QuantWrapperConfigs
import Verif.Quant.Trainable
import Verif.Props.QuantTrainable
import Verif.Quant.PreserveRegistry
import Verif.Props.PreserveRegistry
import Verif.Quant.Serialize
import Verif.Props.Serialize
import Verif.Props.SerializeLibrary
import Verif.Quant.FixRange
import Verif.Props.FixRange
import Verif.Encoding.Stages
import Verif.Encoding.Gather
import Verif.Props.Stages
import Verif.Props.Gather
import Verif.Props.GatherStages
import Verif.Encoding.Paths
import Verif.Props.Paths
import Verif.Quant.SchemeConfig
import Verif.Props.SchemeParams
import Verif.Props.SchemeSaved
import Verif.Props.GatherChecks
import Verif.Clustering.Objects
import Verif.Clustering.Config
import Verif.WrapperCalls
import Verif.Props.ClusterObjects
import Verif.Props.ClusterConfig
import Verif.Props.WrapperCalls
import Verif.Pipeline
import Verif.Props.Pipeline
import Verif.Sparsity.Distributed
import Verif.Props.Distributed
import Verif.Props.EndToEnd
import Verif.Sparsity.Benchmark
import Verif.Props.Benchmark
import Verif.Sparsity.Summaries
import Verif.Clustering.Summaries
import Verif.Sparsity.Estimator
import Verif.Props.Summaries
import Verif.Props.ClusterSummaries
import Verif.Props.Estimator
import Verif.Props.EprConv
import Verif.Floats.Rounding
import Verif.Floats.Pruning
import Verif.Props.FloatRounding
import Verif.Props.FloatPruning
import Verif.Floats.Uniform
import Verif.Floats.Quant
import Verif.Props.FloatUniform
import Verif.Props.FloatQuant
import Verif.Props.FloatFakeQuant
import Verif.Compression.Attributes
import Verif.Metrics
import Verif.Props.CompressionAttributes
import Verif.Props.Metrics
import Verif.Props.Evaluation
import Verif.Props.EvaluationQuant
import Verif.Checkpoint
import Verif.Props.Resume
import Verif.Props.ResumePreserve
import Verif.Quant.CollabScheme
import Verif.Props.CollabScheme
import Verif.Floats.Clustering
import Verif.Props.FloatClustering
import Verif.Props.RandomSequence
import Verif.Floats.Random
import Verif.Encoding.Decorators
import Verif.Props.Decorators
import Verif.Compression.Shared
import Verif.Props.CompressionShared
import Verif.Props.FusedGraph
import Verif.Props.FusedMatch
import Verif.Props.FusedLoop
import Verif.Props.FusedPhases
import Verif.Props.FusedSteps
import Verif.Props.FusedRun
import Verif.Props.FusedTransforms
import Verif.Props.Fused
import Verif.Props.Separable
import Verif.Props.OnlyFusedGraph
import Verif.Props.OnlyFusedSteps
import Verif.Props.OnlyFusedRun
import Verif.Props.OnlyFused
import Verif.Props.TransformerExhausted
import Verif.Compression.Whole
import Verif.Props.CompressionWhole
import Verif.Props.ConcatGraph
import Verif.Props.ConcatSteps
import Verif.Props.Concat
import Verif.Clustering.Distributed
import Verif.Props.ClusterDistributed
import Verif.Clustering.Custom
import Verif.Props.ClusterCustom
import Verif.Quant.Distributed
import Verif.Props.QuantDistributed
import Verif.Sharing
import Verif.Props.Sharing
