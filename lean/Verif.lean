import Verif.Props.ActiveSubmaps
import Verif.Props.Sampling
import Verif.Props.OrderedMultiQueue
import Verif.Props.ThreadPool
import Verif.Props.BlockingQueue
import Verif.Props.MapById
import Verif.Props.MapByTime
import Verif.Props.ProbabilityValues
import Verif.Props.MapLimits
import Verif.Props.Grid2DUpdate
import Verif.Props.Grid2DGrow
import Verif.Props.Grid2DProto
import Verif.Props.HybridGrid
import Verif.Props.HybridGridUpdate
import Verif.Props.RayMask
import Verif.Props.RangeDataInserter2D
import Verif.Props.RangeDataInserter3D
import Verif.Props.Connectivity
import Verif.Props.CompressedPointCloud
import Verif.Props.VoxelFilter
import Verif.Props.WorkQueue
import Verif.Props.ConstraintBuilder
import Verif.Props.PoseGraphScheduling
import Verif.Props.PoseGraphTrim
import Verif.Props.TrajectoryStates
import Verif.Props.PoseGraphProto
import Verif.Props.PrecomputationGrid2D
import Verif.Props.BranchAndBound2D
import Verif.RangeDataCollator
import Verif.Props.RangeDataCollator
import Verif.ProtoStream
import Verif.Props.ProtoStream
import Verif.Serialization
import Verif.Props.Serialization
import Verif.Rigid
import Verif.Props.Rigid
import Verif.InterpolationBuffer
import Verif.Props.InterpolationBuffer
import Verif.PoseExtrapolator
import Verif.PoseExtrapolatorLemmas
import Verif.Props.PoseExtrapolator
import Verif.OverlappingTrimmer
import Verif.OverlappingTrimmerLemmas
import Verif.Props.OverlappingTrimmer
import Verif.LuaDictionary
import Verif.Props.LuaDictionary
import Verif.Time
import Verif.Props.Time
import Verif.Histogram
import Verif.Props.Histogram
import Verif.SubmapController
import Verif.Props.SubmapController
import Verif.Uploader
import Verif.Props.Uploader
import Verif.FastCorrelative3D
import Verif.Props.PrecomputationGrid3D
import Verif.Props.BranchAndBound3D
import Verif.Tsdf2D
import Verif.Props.Tsdf2D
import Verif.SlamUpload
import Verif.Props.SlamUpload
import Verif.DenseMap
import Verif.LocalSlamGraph
import Verif.LocalSlamGraphLemmas
import Verif.LocalSlamGraphInvariant
import Verif.Props.LocalSlamGraph
import Verif.GlobalPoses
import Verif.GlobalPosesLemmas
import Verif.Props.GlobalPoses
import Verif.OptimizationProblem
import Verif.OptimizationProblemLemmas
import Verif.Props.OptimizationProblem
import Verif.Props.OptimizationTrim
import Verif.MapBuilderServer
import Verif.Props.MapBuilderServer
import Verif.LocalTrajectoryBuilder
import Verif.LocalTrajectoryBuilderLemmas
import Verif.Props.LocalTrajectoryBuilder2D
import Verif.Props.LocalTrajectoryBuilder3D
import Verif.Props.LocalTrajectoryBuilderFeed
import Verif.PointsProcessor
import Verif.Props.PointsProcessorSpec
import Verif.Props.PointsProcessor
import Verif.Props.PointsPipeline
import Verif.Props.PointsShape
import Verif.SubmapTexture
import Verif.Props.SubmapTexture
import Verif.Props.SubmapXray
import Verif.CostFunctions
import Verif.Props.CostFunctions
import Verif.ImuIntegration
import Verif.Props.ImuIntegration
import Verif.RealTimeCorrelative
import Verif.Props.RealTimeCorrelative
import Verif.Spline
import Verif.ScanMatchCost
import Verif.Props.InterpolatedGrid
import Verif.Props.ScanMatchCost3D
import Verif.Props.ScanMatchCost2D
import Verif.Props.ScanMatchCostTsdf
import Verif.RotationalScanMatcher
import Verif.Props.RotationalScanMatcher
import Verif.Props.RotationalHistogram
import Verif.DetectFloors
import Verif.Props.DetectFloors
import Verif.GroundTruth
import Verif.Props.GroundTruth
import Verif.Props.RelationMetrics
import Verif.Messages
import Verif.Props.Messages
import Verif.LoopClosure
import Verif.Props.LoopClosureMatch
import Verif.Props.LoopClosureSearch
import Verif.Collators
import Verif.CollatorsLemmas
import Verif.Props.Collators
import Verif.RateTimer
import Verif.Props.RateTimer
import Verif.TrajectoryFeed
import Verif.Props.TrajectoryFeed
import Verif.Props.GlobalTrajectoryBuilder
import Verif.NormalEstimation
import Verif.Props.NormalEstimation
import Verif.Match3D
import Verif.Props.Match3D
import Verif.Props.LoopClosure3D
import Verif.Migration
import Verif.Props.Migration
import Verif.Props.StreamMigration
import Verif.ClientStub
import Verif.Props.ClientStub
import Verif.SensorStreams
import Verif.Props.SensorStreams
import Verif.ImuExtrapolator
import Verif.Props.ImuExtrapolator
import Verif.Locks
import Verif.Props.Locks
import Verif.XRayImage
import Verif.Props.XRayImage
import Verif.Image
import Verif.Props.Image
import Verif.Configuration
import Verif.Props.Configuration
import Verif.FloatFormat
import Verif.FloatProbability
import Verif.FloatProbabilityLemmas
import Verif.Props.FloatFormat
import Verif.Props.FloatProbability
import Verif.FloatCells
import Verif.Props.FloatCells
import Verif.Races
import Verif.Props.Races
import Verif.OptimizationProblem3D
import Verif.OptimizationProblem3DLemmas
import Verif.Props.OptimizationProblem3D
import Verif.Props.OptimizationExec3D
import Verif.LuaText
import Verif.LuaTextLemmas
import Verif.Props.LuaText
import Verif.SavedGraph
import Verif.Props.SavedGraph
import Verif.MachineInts
import Verif.Props.MachineInts
import Verif.Includes
import Verif.Props.Includes
import Verif.SavedSensors
import Verif.SavedSensorsLemmas
import Verif.Props.SavedSensors
import Verif.FloatLoops
import Verif.Props.FloatLoops
import Verif.FloatMatch
import Verif.FloatMatchLemmas
import Verif.Props.FloatMatch
import Verif.LateTrajectoriesLemmas
import Verif.Props.LateTrajectories
import Verif.MapBuilder
import Verif.MapBuilderLemmas
import Verif.Props.MapBuilder
import Verif.PoseGraph3D
import Verif.Props.PoseGraph3D
import Verif.LoadWhileRunning
import Verif.LoadWhileRunningLemmas
import Verif.LoadWhileRunningInvariant
import Verif.Props.LoadWhileRunning
import Verif.Localization
import Verif.LocalizationMaps
import Verif.LocalizationLemmas
import Verif.LocalizationTrimming
import Verif.LocalizationInvariant
import Verif.LocalizationSteps
import Verif.LocalizationRuns
import Verif.Props.Localization
import Verif.SubmapConstraints
import Verif.SubmapConstraintsInvariant
import Verif.Props.SubmapConstraints
import Verif.PbstreamInfo
import Verif.Props.PbstreamInfo
import Verif.RelationsText
import Verif.Props.RelationsText
import Verif.Colors
import Verif.Props.Colors
import Verif.Intensities
import Verif.IntensitiesLemmas
import Verif.IntensitiesSubmaps
import Verif.Props.Intensities
import Verif.GroundTruthOfMap
import Verif.Props.GroundTruthOfMap
import Verif.MapSlices
import Verif.Props.MapSlices
import Verif.Props.MapSlicesLoad
import Verif.Props.LoadFiles
import Verif.Props.LoadedConstraints
import Verif.Props.SavedMapPainted
