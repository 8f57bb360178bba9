import Verif.Util
import Verif.Model.Parameters
import Verif.Props.Parameters
import Verif.Model.ClusterNodes
import Verif.Props.ClusterNodes
import Verif.Model.Protocols
import Verif.Props.DirectProtocol
import Verif.Model.Ring
import Verif.Props.Ring
import Verif.Model.ClusterListener
import Verif.Props.ClusterListener
import Verif.Model.DataReader
import Verif.Props.DataReader
import Verif.Model.Columns
import Verif.Props.Columns
import Verif.Model.Stats
import Verif.Props.Stats
import Verif.Model.Preprocessor
import Verif.Props.Preprocessor
import Verif.Model.PhaseSpace
import Verif.Props.PhaseSpace
import Verif.Model.SegmentId
import Verif.Props.SegmentId
import Verif.Model.Transition
import Verif.Props.Transition
import Verif.Model.Segmentation
import Verif.Props.SegmentationLocal
import Verif.Props.Segmentation
import Verif.Model.SelfCorrection
import Verif.Props.SelfCorrection
import Verif.Model.Intersections
import Verif.Props.Intersections
import Verif.Model.Geometry
import Verif.Props.Geometry
import Verif.Model.Kde
import Verif.Props.KdePeaks
import Verif.Props.KdeDensity
import Verif.Model.NodeEstimation
import Verif.Props.NodeEstimation
import Verif.Model.Edges
import Verif.Props.Edges
import Verif.Props.EdgesLocal
import Verif.Props.EdgesWalk
import Verif.Props.NodeQuestions
import Verif.Model.NodeQA
import Verif.Props.NodeQA
import Verif.Props.EdgesDistributed
import Verif.Model.Transposition
import Verif.Props.Transposition
import Verif.Model.Weights
import Verif.Props.Weights
import Verif.Model.ScoreInit
import Verif.Props.ScoreInit
import Verif.Model.EdgesInTime
import Verif.Props.EdgesInTime
import Verif.Model.Scoring
import Verif.Props.Scoring
import Verif.Model.ParallelScore
import Verif.Props.ParallelScore
import Verif.Model.Overlap
import Verif.Props.Overlap
import Verif.Model.SubScores
import Verif.Props.SubScores
import Verif.Model.Contribution
import Verif.Props.Contribution
import Verif.Model.PcaTree
import Verif.Props.PcaTree
import Verif.Model.Pca
import Verif.Props.Pca
import Verif.Model.Rotation
import Verif.Props.Rotation
import Verif.Model.PcaNet
import Verif.Props.PcaNet
import Verif.Props.PcaExact
import Verif.Props.RingExact
import Verif.Props.RaceExact
import Verif.Props.Relabel
import Verif.Props.KdeOrder
import Verif.Model.Pipeline
import Verif.Props.Pipeline
import Verif.Props.Distributed
import Verif.Props.KdeValue
import Verif.Props.Projection
import Verif.Props.Complete
import Verif.Props.FirstEdge
import Verif.Props.Points
import Verif.Model.RotNet
import Verif.Props.RotNet
import Verif.Model.Whole
import Verif.Props.Whole
import Verif.Props.WholeScale
import Verif.Props.WholeRun
import Verif.Props.WholeExample
import Verif.Model.CorrNet
import Verif.Props.CorrNet
import Verif.Props.CorrSim
import Verif.Props.CorrRun
import Verif.Props.CorrRace
import Verif.Model.Cluster
import Verif.Props.Cluster
import Verif.Props.ClusterExample
import Verif.Props.CorrComplete
import Verif.Model.ClusterRun
import Verif.Props.ClusterScores
import Verif.Props.ClusterRun
import Verif.Props.ClusterRunExample
import Verif.Props.Periodic
import Verif.Props.PeriodicExample
import Verif.Model.NanRun
import Verif.Props.NanRun
import Verif.Props.NanRunExample
import Verif.Model.Stage
import Verif.Model.Joint
import Verif.Props.Stage
import Verif.Props.StageNets
import Verif.Props.JointStages
import Verif.Props.JointRun
import Verif.Props.JointSeg
import Verif.Props.JointDelivers
import Verif.Model.Estimator
import Verif.Props.Estimator
import Verif.Props.StageLive
import Verif.Props.JointLeaves
import Verif.Props.JointLive
import Verif.Model.FloatRun
import Verif.Props.FloatPca
import Verif.Props.FloatRun
import Verif.Props.BlankLines
import Verif.Model.FloatScore
import Verif.Props.FloatScore
import Verif.Props.WholeColumns
import Verif.Props.WholeOrder
import Verif.Props.WholeOrderExample
import Verif.Model.JointRotation
import Verif.Props.JointRotation
import Verif.Model.LoadNet
import Verif.Model.FileRun
import Verif.Props.LoadNet
import Verif.Props.LoadLive
import Verif.Props.FileRun
import Verif.Model.EndNet
import Verif.Props.EndNet
import Verif.Model.Layout
import Verif.Props.Layout
import Verif.Props.SameStretch
import Verif.Model.Missing
import Verif.Props.Missing
import Verif.Model.FloatWalk
import Verif.Props.Rare
import Verif.Props.Sizes
import Verif.Model.FloatCluster
import Verif.Props.FloatCluster
import Verif.Model.DistEstimator
import Verif.Props.DistEstimator
import Verif.Props.ClusterSizes
import Verif.Model.Store
import Verif.Props.Store
import Verif.Props.StoreRun
import Verif.Props.ClusterInvariance
import Verif.Model.HeapNet
import Verif.Props.HeapNet
import Verif.Props.HeapRun
import Verif.Props.WholeCopies
import Verif.Props.ClusterCopies
import Verif.Model.Hashed
import Verif.Props.WholeHashed
import Verif.Props.HashedExample
import Verif.Model.Explained
import Verif.Props.WholeExplained
import Verif.Props.ExplainedExample
import Verif.Props.ExplainedColumns
import Verif.Model.ExplainedHashed
import Verif.Props.ExplainedHashed
import Verif.Props.ExplainedHashedExample
import Verif.Props.CrossingBound
import Verif.Props.CrossingFails
import Verif.Props.CrossingFormula
import Verif.Model.ClusterHashed
import Verif.Props.ClusterHashed
import Verif.Props.ClusterHashedExample
import Verif.Props.ClusterDelivers
import Verif.Props.SameStretchExplained
