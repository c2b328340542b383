import Verif.Props.TimeStamp
import Verif.Props.Hungarian
import Verif.Props.CostMatrixReduce
import Verif.Props.PermLex
import Verif.Props.MatPerm
import Verif.Props.Partition
import Verif.Props.Murty
import Verif.Props.MurtyBlock
import Verif.Props.BruteForce
import Verif.Props.OSPA
import Verif.Props.GaussianMixture
import Verif.Props.GMHeap
import Verif.Props.GMBernoulli
import Verif.Props.ParticleFilter
import Verif.Props.SpatialIndex
import Verif.Props.SITExport
import Verif.Props.JCBB
import Verif.Props.JCBBDist
import Verif.Props.RandomVec
import Verif.Props.ORB
import Verif.Props.Amplitude
import Verif.Props.BoundingBox
import Verif.Props.RFSLikelihood
import Verif.Props.PHD
import Verif.Props.MeasModels
import Verif.Props.Jacobians
import Verif.Props.ClutterIntegral
import Verif.Props.Kalman
import Verif.Props.Motion
import Verif.Props.Frame
import Verif.Props.CBMeMBer
import Verif.Props.CeresLin
import Verif.Props.Predict
import Verif.Props.LMB
import Verif.Props.LMBMurty
import Verif.Props.LMBTrunc
import Verif.Props.FastSLAM
import Verif.Props.PSO
import Verif.Props.PSODraws
import Verif.Props.SITCells
import Verif.Props.PSOMoves
import Verif.Props.Batch
import Verif.Props.BatchSim
import Verif.Props.MeasCov
import Verif.Props.BatchLik
import Verif.Props.Sim
import Verif.Props.SimData
import Verif.Props.SimTotal
import Verif.Props.Analysis
import Verif.Props.VPark
import Verif.Props.VParkLoop
import Verif.Props.AmpClutter
import Verif.Props.Tree
import Verif.Props.Gaussian
import Verif.Props.Descriptor
import Verif.Props.Convert
import Verif.Props.Sim6D
import Verif.Props.MBFilter
import Verif.Props.MBRuns
import Verif.Props.LMBRuns
import Verif.Props.PHDWeight
import Verif.Props.Programs
import Verif.Props.PHDRuns
import Verif.Props.FastRuns
import Verif.Props.FastThreads
import Verif.Props.Config
import Verif.Props.PHDThreads
import Verif.Props.PSORuns
import Verif.Props.Heap
import Verif.Props.MBThreads
import Verif.Props.Timing
import Verif.Props.Dbl
import Verif.Props.HungDbl
import Verif.Props.MurtyDbl
import Verif.Props.MurtyDblRuns
import Verif.Props.PHDLeak
import Verif.Props.Visual
import Verif.Props.FastMore
import Verif.Props.OspaFile
import Verif.Props.FastFine
import Verif.Props.InitTraj
import Verif.Props.SimNumbers
import Verif.Props.SimLandmarks
