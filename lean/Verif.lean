import Verif.Props.Tree
import Verif.Props.MpcOptimal
import Verif.Props.MpcOptimalColl
import Verif.Props.Guarantees
import Verif.Props.Stability
import Verif.Props.RobustFeasibility
import Verif.Props.OutputFeedback
import Verif.Props.OutputFeedbackColl
import Verif.Props.OutputFeedbackCollEx
import Verif.Spec.OutputFeedbackColl
import Verif.Props.Uncertainty
import Verif.Props.Prediction
import Verif.Props.Collocation
import Verif.Props.ClosedLoop
import Verif.Props.Results
import Verif.Props.DataHandler
import Verif.Props.Mhe
import Verif.Props.MheRun
import Verif.Props.MheOptimal
import Verif.Props.MheLog
import Verif.Props.Iterated
import Verif.Props.InitialGuess
import Verif.Props.ModelBuilder
import Verif.Props.LqrInf
import Verif.Props.LqrRun2
import Verif.Props.Linearize
import Verif.Props.LinearRefine
import Verif.Props.Lifecycle
import Verif.Props.LifecycleConf
import Verif.Props.MheLifeConf
import Verif.Props.IndexedProperty
import Verif.Props.Structure
import Verif.Props.OpcUa
import Verif.Props.Differentiator
import Verif.Props.DifferentiatorDeriv
import Verif.Props.Dae2Ode
import Verif.Props.Onnx
import Verif.Props.OnnxOps
import Verif.Props.PredictionAux
import Verif.Props.Graphics
import Verif.Props.LoopRuns
import Verif.Props.GuaranteesColl
import Verif.Props.GuaranteesCollEx
import Verif.Spec.EstimationColl
import Verif.Props.MheOptimalColl
import Verif.Props.MheOptimalCollEx
import Verif.Props.MheLoopRuns
import Verif.Props.SimLife
import Verif.Props.MheLife
import Verif.Props.LqrLoop
import Verif.Model.OpcLoop
import Verif.Props.OpcLoop
import Verif.Model.OpcFault
import Verif.Props.OpcFault
import Verif.Props.Live
import Verif.Props.MheLive
import Verif.Props.LiveLoop
import Verif.Spec.LiveSafe
import Verif.Props.LiveSafe
import Verif.Props.LiveSafeColl
import Verif.Spec.LiveCost
import Verif.Props.LiveCost
import Verif.Props.LiveCostColl
import Verif.Props.Symbols
import Verif.Props.Settings
import Verif.Props.DiffStatus
import Verif.Props.DiffStatusEx
import Verif.Props.DiffSolution
import Verif.Props.SamplingPipeline
import Verif.Props.SamplingFiles
import Verif.Props.OpcSetup
import Verif.Props.MpcOptimalFails
import Verif.Props.MheOptimalFails
import Verif.Props.OutputFeedbackFails
import Verif.Props.CustomNlp
import Verif.Props.Configured
import Verif.Props.MheConfigured
import Verif.Props.FlatSensEx
import Verif.Props.FlatGain
import Verif.Props.FlatGainEx
import Verif.Props.FlatMhe
import Verif.Props.MheSens
import Verif.Props.MheSensEx
import Verif.Props.Convergence
import Verif.Props.ConvergenceEx
import Verif.Props.ConvergenceColl
import Verif.Props.ConvergenceCollEx
import Verif.Props.Scaling
import Verif.Props.ScalingMhe
import Verif.Props.ScalingEx
import Verif.Props.Robustness
import Verif.Props.RobustnessColl
import Verif.Props.SamplingPar
import Verif.Props.SamplingPar2
import Verif.Props.Callbacks
import Verif.Props.Callbacks2
import Verif.Props.Callbacks3
import Verif.Model.LiveOutLoop
import Verif.Spec.LiveOutLoop
import Verif.Props.LiveOutLoop
import Verif.Model.DataHeap
import Verif.Spec.DataHeap
import Verif.Props.DataHeap
import Verif.Model.Timer
import Verif.Spec.Timer
import Verif.Props.Timer
import Verif.Spec.CallOrder
import Verif.Props.CallOrder
import Verif.Spec.Soft
import Verif.Props.Soft
import Verif.Props.SoftColl
import Verif.Spec.SoftMhe
import Verif.Props.SoftMhe
import Verif.Props.SoftRelax
import Verif.Props.SoftRelaxMhe
import Verif.Props.SoftRelaxMheColl
import Verif.Props.SoftRelaxColl
