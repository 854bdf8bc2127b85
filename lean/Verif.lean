import Verif.Props.Enums
import Verif.Props.Cost
import Verif.Props.Config
import Verif.Props.Profile
import Verif.Props.DDFlow
import Verif.Props.DDSem
import Verif.Props.DDWitness
import Verif.Props.Sequential
import Verif.Props.SequentialEnd
import Verif.Props.SequentialWitness
import Verif.Props.Empty
import Verif.Props.Parallel
import Verif.Props.ParallelWitness
import Verif.Props.Queue
import Verif.Props.QueueWitness
import Verif.Props.StateGen
import Verif.Props.Prepare
import Verif.Props.PrepareWitness
import Verif.Props.HandleWitness
import Verif.Props.ZXPerm
import Verif.Props.ZXAncilla
import Verif.Props.ZXLoops
import Verif.Props.ZXVerdict
import Verif.Props.ZXWitness
import Verif.Props.Kwargs
import Verif.Props.Setters
import Verif.Props.Parameterized
import Verif.Props.ParamExtract
import Verif.Props.ParamWitness
import Verif.Props.Recurrence
import Verif.Props.Counterexample
import Verif.Props.Report
import Verif.Props.Reports
import Verif.Props.ReportsParallel
import Verif.Props.Schemes
import Verif.Props.EndToEndWitness
import Verif.Props.EndToEndParallel
import Verif.Props.EndToEndParallelWitness
import Verif.Props.PartialWitness
import Verif.Props.ParallelQueue
import Verif.Props.ParallelQueueHang
import Verif.Props.ParallelQueueComplete
import Verif.Props.PreparationWitness
import Verif.Props.Timeout
import Verif.Props.TimeoutWitness
import Verif.Props.ParallelRace
import Verif.Props.ParallelRelaxed
import Verif.Props.Rounding
import Verif.Props.RoundingWitness
import Verif.Props.ParallelAgain
import Verif.Props.Memory
import Verif.Props.EndToEndPartial
import Verif.Props.EndToEndPartialWitness
import Verif.Props.Rerun
import Verif.Props.RerunWitness
import Verif.Props.ProfileGen
import Verif.Props.ProfileGenWitness
import Verif.Props.Session
import Verif.Props.SessionWitness
import Verif.Props.Exhaustive
import Verif.Props.ExhaustiveWitness
import Verif.Props.PythonSession
import Verif.Props.PythonSessionWitness
import Verif.Props.VerifyEndToEnd
import Verif.Props.VerifyEndToEndWitness
import Verif.Props.PreparationPartial
import Verif.Props.VerifyEndToEndPartial
import Verif.Props.VerifyEndToEndPartialWitness
import Verif.Props.EndToEndMixed
import Verif.Props.PreparationMixed
import Verif.Props.VerifyMixedWitness
import Verif.Props.AncillasLast
import Verif.Props.VerifyDisplacedWitness
import Verif.Props.SessionTable
import Verif.Props.StateGenWide
import Verif.Props.VerifyDecides
import Verif.Props.VerifyDecidesWitness
import Verif.Model.Process
import Verif.Spec.Process
import Verif.Props.Process
import Verif.Props.GarbageKept
import Verif.Props.AncillasOneSide
import Verif.Spec.VerifyPartialDecides
import Verif.Props.VerifyPartialDecides
import Verif.Props.VerifyPartialDecidesWitness
import Verif.Model.PythonVerify
import Verif.Spec.PythonVerify
import Verif.Props.PythonVerify
import Verif.Props.PythonVerifyWitness
import Verif.Lemmas.RoundingProj
import Verif.Spec.EndToEndRounding
import Verif.Props.EndToEndRounding
import Verif.Props.EndToEndRoundingWitness
import Verif.Lemmas.WideRounding
import Verif.Spec.VerifyRounding
import Verif.Props.VerifyRounding
import Verif.Props.VerifyRoundingWitness
import Verif.Lemmas.LockStep
import Verif.Spec.SelfCheck
import Verif.Props.SelfCheck
import Verif.Props.SelfCheckWitness
import Verif.Spec.Routing
import Verif.Lemmas.Routing
import Verif.Lemmas.Misled
import Verif.Lemmas.MisledPartial
import Verif.Lemmas.MisledRounding
import Verif.Props.Routing
import Verif.Props.RoutingWitness
import Verif.Spec.PartialRelation
import Verif.Props.PartialRelation
import Verif.Props.PartialRelationWitness
import Verif.Props.GarbageOneSide
import Verif.Spec.VerifyCommon
import Verif.Props.VerifyCommon
import Verif.Props.VerifyCommonWitness
import Verif.Spec.SelfCheckPartial
import Verif.Props.SelfCheckPartial
import Verif.Props.SelfCheckPartialWitness
import Verif.Props.Accepted
import Verif.Props.MisreadWitness
import Verif.Spec.FirstDistinct
import Verif.Spec.Detection
import Verif.Props.FirstDistinct
import Verif.Props.Detection
import Verif.Props.DetectionWitness
import Verif.Spec.ParallelStimuli
import Verif.Spec.DetectionParallel
import Verif.Props.ParallelStimuli
import Verif.Props.DetectionParallel
import Verif.Props.DetectionParallelWitness
import Verif.Spec.DetectionStimuli
import Verif.Props.IndependentBlocks
import Verif.Props.DetectionStimuli
import Verif.Props.DetectionKinds
import Verif.Props.ProductStimuli
import Verif.Props.DetectionStimuliWitness
import Verif.Model.ProcessThreads
import Verif.Spec.ProcessThreads
import Verif.Props.ProcessThreads
import Verif.Lemmas.ProductAverage
import Verif.Spec.ProcessFidelity
import Verif.Props.ProcessFidelity
import Verif.Props.ProcessFidelityWitness
import Verif.Spec.RoundingPartial
import Verif.Lemmas.RoundingPartial
import Verif.Props.RoundingPartial
import Verif.Props.RoundingPartialWitness
import Verif.Spec.EndToEndRoundingPartial
import Verif.Props.EndToEndRoundingPartial
import Verif.Props.EndToEndRoundingPartialWitness
import Verif.Props.ThreadsAlone
import Verif.Spec.VerifyRoundingPartial
import Verif.Lemmas.WideRoundingPartial
import Verif.Props.VerifyRoundingPartial
import Verif.Props.VerifyRoundingPartialWitness
