import Verif.Model.World
import Verif.Props.History
import Verif.Props.Pointwise
import Verif.Props.Signal
import Verif.Props.Temporal
import Verif.Props.Until
import Verif.Props.Formula
import Verif.Props.Joined
import Verif.Props.Step
import Verif.Props.Online
import Verif.Props.UntilRun
import Verif.Props.UntilStep
import Verif.Props.UntilTopStep
import Verif.Props.UntilFacts
import Verif.Props.UntilNest
import Verif.Props.NestFacts
import Verif.Props.LeftTime
import Verif.Props.LeftTotal
import Verif.Props.RightTime
import Verif.Props.UntilLin
import Verif.Props.Runs
import Verif.Props.Poll
import Verif.Props.Complete
import Verif.Props.Stream
import Verif.Props.FixedPoint
import Verif.Props.PrintMonitor
import Verif.Props.ReadPoint
import Verif.Props.Update
import Verif.Props.PrintTrace
import Verif.Props.TraceFile
import Verif.Props.RemoveInf
import Verif.Props.Alias
import Verif.Props.Later
import Verif.Props.UntilTop
import Verif.Props.TimeRob
import Verif.Props.Queue
import Verif.Props.Append
import Verif.Props.Scanner
import Verif.Props.Tools
import Verif.Props.Parser
import Verif.Props.ParseText
import Verif.Props.Heap
import Verif.Props.Negation
import Verif.Props.Beyond
import Verif.Props.Print
import Verif.Props.Accept
import Verif.Props.Members
import Verif.Props.Clear
import Verif.Props.Laws
import Verif.Props.Select
import Verif.Props.Affine
import Verif.Props.Dump
import Verif.Props.Mono
import Verif.Model.Rounded
import Verif.Model.RoundedRun
import Verif.Model.Double
import Verif.Spec.Rounded
import Verif.Proofs.Rounded
import Verif.Proofs.Grid
import Verif.Proofs.GridRun
import Verif.Proofs.Double
import Verif.Props.Rounded
import Verif.Spec.Digits
import Verif.Proofs.Digits
import Verif.Spec.SelectFp
import Verif.Proofs.SelectFp
import Verif.Proofs.DoubleRep
import Verif.Proofs.DoubleNear
import Verif.Proofs.LeafFp
import Verif.Proofs.TermFp
import Verif.Proofs.SelectFpRun
import Verif.Props.SelectFp
import Verif.Props.Correct
import Verif.Proofs.StepEv
import Verif.Proofs.StepPartial
import Verif.Proofs.StepPartialRun
import Verif.Proofs.StepCover
import Verif.Props.OnlineStep
