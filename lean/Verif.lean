import Verif.Model.Scheduler
import Verif.Model.Seq
import Verif.Model.Format
import Verif.Model.GraphFormat
import Verif.Props.Duration
import Verif.Props.Interval
import Verif.Props.Set
import Verif.Props.SetRel
import Verif.Props.Order
import Verif.Props.Rounding
import Verif.Props.Length
import Verif.Props.Transfer
import Verif.Props.Recur
import Verif.Props.SetArith
import Verif.Props.SetLaws
import Verif.Props.SetLawsExact
import Verif.Model.Chain
import Verif.Spec.Chain
import Verif.Props.Chain
import Verif.Props.ChainSpan
import Verif.Props.Seq
import Verif.Props.Gossip
import Verif.Props.Route
import Verif.Props.Crash
import Verif.Props.CrashSet
import Verif.Props.Graph
import Verif.Props.GraphBatch
import Verif.Props.GraphAny
import Verif.Props.GraphCollect
import Verif.Props.GraphIter
import Verif.Props.GraphSafe
import Verif.Model.Release
import Verif.Props.Release
import Verif.Model.ReleaseGraph
import Verif.Spec.Release
import Verif.Props.ReleaseGraph
import Verif.Model.ReleaseSched
import Verif.Spec.ReleaseSched
import Verif.Props.ReleaseSched
import Verif.Lemmas.Overflow
import Verif.Props.Overflow
import Verif.Props.Scheduler
import Verif.Props.SchedConvex
import Verif.Props.SchedExact
import Verif.Props.SchedPieces
import Verif.Props.Pair
import Verif.Spec.Hinge
import Verif.Props.HingeSched
import Verif.Props.Rigid
import Verif.Props.Steps
import Verif.Props.Critical
import Verif.Props.Disjoint
import Verif.Props.Conflict
import Verif.Props.ConflictGraph
import Verif.Props.ConflictRemove
import Verif.Props.Format
import Verif.Props.GraphFormat
import Verif.Props.GraphGreedy
import Verif.Model.DateTime
import Verif.Spec.DateTime
import Verif.Props.DateTime
import Verif.Props.Exact
import Verif.Model.Float
import Verif.Spec.Float
import Verif.Props.Float
import Verif.Props.FloatSet
import Verif.Check.RepoTests
import Verif.Props.Shake
import Verif.Props.ShakeSched
import Verif.Props.Narrow
import Verif.Props.Sign
import Verif.Props.Compare
import Verif.Model.Serde
import Verif.Props.Serde
import Verif.Spec.History
import Verif.Props.GraphHistory
import Verif.Lemmas.SchedAny
import Verif.Props.SchedHistory
import Verif.Lemmas.UnionExact
import Verif.Props.UnionExact
import Verif.Props.Units
import Verif.Spec.Collect
import Verif.Props.Collect
import Verif.Props.SeqAdapt
import Verif.Model.Lazy
import Verif.Spec.Lazy
import Verif.Lemmas.Lazy
import Verif.Props.Lazy
import Verif.Props.Hinge
import Verif.Props.Hints
import Verif.Spec.Shift
import Verif.Lemmas.Shift
import Verif.Lemmas.ShiftSched
import Verif.Lemmas.ShiftReq
import Verif.Props.Shift
import Verif.Spec.Rename
import Verif.Props.Rename
import Verif.Props.Mirror
import Verif.Lemmas.Mirror
import Verif.Spec.Mirror
import Verif.Lemmas.MirrorSched
import Verif.Props.MirrorSched
import Verif.Props.SchedRepeat
import Verif.Props.SchedGreedy
import Verif.Lemmas.SchedInside
import Verif.Props.SchedFirm
import Verif.Spec.Apart
import Verif.Lemmas.Apart
import Verif.Props.Apart
import Verif.Lemmas.Steady
import Verif.Props.Steady
import Verif.Props.SchedBest
import Verif.Props.Twin
import Verif.Props.Monotone
import Verif.Props.Size
import Verif.Props.Cost
import Verif.Props.Compose
import Verif.Props.Rest
import Verif.Props.Turns
import Verif.Props.Explain
import Verif.Props.ExplainSched
import Verif.Props.LooseFormat
import Verif.Props.SchedAnswers
import Verif.Props.ConflictReached
import Verif.Props.LinesReached
