import Verif.Props.DataSource
import Verif.Props.Chars
import Verif.Props.Chunks
import Verif.Props.Safety
import Verif.Props.Independence
import Verif.Props.Grammar
import Verif.Props.Sequence
import Verif.Props.Leaf
import Verif.Props.Memory
import Verif.Props.Compose
import Verif.Props.Collect
import Verif.Props.Alternative
import Verif.Props.Terminate
import Verif.Props.Skipper
import Verif.Props.Skip
import Verif.Props.Initialised
import Verif.Props.Calculator
import Verif.Props.Readme
import Verif.Props.Construct
import Verif.Props.Bound
import Verif.Props.NilDst
import Verif.Props.Guide
import Verif.Props.GuideMore
import Verif.Props.GuideNested
import Verif.Props.Static
import Verif.Props.Dispatch
import Verif.Props.Expr
import Verif.Props.Buffers
import Verif.Props.Recur
import Verif.Props.Compatible
import Verif.Props.Documented
import Verif.Props.Objects
import Verif.Props.CharTypes
import Verif.Props.Counters
import Verif.Props.Laws
import Verif.Props.Stack
import Verif.Props.InSequence
import Verif.Check.RepoTests
import Verif.Props.Points
import Verif.Props.Time
import Verif.Props.SinglePass
import Verif.Props.TextTypes
import Verif.Props.Throws
import Verif.Props.StackObject
import Verif.Props.Marked
import Verif.Props.Gives
import Verif.Props.GivesSkip
import Verif.Props.DefaultNumbers
import Verif.Props.Copies
import Verif.Props.Retry
import Verif.Props.Waiting
import Verif.Props.Moves
import Verif.Props.Peek
import Verif.Props.Variants
import Verif.Props.ActionTraits
import Verif.Props.PointsTime
import Verif.Props.CalculatorMain
import Verif.Props.CalculatorPrint
import Verif.Props.ReadmePrint
