import Verif.Props.Tags
import Verif.Props.Scan
import Verif.Props.Arith
import Verif.Props.Datetime
import Verif.Props.Buffer
import Verif.Props.BufferOrder
import Verif.Props.Capi
import Verif.Props.StringView
import Verif.Props.Memory
import Verif.Props.Stretchy
import Verif.Props.TupleObs
import Verif.Props.TupleRW
import Verif.Props.TupleLayout
import Verif.Props.TupleDefects
import Verif.Props.BestFit
import Verif.Props.Audit
import Verif.Props.AuditComplete
import Verif.Props.Serial
import Verif.Props.Compact
import Verif.Props.Numeric
import Verif.Props.NullTable
import Verif.Props.Schema
import Verif.Props.Estimate
import Verif.Props.Iterate
import Verif.Props.IterField
import Verif.Props.Grow
import Verif.Props.Handle
import Verif.Props.CapiErase
import Verif.Props.CapiRw
import Verif.Props.CapiRead
import Verif.Props.D2a
import Verif.Props.Shodan
import Verif.Props.Fraction
import Verif.Props.Convert
import Verif.Props.Guard
import Verif.Props.Arena
import Verif.Props.Real
import Verif.Props.Utils
import Verif.Props.Pages
import Verif.Props.ByteOrder
import Verif.Props.Seconds
import Verif.Props.PureCalls
import Verif.Props.FastMath
import Verif.Model.ScanFloat
import Verif.Props.ScanFloat
import Verif.Model.Message
import Verif.Props.Message
import Verif.Props.LastError
import Verif.Props.Defaults
import Verif.Props.CapiCmp
import Verif.Props.Exact
import Verif.Props.Refit
import Verif.Props.Accessor
import Verif.Props.Book
import Verif.Props.Isolation
import Verif.Props.Initial
import Verif.Props.Present
import Verif.Props.Elbrus
import Verif.Props.Clock
import Verif.Props.Cpu
import Verif.Props.Story
import Verif.Props.Token
import Verif.Props.CapiTake
import Verif.Props.Owner
import Verif.Props.OwnerTuple
import Verif.Props.Print
import Verif.Props.IsolationGrow
import Verif.Props.Replace
import Verif.Props.Again
import Verif.Props.Sequence
import Verif.Props.Units
import Verif.Props.Keywords
import Verif.Props.HandleCmp
import Verif.Props.StdText
import Verif.Props.Refers
import Verif.Model.Shortage
import Verif.Props.Shortage
