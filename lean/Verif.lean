import Verif.Props.Encoding
import Verif.Props.Parsing
import Verif.Props.Container
import Verif.Props.Frame
import Verif.Props.History
import Verif.Props.Authority
import Verif.Props.Algebra
import Verif.Props.Alike
import Verif.Props.Segments
import Verif.Props.SegEdit
import Verif.Props.Params
import Verif.Props.Iterators
import Verif.Props.Scheme
import Verif.Props.Pool
import Verif.Props.Assign
import Verif.Props.Error
import Verif.Props.Release
import Verif.Props.Alias
import Verif.Props.Sharp
import Verif.Props.Capacity
import Verif.Props.Machine
import Verif.Props.Heap
import Verif.Props.Held
import Verif.Props.Edits
import Verif.Props.Foreign
import Verif.Props.Suite
import Verif.Props.SuiteUrl
import Verif.Props.SuiteView
import Verif.Props.Rfc
import Verif.Props.Growth
import Verif.Props.Shared
import Verif.Props.Thrown
import Verif.Props.Exact
import Verif.Props.Lens
import Verif.Props.Chars
import Verif.Props.Sharper
import Verif.Props.EditExact
import Verif.Props.Combine
import Verif.Props.Copy
import Verif.Props.Cost
import Verif.Props.Amortized
import Verif.Props.Walks
import Verif.Props.Breaks
import Verif.Props.Present
import Verif.Props.Undo
import Verif.Props.Lookup
import Verif.Props.UsedFrame
import Verif.Props.Exposed
import Verif.Props.Stored
import Verif.Props.Texts
import Verif.Props.Terminator
import Verif.Props.AnyHistory
import Verif.Props.OriginExact
import Verif.Props.AlikeWorked
import Verif.Props.Outside
import Verif.Props.Getters
import Verif.Props.Commute
import Verif.Props.Letters
import Verif.Props.WalkWorked
import Verif.Props.Written
import Verif.Props.WrittenTotal
import Verif.Props.Rework
