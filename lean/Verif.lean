import Verif.Py.Dict
import Verif.Py.Val
import Verif.Core.Schema
import Verif.Core.Import
import Verif.Core.ImportLemmas
import Verif.Spec
import Verif.Samples
import Verif.Props.Import
import Verif.Props.Import2
import Verif.Props.Import3
import Verif.Props.Compound
import Verif.Core.Deep
import Verif.Props.Deep
import Verif.Lib.Role
import Verif.Core.Export
import Verif.Core.ExportLemmas
import Verif.Props.Export
import Verif.Props.ExportDeep
import Verif.Props.ExportLevel
import Verif.Props.Role
import Verif.Core.Sim
import Verif.Props.Partial
import Verif.Props.Termination
import Verif.Props.ErrorTree
import Verif.Props.ModelValidators
import Verif.Core.Stable
import Verif.Props.Idempotent
import Verif.Props.RoundTrip
import Verif.Props.Mapping
import Verif.Core.Instance
import Verif.Core.InstanceLemmas
import Verif.Props.Instance
import Verif.Props.Instance2
import Verif.Props.Instance3
import Verif.Props.Equality
import Verif.Lib.EqGraph
import Verif.Py.Text
import Verif.Py.Float
import Verif.Py.Number
import Verif.Py.Calendar
import Verif.Types.Number
import Verif.Types.Text
import Verif.Types.DateTime
import Verif.Props.Number
import Verif.Props.Decimal
import Verif.Props.Text
import Verif.Py.FloatMore
import Verif.Props.Date
import Verif.Props.DateTime
import Verif.Props.Timestamp
import Verif.Py.Regex
import Verif.Types.Net
import Verif.Props.Net
import Verif.Types.Misc
import Verif.Props.Misc
import Verif.Props.Poly
import Verif.Props.Total
import Verif.Props.Builtin
import Verif.Lib.Error
import Verif.Props.Error
import Verif.Lib.Context
import Verif.Props.Context
import Verif.Lib.Meta
import Verif.Props.Meta
import Verif.Lib.Machine
import Verif.Props.Machine
import Verif.Types.Mock
import Verif.Props.Mock
import Verif.Lib.MockObject
import Verif.Props.MockObject
import Verif.Py.Match
import Verif.Types.Web
import Verif.Props.Web
import Verif.Props.Url
import Verif.Lib.Callable
import Verif.Lib.TypeClass
import Verif.Lib.Subclass
import Verif.Props.Callable
import Verif.Props.TypeClass
import Verif.Props.Subclass
import Verif.Props.ExportItems
import Verif.Props.Setters
import Verif.Props.Iso
import Verif.Props.Append
import Verif.Props.Reference
import Verif.Props.Atoms
import Verif.Props.Serializable
import Verif.Types.Union
import Verif.Props.Union
import Verif.Lib.EqThreads
import Verif.Props.EqThreads
import Verif.Props.Crash
import Verif.Core.Alias
import Verif.Props.Alias
import Verif.Lib.Fresh
import Verif.Lib.FreshLemmas
import Verif.Props.Fresh
import Verif.Core.Converter
import Verif.Props.ExportTermination
import Verif.Props.Converter
import Verif.Core.Factory
import Verif.Props.Factory
import Verif.Py.Strptime
import Verif.Props.Formats
import Verif.Lib.ImportString
import Verif.Props.ImportString
import Verif.Props.Declared
import Verif.Props.ErrorTree2
import Verif.Props.MockWeb
import Verif.Props.Formats2
import Verif.Lib.Options
import Verif.Props.Options
import Verif.Lib.ErrorHeap
import Verif.Props.ErrorHeap
import Verif.Props.ErrorHeap2
import Verif.Props.Formats3
import Verif.Props.Instance4
import Verif.Core.Hooks
import Verif.Props.Hooks
import Verif.Props.Hooks2
import Verif.Props.Hooks3
import Verif.Props.ErrorHeap3
import Verif.Core.Mock
import Verif.Props.MockValid
import Verif.Props.MockValid2
import Verif.Core.ExportHooks
import Verif.Props.ExportHooks
import Verif.Props.ExportHooks2
import Verif.Props.Methods
import Verif.Props.FieldEntry
import Verif.Lib.RefThreads
import Verif.Props.RefThreads
import Verif.Lib.ContextThreads
import Verif.Props.ContextThreads
import Verif.Props.Instance5
import Verif.Core.Interrupt
import Verif.Props.Interrupt
import Verif.Props.Interrupt2
import Verif.Props.Interrupt3
import Verif.Props.Interrupt4
import Verif.Props.Interrupt5
import Verif.Core.Readers
import Verif.Props.Readers
import Verif.Props.Readers2
import Verif.Props.Readers3
import Verif.Props.Readers4
import Verif.Core.Writers
import Verif.Props.Writers
import Verif.Types.ObjectId
import Verif.Props.ObjectId
import Verif.Lib.DataObject
import Verif.Props.DataObject
import Verif.Props.DataObjectEq
import Verif.Core.Alone
import Verif.Props.Alone
