import Verif.Model.Access
import Verif.Model.AsMemory
import Verif.Model.Basic
import Verif.Model.Bits
import Verif.Model.Classify
import Verif.Model.Compare
import Verif.Model.Construct
import Verif.Model.Containers
import Verif.Model.Convert
import Verif.Model.ConvertWork
import Verif.Model.Cost
import Verif.Model.Direct
import Verif.Model.Dispatch
import Verif.Model.Edit
import Verif.Model.Effort
import Verif.Model.Entry
import Verif.Model.EnumName
import Verif.Model.Equal
import Verif.Model.Float
import Verif.Model.FloatText
import Verif.Model.GetText
import Verif.Model.Handle
import Verif.Model.Heap
import Verif.Model.Integer
import Verif.Model.Iterate
import Verif.Model.Join
import Verif.Model.Keys
import Verif.Model.Literal
import Verif.Model.Macro
import Verif.Model.Message
import Verif.Model.Mutate
import Verif.Model.Noexcept
import Verif.Model.Ostream
import Verif.Model.PackedBytes
import Verif.Model.ParseHeap
import Verif.Model.Parser
import Verif.Model.Pour
import Verif.Model.Reference
import Verif.Model.Report
import Verif.Model.Select
import Verif.Model.Serialize
import Verif.Model.Storage
import Verif.Model.StoreMemory
import Verif.Model.StoreWork
import Verif.Model.Swap
import Verif.Model.Take
import Verif.Model.TakeMemory
import Verif.Model.TakeText
import Verif.Model.TakeWork
import Verif.Model.Target
import Verif.Model.Temporary
import Verif.Model.Value
import Verif.Model.View
import Verif.Model.Wide
import Verif.Model.Work
import Verif.Spec.Accel
import Verif.Spec.Access
import Verif.Spec.Alike
import Verif.Spec.Arrive
import Verif.Spec.Classify
import Verif.Spec.Containers
import Verif.Spec.Convert
import Verif.Spec.ConvertWork
import Verif.Spec.Denote
import Verif.Spec.Effort
import Verif.Spec.EnumName
import Verif.Spec.Equal
import Verif.Spec.Float
import Verif.Spec.Grammar
import Verif.Spec.Heap
import Verif.Spec.Integer
import Verif.Spec.Join
import Verif.Spec.Layout
import Verif.Spec.Lenient
import Verif.Spec.Lines
import Verif.Spec.Literal
import Verif.Spec.Located
import Verif.Spec.Pour
import Verif.Spec.Race
import Verif.Spec.Reference
import Verif.Spec.Retry
import Verif.Spec.Steady
import Verif.Spec.StoreMemory
import Verif.Spec.StoreWork
import Verif.Spec.Take
import Verif.Spec.TakeMemory
import Verif.Spec.TakeWork
import Verif.Spec.Utf8Text
import Verif.Spec.View
import Verif.Spec.WellFormed
import Verif.Spec.Work
import Verif.Proofs.Access
import Verif.Proofs.Alike
import Verif.Proofs.AsMemory
import Verif.Proofs.Blocks
import Verif.Proofs.Category
import Verif.Proofs.Convert
import Verif.Proofs.ConvertWork
import Verif.Proofs.Copying
import Verif.Proofs.Cost
import Verif.Proofs.Dialects
import Verif.Proofs.Distinct
import Verif.Proofs.Dump
import Verif.Proofs.Effort
import Verif.Proofs.EffortLeast
import Verif.Proofs.Enum
import Verif.Proofs.EnumName
import Verif.Proofs.Equal
import Verif.Proofs.Escape
import Verif.Proofs.FloatRound
import Verif.Proofs.FloatText
import Verif.Proofs.FloatTrip
import Verif.Proofs.HeapApart
import Verif.Proofs.HeapFocus
import Verif.Proofs.HeapHollow
import Verif.Proofs.HeapMerge
import Verif.Proofs.HeapMove
import Verif.Proofs.HeapOps
import Verif.Proofs.HeapProgram
import Verif.Proofs.HeapRace
import Verif.Proofs.HeapRep
import Verif.Proofs.HeapRun
import Verif.Proofs.HeapShift
import Verif.Proofs.HeapSim
import Verif.Proofs.HeapStep
import Verif.Proofs.HeapStore
import Verif.Proofs.HeapTagged
import Verif.Proofs.HeapTotal
import Verif.Proofs.Integer
import Verif.Proofs.Join
import Verif.Proofs.Keep
import Verif.Proofs.Layout
import Verif.Proofs.Literal
import Verif.Proofs.Located
import Verif.Proofs.Macro
import Verif.Proofs.Map
import Verif.Proofs.MapOps
import Verif.Proofs.Message
import Verif.Proofs.Num
import Verif.Proofs.Padding
import Verif.Proofs.ParseComplete
import Verif.Proofs.ParseHeap
import Verif.Proofs.ParseSound
import Verif.Proofs.Parts
import Verif.Proofs.Pour
import Verif.Proofs.PourCost
import Verif.Proofs.Reference
import Verif.Proofs.Retry
import Verif.Proofs.RoundTrip
import Verif.Proofs.Schedule
import Verif.Proofs.Shortest
import Verif.Proofs.Simd
import Verif.Proofs.Splice
import Verif.Proofs.Stays
import Verif.Proofs.Steady
import Verif.Proofs.SteadyFloat
import Verif.Proofs.Storage
import Verif.Proofs.StoreMemory
import Verif.Proofs.StoreWork
import Verif.Proofs.Str
import Verif.Proofs.Struct
import Verif.Proofs.Swar
import Verif.Proofs.Take
import Verif.Proofs.TakeMemory
import Verif.Proofs.TakeText
import Verif.Proofs.TakeWork
import Verif.Proofs.Typed
import Verif.Proofs.Unique
import Verif.Proofs.Utf8
import Verif.Proofs.Utf8Text
import Verif.Proofs.Values
import Verif.Proofs.View
import Verif.Proofs.Wide
import Verif.Proofs.Work
import Verif.Proofs.Ws
import Verif.Props.Access
import Verif.Props.Alike
import Verif.Props.Arrive
import Verif.Props.AsMemory
import Verif.Props.Bits
import Verif.Props.Blocks
import Verif.Props.Classify
import Verif.Props.Construct
import Verif.Props.Containers
import Verif.Props.Convert
import Verif.Props.ConvertWork
import Verif.Props.Copying
import Verif.Props.Direct
import Verif.Props.Dispatch
import Verif.Props.Edit
import Verif.Props.Effort
import Verif.Props.Entry
import Verif.Props.EnumName
import Verif.Props.Envelope
import Verif.Props.Equal
import Verif.Props.Exact
import Verif.Props.Float
import Verif.Props.GetText
import Verif.Props.Handle
import Verif.Props.Heap
import Verif.Props.Integers
import Verif.Props.Invalid
import Verif.Props.Iterate
import Verif.Props.Join
import Verif.Props.Keys
import Verif.Props.Layout
import Verif.Props.Lines
import Verif.Props.Literal
import Verif.Props.Macro
import Verif.Props.Memory
import Verif.Props.Message
import Verif.Props.Misfit
import Verif.Props.Mutate
import Verif.Props.Noexcept
import Verif.Props.Ostream
import Verif.Props.Overwrite
import Verif.Props.Parse
import Verif.Props.ParseHeap
import Verif.Props.Parts
import Verif.Props.Paste
import Verif.Props.Pour
import Verif.Props.Readme
import Verif.Props.Reference
import Verif.Props.Report
import Verif.Props.Retry
import Verif.Props.Safety
import Verif.Props.Samples
import Verif.Props.Schedule
import Verif.Props.Select
import Verif.Props.Serialize
import Verif.Props.Shortest
import Verif.Props.Splice
import Verif.Props.Steady
import Verif.Props.Storage
import Verif.Props.StoreMemory
import Verif.Props.StoreWork
import Verif.Props.Strings
import Verif.Props.Swap
import Verif.Props.Take
import Verif.Props.TakeMemory
import Verif.Props.TakeText
import Verif.Props.TakeWork
import Verif.Props.Target
import Verif.Props.Temporary
import Verif.Props.Typed
import Verif.Props.Utf8Text
import Verif.Props.View
import Verif.Props.Wide
import Verif.Props.Work
import Verif.Tests.Basic
import Verif.Tests.Classify
import Verif.Tests.Containers
import Verif.Tests.Dispatch
import Verif.Tests.Keys
import Verif.Tests.Parse
import Verif.Tests.Serializing
import Verif.Tests.Value
