import Verif.Axioms
import Verif.Examples.AddLines
import Verif.Examples.Blocks
import Verif.Examples.Brackets
import Verif.Examples.Breaks
import Verif.Examples.Building
import Verif.Examples.EditFolded
import Verif.Examples.FileBlocks
import Verif.Examples.FileGetters
import Verif.Examples.Folding
import Verif.Examples.Grep
import Verif.Examples.Lossy
import Verif.Examples.Merge
import Verif.Examples.Octets
import Verif.Examples.Passing
import Verif.Examples.Reading
import Verif.Examples.Recombine
import Verif.Examples.Redact
import Verif.Examples.Rename
import Verif.Examples.ReplaceLines
import Verif.Examples.Replaced
import Verif.Examples.Retitle
import Verif.Examples.Samples
import Verif.Examples.Search
import Verif.Examples.StripBlocks
import Verif.Examples.Stripped
import Verif.Examples.TakeOut
import Verif.Examples.ThreeWay
import Verif.Examples.Writing
import Verif.Model.Alarm
import Verif.Model.Basic
import Verif.Model.Calendar
import Verif.Model.Chrono
import Verif.Model.Component
import Verif.Model.DateTime
import Verif.Model.Errors
import Verif.Model.Fold
import Verif.Model.FoldWork
import Verif.Model.Json
import Verif.Model.JsonText
import Verif.Model.Map
import Verif.Model.Nom
import Verif.Model.Num
import Verif.Model.Parameter
import Verif.Model.Parser
import Verif.Model.Print
import Verif.Model.Property
import Verif.Model.SimpleErrors
import Verif.Model.Sink
import Verif.Model.Text
import Verif.Model.Work
import Verif.Model.WriteWork
import Verif.Proofs.Acceptance
import Verif.Proofs.Aligned
import Verif.Proofs.Bare
import Verif.Proofs.BareRead
import Verif.Proofs.Bytes
import Verif.Proofs.CalendarIO
import Verif.Proofs.ComponentIO
import Verif.Proofs.Dates
import Verif.Proofs.Digits
import Verif.Proofs.Errors
import Verif.Proofs.Escape
import Verif.Proofs.Fold
import Verif.Proofs.FoldFinish
import Verif.Proofs.JsonText
import Verif.Proofs.Kept
import Verif.Proofs.Map
import Verif.Proofs.Nom
import Verif.Proofs.ParseDoc
import Verif.Proofs.ParseNames
import Verif.Proofs.ParseOpen
import Verif.Proofs.ParsePrefix
import Verif.Proofs.Parser
import Verif.Proofs.PropertyIO
import Verif.Proofs.Realigned
import Verif.Proofs.Restamped
import Verif.Proofs.Shrunk
import Verif.Proofs.SimpleErrors
import Verif.Proofs.Strict
import Verif.Proofs.Unfold
import Verif.Proofs.UnfoldDoc
import Verif.Proofs.Utf8
import Verif.Proofs.ValueTypes
import Verif.Proofs.Work
import Verif.Proofs.WorkBound
import Verif.Proofs.WorkDepth
import Verif.Proofs.WorkGeneral
import Verif.Proofs.WorkLinear
import Verif.Proofs.WorkLoop
import Verif.Proofs.WorkLower
import Verif.Proofs.Writers
import Verif.Props.Acceptance
import Verif.Props.AddLines
import Verif.Props.Alarms
import Verif.Props.Alone
import Verif.Props.Around
import Verif.Props.Blocks
import Verif.Props.Brackets
import Verif.Props.Breaks
import Verif.Props.Builders
import Verif.Props.Built
import Verif.Props.Calendars
import Verif.Props.CallOrder
import Verif.Props.Clean
import Verif.Props.ContentLine
import Verif.Props.Corners
import Verif.Props.CutFile
import Verif.Props.DateOrder
import Verif.Props.DateReaders
import Verif.Props.DateText
import Verif.Props.Dates
import Verif.Props.Durations
import Verif.Props.EditFolded
import Verif.Props.Edits
import Verif.Props.Errors
import Verif.Props.Escaping
import Verif.Props.FileAlarms
import Verif.Props.FileBlocks
import Verif.Props.FileGetters
import Verif.Props.Finishes
import Verif.Props.FoldExact
import Verif.Props.FoldFill
import Verif.Props.FoldWork
import Verif.Props.Folding
import Verif.Props.Foreign
import Verif.Props.Getters
import Verif.Props.Grammar
import Verif.Props.Grep
import Verif.Props.Injection
import Verif.Props.InjectionExact
import Verif.Props.Injective
import Verif.Props.Json
import Verif.Props.JsonText
import Verif.Props.Kinds
import Verif.Props.Layout
import Verif.Props.LineAlone
import Verif.Props.LineEdits
import Verif.Props.LineOrder
import Verif.Props.Lists
import Verif.Props.Locality
import Verif.Props.LooseDates
import Verif.Props.Lossy
import Verif.Props.MeasuredParts
import Verif.Props.Merge
import Verif.Props.MessageSize
import Verif.Props.Mixed
import Verif.Props.MixedExact
import Verif.Props.NameCase
import Verif.Props.Names
import Verif.Props.Nesting
import Verif.Props.NotUnfolded
import Verif.Props.NthWork
import Verif.Props.Numerals
import Verif.Props.Occurs
import Verif.Props.Octets
import Verif.Props.Order
import Verif.Props.OwnLine
import Verif.Props.OwnText
import Verif.Props.ParamLists
import Verif.Props.Parameter
import Verif.Props.Params
import Verif.Props.Parsing
import Verif.Props.Passing
import Verif.Props.Presentation
import Verif.Props.Print
import Verif.Props.PropertyRoundtrip
import Verif.Props.Recombine
import Verif.Props.Redact
import Verif.Props.Rename
import Verif.Props.ReplaceLines
import Verif.Props.Replaced
import Verif.Props.Report
import Verif.Props.Reprint
import Verif.Props.ReprintAll
import Verif.Props.ReprintExact
import Verif.Props.Reproducible
import Verif.Props.Reread
import Verif.Props.Retitle
import Verif.Props.Rewrite
import Verif.Props.RewriteExact
import Verif.Props.Rfc
import Verif.Props.Roundtrip
import Verif.Props.SameBut
import Verif.Props.SayCalls
import Verif.Props.Search
import Verif.Props.SimpleErrors
import Verif.Props.Sizes
import Verif.Props.Spans
import Verif.Props.Stamps
import Verif.Props.Streams
import Verif.Props.Strict
import Verif.Props.StrictDocs
import Verif.Props.StripBlocks
import Verif.Props.Stripped
import Verif.Props.Survives
import Verif.Props.TakeOut
import Verif.Props.ThreeWay
import Verif.Props.TriggerTexts
import Verif.Props.Triggers
import Verif.Props.Truncated
import Verif.Props.Uids
import Verif.Props.UnfoldTwice
import Verif.Props.Unique
import Verif.Props.ValueCase
import Verif.Props.Values
import Verif.Props.Venues
import Verif.Props.Work
import Verif.Props.WriteSizes
import Verif.Props.WriteWork
import Verif.Props.Writers
import Verif.Props.Writes
import Verif.Props.Written
import Verif.Props.ZoneRefs
import Verif.Props.Zones
import Verif.Sanity.Fixtures
import Verif.Sanity.Libraries
import Verif.Sanity.UnitTests
import Verif.Spec.Acceptance
import Verif.Spec.AddLines
import Verif.Spec.Alone
import Verif.Spec.Blocks
import Verif.Spec.Brackets
import Verif.Spec.Breaks
import Verif.Spec.Calls
import Verif.Spec.Clean
import Verif.Spec.ContentLine
import Verif.Spec.Cuts
import Verif.Spec.DateOrder
import Verif.Spec.DateReaders
import Verif.Spec.DateText
import Verif.Spec.Document
import Verif.Spec.Durations
import Verif.Spec.EditFolded
import Verif.Spec.EnumTexts
import Verif.Spec.Errors
import Verif.Spec.FileAlarms
import Verif.Spec.FileBlocks
import Verif.Spec.FileGetters
import Verif.Spec.FoldExact
import Verif.Spec.Foreign
import Verif.Spec.Grammar
import Verif.Spec.Grep
import Verif.Spec.Injected
import Verif.Spec.Json
import Verif.Spec.JsonText
import Verif.Spec.Layout
import Verif.Spec.LineAlone
import Verif.Spec.LineEdits
import Verif.Spec.LineOrder
import Verif.Spec.Lines
import Verif.Spec.Lists
import Verif.Spec.Locality
import Verif.Spec.LooseDates
import Verif.Spec.Lossy
import Verif.Spec.Merge
import Verif.Spec.Mixed
import Verif.Spec.NameCase
import Verif.Spec.NthWork
import Verif.Spec.Numerals
import Verif.Spec.Occurs
import Verif.Spec.Octets
import Verif.Spec.OwnLine
import Verif.Spec.ParamLists
import Verif.Spec.Passing
import Verif.Spec.Recombine
import Verif.Spec.Redact
import Verif.Spec.Refold
import Verif.Spec.Rename
import Verif.Spec.ReplaceLines
import Verif.Spec.Replaced
import Verif.Spec.Report
import Verif.Spec.Reprint
import Verif.Spec.Reprinted
import Verif.Spec.Reread
import Verif.Spec.Retitle
import Verif.Spec.Rewritten
import Verif.Spec.Rfc
import Verif.Spec.SameBut
import Verif.Spec.SayCalls
import Verif.Spec.Search
import Verif.Spec.Sizes
import Verif.Spec.Spans
import Verif.Spec.Strict
import Verif.Spec.StrictDocs
import Verif.Spec.StripBlocks
import Verif.Spec.Stripped
import Verif.Spec.Structure
import Verif.Spec.TakeOut
import Verif.Spec.Text
import Verif.Spec.ThreeWay
import Verif.Spec.Tidy
import Verif.Spec.Told
import Verif.Spec.Truncated
import Verif.Spec.Uids
import Verif.Spec.Venues
import Verif.Spec.WellFormed
import Verif.Spec.Work
import Verif.Spec.Writable
import Verif.Spec.WriteSizes
import Verif.Spec.Writers
import Verif.Spec.Written
import Verif.Spec.ZoneRefs
