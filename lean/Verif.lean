import Verif.Check.Parses
import Verif.Check.Setup
import Verif.Check.Units
import Verif.Lemmas.Access
import Verif.Lemmas.Advice
import Verif.Lemmas.Agree
import Verif.Lemmas.ArrayFlags
import Verif.Lemmas.Arrays
import Verif.Lemmas.Between
import Verif.Lemmas.Blame
import Verif.Lemmas.BlameCheck
import Verif.Lemmas.BlameEnv
import Verif.Lemmas.BlameRun
import Verif.Lemmas.Bounds
import Verif.Lemmas.Buffer
import Verif.Lemmas.Calls
import Verif.Lemmas.Codes
import Verif.Lemmas.Collected
import Verif.Lemmas.CommandList
import Verif.Lemmas.Commands
import Verif.Lemmas.Compare
import Verif.Lemmas.Complaints
import Verif.Lemmas.ComplaintsEntry
import Verif.Lemmas.ComplaintsRun
import Verif.Lemmas.Context
import Verif.Lemmas.Ctype
import Verif.Lemmas.Declare
import Verif.Lemmas.Depth
import Verif.Lemmas.DescMem
import Verif.Lemmas.DescMemPrint
import Verif.Lemmas.DescMemRun
import Verif.Lemmas.DescMemText
import Verif.Lemmas.Dub
import Verif.Lemmas.Elsewhere
import Verif.Lemmas.Env
import Verif.Lemmas.EnvLine
import Verif.Lemmas.Final
import Verif.Lemmas.FirstFault
import Verif.Lemmas.FirstFaultLevel
import Verif.Lemmas.FirstFaultRun
import Verif.Lemmas.Floats
import Verif.Lemmas.Frame
import Verif.Lemmas.FrameApi
import Verif.Lemmas.Free
import Verif.Lemmas.Gives
import Verif.Lemmas.HandlerMeta
import Verif.Lemmas.HandlerSet
import Verif.Lemmas.Heap
import Verif.Lemmas.HeapEnd
import Verif.Lemmas.HeapFlags
import Verif.Lemmas.HeapKept
import Verif.Lemmas.HeapKeys
import Verif.Lemmas.HeapLife
import Verif.Lemmas.HeapOom
import Verif.Lemmas.HeapParse
import Verif.Lemmas.HeapProgram
import Verif.Lemmas.HeapRelease
import Verif.Lemmas.HeapRun
import Verif.Lemmas.HeapShare
import Verif.Lemmas.HeapShort
import Verif.Lemmas.Help
import Verif.Lemmas.HelpMem
import Verif.Lemmas.HelpMemAdd
import Verif.Lemmas.HelpMemRep
import Verif.Lemmas.HelpMemRun
import Verif.Lemmas.HelpNames
import Verif.Lemmas.History
import Verif.Lemmas.Ipv6
import Verif.Lemmas.IsSet
import Verif.Lemmas.Keys
import Verif.Lemmas.MapFlags
import Verif.Lemmas.MapHistory
import Verif.Lemmas.Maps
import Verif.Lemmas.Marked
import Verif.Lemmas.Meaning
import Verif.Lemmas.Messages
import Verif.Lemmas.MessagesRun
import Verif.Lemmas.Numbers
import Verif.Lemmas.Order
import Verif.Lemmas.Outcome
import Verif.Lemmas.Patterns
import Verif.Lemmas.PatternsFixed
import Verif.Lemmas.PatternsIpv6
import Verif.Lemmas.PatternsLook
import Verif.Lemmas.PatternsNet
import Verif.Lemmas.PatternsParts
import Verif.Lemmas.Portable
import Verif.Lemmas.Positional
import Verif.Lemmas.Prefix
import Verif.Lemmas.Quiet
import Verif.Lemmas.Ranges
import Verif.Lemmas.ReadBack
import Verif.Lemmas.Readable
import Verif.Lemmas.Regex
import Verif.Lemmas.Relax
import Verif.Lemmas.Released
import Verif.Lemmas.Rename
import Verif.Lemmas.Reorder
import Verif.Lemmas.Reword
import Verif.Lemmas.RewordMessages
import Verif.Lemmas.Safe
import Verif.Lemmas.SafeAccess
import Verif.Lemmas.SafeRun
import Verif.Lemmas.SameText
import Verif.Lemmas.Scalar
import Verif.Lemmas.Shown
import Verif.Lemmas.Size
import Verif.Lemmas.SizeRoom
import Verif.Lemmas.Slots
import Verif.Lemmas.Spelling
import Verif.Lemmas.Split
import Verif.Lemmas.State
import Verif.Lemmas.Statics
import Verif.Lemmas.Stdout
import Verif.Lemmas.Stream
import Verif.Lemmas.Strings
import Verif.Lemmas.Structure
import Verif.Lemmas.Subprogram
import Verif.Lemmas.Swap
import Verif.Lemmas.Syntax
import Verif.Lemmas.Unread
import Verif.Lemmas.Unset
import Verif.Lemmas.Validate
import Verif.Lemmas.Wear
import Verif.Lemmas.Wrap
import Verif.Model.Access
import Verif.Model.Argv
import Verif.Model.Buffer
import Verif.Model.Bytes
import Verif.Model.Collections
import Verif.Model.Complaints
import Verif.Model.Context
import Verif.Model.Ctype
import Verif.Model.Defaults
import Verif.Model.Define
import Verif.Model.DescMem
import Verif.Model.Display
import Verif.Model.Float
import Verif.Model.Handlers
import Verif.Model.Heap
import Verif.Model.HeapParse
import Verif.Model.HelpMem
import Verif.Model.Lookup
import Verif.Model.Messages
import Verif.Model.Parse
import Verif.Model.Regex
import Verif.Model.Statics
import Verif.Model.Stdout
import Verif.Model.Stream
import Verif.Model.Structure
import Verif.Model.Types
import Verif.Model.Validators
import Verif.Model.Values
import Verif.Model.Walk
import Verif.Model.WalkDefine
import Verif.Model.WalkDepend
import Verif.Model.WalkType
import Verif.Model.WalkWrite
import Verif.Props.Access
import Verif.Props.Advice
import Verif.Props.Argv
import Verif.Props.Arrays
import Verif.Props.Bounds
import Verif.Props.Buffer
import Verif.Props.Calls
import Verif.Props.Choices
import Verif.Props.Columns
import Verif.Props.CommaLines
import Verif.Props.CommandList
import Verif.Props.Commands
import Verif.Props.Complaints
import Verif.Props.Context
import Verif.Props.Ctype
import Verif.Props.Declare
import Verif.Props.Defaults
import Verif.Props.DescMem
import Verif.Props.Describe
import Verif.Props.DescribeCut
import Verif.Props.Elsewhere
import Verif.Props.Env
import Verif.Props.EnvLine
import Verif.Props.Errors
import Verif.Props.Exit
import Verif.Props.Explicit
import Verif.Props.Final
import Verif.Props.FirstFault
import Verif.Props.Heap
import Verif.Props.HeapParse
import Verif.Props.HeapShort
import Verif.Props.Help
import Verif.Props.HelpEnv
import Verif.Props.HelpMem
import Verif.Props.HelpNames
import Verif.Props.HelpValues
import Verif.Props.HelpValuesPos
import Verif.Props.IntMax
import Verif.Props.Ipv6
import Verif.Props.IsSet
import Verif.Props.LeaveOut
import Verif.Props.Listed
import Verif.Props.Maps
import Verif.Props.Messages
import Verif.Props.Order
import Verif.Props.Outcome
import Verif.Props.Patterns
import Verif.Props.Portable
import Verif.Props.Positional
import Verif.Props.Ranges
import Verif.Props.ReadBack
import Verif.Props.Reading
import Verif.Props.Relax
import Verif.Props.Rename
import Verif.Props.Reorder
import Verif.Props.Reword
import Verif.Props.RoundTrip
import Verif.Props.Safe
import Verif.Props.SameText
import Verif.Props.Shown
import Verif.Props.Size
import Verif.Props.Spelling
import Verif.Props.Statics
import Verif.Props.Stdout
import Verif.Props.Stream
import Verif.Props.Structure
import Verif.Props.Subprogram
import Verif.Props.Syntax
import Verif.Props.Takes
import Verif.Props.TwoNames
import Verif.Props.Unread
import Verif.Props.Unset
import Verif.Props.Validation
import Verif.Props.ValueUtils
import Verif.Props.Values
import Verif.Props.Walk
import Verif.Props.WalkChecks
import Verif.Props.WalkDefine
import Verif.Props.WalkDepend
import Verif.Props.WalkType
import Verif.Props.WalkWrite
import Verif.Props.Wrap
import Verif.Spec.Access
import Verif.Spec.Advice
import Verif.Spec.Blame
import Verif.Spec.Buffer
import Verif.Spec.Calls
import Verif.Spec.Collect
import Verif.Spec.CommandList
import Verif.Spec.Complaints
import Verif.Spec.Constraints
import Verif.Spec.Context
import Verif.Spec.Ctype
import Verif.Spec.Declare
import Verif.Spec.Depth
import Verif.Spec.DescMem
import Verif.Spec.Describe
import Verif.Spec.Elsewhere
import Verif.Spec.EnvLine
import Verif.Spec.EnvName
import Verif.Spec.Explicit
import Verif.Spec.Fields
import Verif.Spec.Final
import Verif.Spec.FirstFault
import Verif.Spec.Heap
import Verif.Spec.HeapParse
import Verif.Spec.HeapShort
import Verif.Spec.Help
import Verif.Spec.HelpMem
import Verif.Spec.History
import Verif.Spec.Ipv6
import Verif.Spec.Maps
import Verif.Spec.Meaning
import Verif.Spec.Messages
import Verif.Spec.Numeral
import Verif.Spec.Outcome
import Verif.Spec.Patterns
import Verif.Spec.Portable
import Verif.Spec.Prefix
import Verif.Spec.Ranges
import Verif.Spec.ReadBack
import Verif.Spec.Readable
import Verif.Spec.Relax
import Verif.Spec.Rename
import Verif.Spec.Reorder
import Verif.Spec.Reword
import Verif.Spec.RoundTrip
import Verif.Spec.Safe
import Verif.Spec.SameText
import Verif.Spec.Sample
import Verif.Spec.Scalar
import Verif.Spec.Size
import Verif.Spec.Spelling
import Verif.Spec.Statics
import Verif.Spec.Stream
import Verif.Spec.Structure
import Verif.Spec.Subprogram
import Verif.Spec.Unread
import Verif.Spec.Unset
import Verif.Spec.Wrap
