import Verif.Base.Outcome
import Verif.Spec.Unicode
import Verif.Spec.Numeral
import Verif.Model.Unicode
import Verif.Proofs.UnicodeBits
import Verif.Proofs.UnicodeSteps
import Verif.Proofs.UnicodeLoops
import Verif.Proofs.UnicodeMalformed
import Verif.Proofs.UnicodeText
import Verif.Props.Unicode
import Verif.Base.CInt
import Verif.Model.Number
import Verif.Proofs.NumberArith
import Verif.Proofs.NumberParse
import Verif.Proofs.NumberParseValue
import Verif.Proofs.NumberFormat
import Verif.Proofs.NumberReject
import Verif.Props.Number
import Verif.Spec.Real
import Verif.Model.Float
import Verif.Proofs.FloatArith
import Verif.Proofs.FloatFormat
import Verif.Proofs.FloatParse
import Verif.Props.Float
import Verif.Base.History
import Verif.Spec.ByteArray
import Verif.Model.Buffer
import Verif.Model.Container
import Verif.Proofs.Buffer
import Verif.Proofs.Output
import Verif.Proofs.Store
import Verif.Proofs.Container
import Verif.Props.Transfer
import Verif.Model.Stdio
import Verif.Proofs.Stdio
import Verif.Proofs.Tied
import Verif.Props.Stdio
import Verif.Model.File
import Verif.Proofs.File
import Verif.Proofs.FileObj
import Verif.Props.File
import Verif.Props.Position
import Verif.Model.Handle
import Verif.Props.Handle
import Verif.Spec.Wire
import Verif.Spec.Resource
import Verif.Model.Resource
import Verif.Model.Stream
import Verif.Model.Text
import Verif.Proofs.Resource
import Verif.Proofs.Stream
import Verif.Proofs.TextRead
import Verif.Proofs.TextLines
import Verif.Proofs.TextWrite
import Verif.Proofs.TextBom
import Verif.Props.Stream
import Verif.Props.Text
import Verif.Props.TextValues
import Verif.Model.Opaque
import Verif.Proofs.Untouched
import Verif.Props.Opaque
import Verif.Spec.TestRun
import Verif.Model.TestModule
import Verif.Proofs.TestModule
import Verif.Props.TestModule
import Verif.Model.Key
import Verif.Model.Application
import Verif.Spec.Gui
import Verif.Model.Gui
import Verif.Proofs.Gui
import Verif.Props.Key
import Verif.Props.Application
import Verif.Props.Gui
import Verif.Spec.Decimal
import Verif.Props.TextOutput
import Verif.Props.TextReal
import Verif.Props.Console
import Verif.Model.Iterator
import Verif.Props.Iterator
import Verif.Model.IoStream
import Verif.Spec.Record
import Verif.Proofs.IoStream
import Verif.Props.IoStream
import Verif.Props.TextIo
import Verif.Props.Seek
import Verif.Spec.Desk
import Verif.Model.Desk
import Verif.Proofs.Desk
import Verif.Props.Desk
import Verif.Spec.Loop
import Verif.Model.Loop
import Verif.Proofs.Loop
import Verif.Props.Loop
import Verif.Props.Examiners
import Verif.Proofs.Whole
import Verif.Proofs.FileLife
import Verif.Props.FileLife
import Verif.Proofs.NoFile
import Verif.Props.StdCounts
import Verif.Props.OneWay
import Verif.Props.Copy
import Verif.Model.Shared
import Verif.Spec.Shared
import Verif.Props.Shared
import Verif.Spec.Dummy
import Verif.Model.Dummy
import Verif.Props.Dummy
import Verif.Spec.Nearest
import Verif.Proofs.FloatNear
import Verif.Props.FloatNear
import Verif.Props.FloatExact
import Verif.Props.FloatTrip
import Verif.Proofs.NumberShort
import Verif.Props.FloatReject
import Verif.Props.UnicodeExact
import Verif.Props.TextExact
import Verif.Model.Views
import Verif.Props.Views
import Verif.Props.TextChars
import Verif.Model.Trio
import Verif.Props.Trio
import Verif.Model.Statics
import Verif.Props.Statics
import Verif.Props.NumberExact
import Verif.Spec.Pages
import Verif.Proofs.Pages
import Verif.Props.Pages
import Verif.Spec.Loose
import Verif.Proofs.UnicodeLoose
import Verif.Props.UnicodeLoose
import Verif.Spec.Lax
import Verif.Proofs.NumberLax
import Verif.Props.NumberLax
import Verif.Spec.Returns
import Verif.Props.TextLimits
import Verif.Props.PrintExact
import Verif.Props.StdioExact
import Verif.Spec.Turn
import Verif.Proofs.Turn
import Verif.Props.SeekExact
import Verif.Proofs.Batches
import Verif.Props.WriteExact
import Verif.Props.NoFileExact
import Verif.Props.PadExact
import Verif.Props.SeekFile
import Verif.Props.LargeTransfers
import Verif.Spec.Point
import Verif.Props.FloatLanguage
import Verif.Spec.TestCourse
import Verif.Props.TestCourse
import Verif.Props.Reopen
import Verif.Props.HandleExact
import Verif.Props.OpaqueExact
import Verif.Props.Mixed
import Verif.Props.EndTest
import Verif.Props.FloatBack
import Verif.Props.FloatEnds
import Verif.Props.TrioExact
import Verif.Props.CopyExact
import Verif.Props.DeskExact
import Verif.Props.ViewsExact
import Verif.Props.IoStreamExact
import Verif.Props.GuiExact
import Verif.Props.LoopExact
import Verif.Props.OneWayExact
import Verif.Spec.Recover
import Verif.Model.Target
import Verif.Proofs.Recover
import Verif.Proofs.Target
import Verif.Proofs.RecoverText
import Verif.Props.Target
import Verif.Props.Recover
import Verif.Spec.Board
import Verif.Model.Common
import Verif.Proofs.Common
import Verif.Proofs.Log
import Verif.Props.Common
import Verif.Model.Faces
import Verif.Props.Faces
import Verif.Model.Compare
import Verif.Props.Compare
import Verif.Model.Locale
import Verif.Props.Locale
import Verif.Model.Memory
import Verif.Proofs.Memory
import Verif.Props.Memory
import Verif.Spec.Journal
import Verif.Spec.FileBoard
import Verif.Model.Disk
import Verif.Proofs.Journal
import Verif.Proofs.FileBoard
import Verif.Props.Journal
import Verif.Spec.Tail
import Verif.Proofs.Tail
import Verif.Props.Tail
import Verif.Model.Overflow
import Verif.Spec.Overflow
import Verif.Proofs.Overflow
import Verif.Props.Overflow
import Verif.Spec.ShortReads
import Verif.Proofs.ShortReads
import Verif.Props.ShortReads
import Verif.Model.StdioExample
import Verif.Spec.StdioExample
import Verif.Proofs.StdioExample
import Verif.Props.StdioExample
import Verif.Model.GuiExample
import Verif.Spec.GuiExample
import Verif.Proofs.GuiExample
import Verif.Props.GuiExample
import Verif.Spec.TiesToEven
import Verif.Proofs.TiesToEven
import Verif.Checks.Literal
import Verif.Checks.Unicode
import Verif.Checks.Numbers
import Verif.Checks.Containers
import Verif.Checks.Files
import Verif.Proofs.Ieee
import Verif.Props.Ieee
import Verif.Model.UioTest
import Verif.Spec.UioTest
import Verif.Proofs.UioTest
import Verif.Props.UioTest
import Verif.Model.Preprocessor
import Verif.Spec.Preprocessor
import Verif.Proofs.Preprocessor
import Verif.Proofs.PreprocessorUnits
import Verif.Proofs.PreprocessorUio
import Verif.Proofs.PreprocessorLibrary
import Verif.Proofs.PreprocessorDefinitions
import Verif.Proofs.PreprocessorErrors
import Verif.Props.Preprocessor
import Verif.Model.Cmake
import Verif.Spec.Cmake
import Verif.Proofs.Cmake
import Verif.Proofs.CmakeProject
import Verif.Proofs.CmakeMacros
import Verif.Proofs.CmakeTargets
import Verif.Props.Cmake
import Verif.Props.FloatRefusals
import Verif.Model.Exports
import Verif.Spec.Exports
import Verif.Proofs.Exports
import Verif.Props.Exports
import Verif.Model.TypeTraits
import Verif.Spec.TypeTraits
import Verif.Proofs.TypeTraits
import Verif.Props.TypeTraits
import Verif.Checks.TypeTraits
import Verif.Model.TextCalls
import Verif.Spec.TextCalls
import Verif.Proofs.TextCalls
import Verif.Props.TextCalls
import Verif.Model.NumberBool
import Verif.Proofs.NumberBool
import Verif.Props.NumberBool
import Verif.Model.Exceptions
import Verif.Props.Exceptions
import Verif.Model.MemoryIo
import Verif.Proofs.MemoryIo
import Verif.Props.MemoryIo
import Verif.Proofs.MemoryText
import Verif.Props.MemoryText
import Verif.Model.MemoryTarget
import Verif.Proofs.MemoryTarget
import Verif.Props.MemoryTarget
import Verif.Model.Quills
import Verif.Model.QuillCopies
import Verif.Props.Quills
import Verif.Props.QuillCopies
import Verif.Model.MemoryValues
import Verif.Props.MemoryValues
import Verif.Props.MemoryData
import Verif.Props.FloatSeparators
import Verif.Props.FloatPlaces
