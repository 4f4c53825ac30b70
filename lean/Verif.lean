import Verif.Model.Parser
import Verif.Model.Check
import Verif.Model.Compile
import Verif.Props.Parser
import Verif.Props.Check
import Verif.Props.Wire
import Verif.Props.Gen
import Verif.Model.Cli
import Verif.Props.Cli
import Verif.Props.Errors
import Verif.Props.Messages
import Verif.Props.Text
import Verif.Props.Interop
import Verif.Props.Evolution
import Verif.Props.Types
import Verif.Props.RoundTrip
import Verif.Props.Events
import Verif.Props.Blame
import Verif.Props.Unused
import Verif.Props.Accept
import Verif.Props.Nested
import Verif.Props.Size
import Verif.Props.Names
import Verif.Props.Work
import Verif.Props.Fuzz
import Verif.Spec.Possible
import Verif.Proof.CheckPossible
import Verif.Proof.CheckPossibleAll
import Verif.Props.Possible
import Verif.Proof.JsEnums
import Verif.Proof.JsSame
import Verif.Props.Exact
import Verif.Spec.Sized
import Verif.Proof.Sized
import Verif.Props.Stream
import Verif.Spec.LineEnds
import Verif.Proof.LineEnds
import Verif.Spec.Chars
import Verif.Proof.Chars
import Verif.Props.LineEnds
import Verif.Proof.Outgrow
import Verif.Props.Outgrow
import Verif.Spec.Compat
import Verif.Proof.Compat
import Verif.Props.Compat
import Verif.Spec.Flags
import Verif.Proof.Flags
import Verif.Props.Flags
import Verif.Spec.Calls
import Verif.Proof.Calls
import Verif.Props.Calls
import Verif.Spec.Truncate
import Verif.Proof.Truncate
import Verif.Props.Truncate
import Verif.Props.Always
import Verif.Model.Rust
import Verif.Model.RustTests
import Verif.Rust.Syntax
import Verif.Rust.Program
import Verif.Rust.Sem
import Verif.Rust.Steps
import Verif.Rust.Left
import Verif.Spec.RustLeft
import Verif.Rust.Lexer
import Verif.Rust.Parse
import Verif.Rust.File
import Verif.Rust.Check
import Verif.Spec.Rust
import Verif.Proof.RustPrint
import Verif.Proof.RustBase
import Verif.Proof.RustWrite
import Verif.Proof.RustRead
import Verif.Proof.RustFits
import Verif.Proof.RustHas
import Verif.Proof.RustTop
import Verif.Proof.RustExact
import Verif.Proof.RustLex
import Verif.Proof.RustParse
import Verif.Proof.RustFile
import Verif.Proof.RustGood
import Verif.Props.Rust
import Verif.Spec.Bridge
import Verif.Proof.Bridge
import Verif.Props.Bridge
import Verif.Proof.RustCheck
import Verif.Proof.RustAccept
import Verif.Props.RustCheck
import Verif.Props.RustRight
import Verif.Proof.RustSteps
import Verif.Proof.RustWork
import Verif.Props.RustWork
import Verif.Proof.RustLeft
import Verif.Props.RustLeft
import Verif.Props.CliOut
import Verif.Spec.Shrink
import Verif.Proof.Shrink
import Verif.Props.Shrink
import Verif.Spec.Inverse
import Verif.Proof.Inverse
import Verif.Props.Inverse
import Verif.Spec.RustEvolution
import Verif.Proof.RustEvolution
import Verif.Props.RustEvolution
import Verif.Spec.RustRelay
import Verif.Proof.RustRelay
import Verif.Props.RustRelay
import Verif.Spec.RustCompat
import Verif.Proof.RustCompat
import Verif.Props.RustCompat
import Verif.Model.Folders
import Verif.Spec.Folders
import Verif.Proof.Folders
import Verif.Proof.FolderRun
import Verif.Proof.FolderTree
import Verif.Props.Folders
import Verif.Props.Parallel
import Verif.Props.RustStream
import Verif.Props.FolderFail
import Verif.Props.EndToEnd
import Verif.Proof.RustSized
import Verif.Props.RustSized
import Verif.Js.Construct
import Verif.Spec.Construct
import Verif.Proof.Construct
import Verif.Props.Construct
import Verif.Spec.Declared
import Verif.Proof.Declared
import Verif.Props.Declared
import Verif.Spec.Conform
import Verif.Proof.Conform
import Verif.Props.Conform
import Verif.Model.Tests
import Verif.Spec.Mixed
import Verif.Proof.Mixed
import Verif.Props.Mixed
import Verif.Model.GenWork
import Verif.Proof.GenWork
import Verif.Props.GenWork
import Verif.Props.RustInverse
import Verif.Props.Layout
import Verif.Props.RustSize
import Verif.Props.RustChars
import Verif.Model.RustGenWork
import Verif.Spec.Idle
import Verif.Proof.RustGenWork
import Verif.Props.RustGenWork
import Verif.Spec.RustNested
import Verif.Props.RustNested
import Verif.Props.RustFlags
import Verif.Props.MixedStream
import Verif.Proof.BridgeSize
import Verif.Props.RustToTs
import Verif.Spec.SameVal
import Verif.Proof.SameVal
import Verif.Props.Relay
