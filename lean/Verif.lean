import Verif.Core.Types
import Verif.Core.Tree
import Verif.Core.Decimal
import Verif.Core.Float
import Verif.Core.Lower
import Verif.Core.LowerLemmas
import Verif.Core.LowerDen
import Verif.Core.Unique
import Verif.Core.Prog
import Verif.Json.Grammar
import Verif.Json.GrammarLemmas
import Verif.Json.Model
import Verif.Json.Escape
import Verif.Json.Number
import Verif.Json.Spec
import Verif.Json.Run
import Verif.Json.Main
import Verif.Json.Link
import Verif.Json.Inv
import Verif.Json.Join
import Verif.Json.Sim
import Verif.Json.Io
import Verif.Json.IoZero
import Verif.Json.ZeroExp
import Verif.Props.Stream
import Verif.Props.Nearest
import Verif.Core.Extract
import Verif.Core.ExtractLemmas
import Verif.Props.Extract
import Verif.Props.ExtractText
import Verif.Core.Data
import Verif.Core.LabelHeap
import Verif.Props.Data
import Verif.Buffer.Model
import Verif.Buffer.Lemmas
import Verif.Buffer.Reach
import Verif.Buffer.Collect
import Verif.Buffer.More
import Verif.Buffer.Through
import Verif.Props.Buffer
import Verif.Props.Json
import Verif.Props.JsonIo
import Verif.Core.Guard
import Verif.Core.Merge
import Verif.Fmt.Model
import Verif.Fmt.Spec
import Verif.Fmt.Run
import Verif.Fmt.Lemmas
import Verif.Fmt.Always
import Verif.Props.Fmt
import Verif.Props.FmtFail
import Verif.Flatten.Model
import Verif.Flatten.Spec
import Verif.Flatten.Labels
import Verif.Flatten.Run
import Verif.Flatten.Entries
import Verif.Flatten.Root
import Verif.Props.Flatten
import Verif.Nested.Model
import Verif.Nested.Spec
import Verif.Nested.Run
import Verif.Nested.Keeps
import Verif.Nested.Fills
import Verif.Nested.Slots
import Verif.Nested.Tree
import Verif.Nested.Deep
import Verif.Nested.Plain
import Verif.Nested.Panic
import Verif.Nested.Unique
import Verif.Nested.Protocol
import Verif.Props.Nested
import Verif.Serde.Model
import Verif.Serde.Spec
import Verif.Serde.Run
import Verif.Serde.Round
import Verif.Serde.Same
import Verif.Props.Serde
import Verif.Derive.Model
import Verif.Derive.Spec
import Verif.Rust.Model
import Verif.Rust.Spec
import Verif.Rust.Emits
import Verif.Derive.Struct
import Verif.Rust.Emit
import Verif.Props.Rust
import Verif.Derive.Flatten
import Verif.Derive.FlatSpec
import Verif.Derive.Flat
import Verif.Props.Derive
import Verif.Props.DeriveIndexes
import Verif.Derive.Attr
import Verif.Derive.AttrSpec
import Verif.Props.DeriveAttr
import Verif.Reader.Stack
import Verif.Reader.Model
import Verif.Reader.Lemmas
import Verif.Reader.Spec
import Verif.Reader.Values
import Verif.Reader.Docs
import Verif.Reader.Brackets
import Verif.Reader.Format
import Verif.Reader.Compact
import Verif.Props.Reader
import Verif.Json.Norm
import Verif.Json.Untag
import Verif.Json.Splits
import Verif.Props.Compose
import Verif.Rust.Extracts
import Verif.Props.RustExtract
import Verif.Test.Model
import Verif.Test.Spec
import Verif.Props.Test
import Verif.Fmt.Token
import Verif.Fmt.TokenSpec
import Verif.Fmt.TokenRun
import Verif.Fmt.TokenPlain
import Verif.Props.FmtToken
import Verif.Nested.Default
import Verif.Nested.DefaultSpec
import Verif.Nested.Provided
import Verif.Props.Provided
import Verif.Examples.Simple
import Verif.Examples.Recursive
import Verif.Props.Examples
import Verif.Buffer.ArrayVec
import Verif.Buffer.ArrayVecSafe
import Verif.Props.ArrayVec
import Verif.Buffer.ArrayVecUnwind
import Verif.Props.ArrayVecUnwind
import Verif.Json.Text
import Verif.Json.Embed
import Verif.Props.JsonText
import Verif.Serde.Doc
import Verif.Rust.Doc
import Verif.Props.SerdeJson
import Verif.Props.RustJson
import Verif.Serde.Back
import Verif.Props.SerdeBack
import Verif.Reader.Readable
import Verif.Props.ReaderBack
import Verif.Reader.LooseSpec
import Verif.Reader.Loose
import Verif.Props.ReaderLoose
import Verif.Reader.Other
import Verif.Props.ReaderOther
import Verif.Props.FlattenJson
import Verif.Props.FlattenEnum
import Verif.Props.FlattenArray
import Verif.Json.Loose
import Verif.Json.Balance
import Verif.Props.JsonExact
import Verif.Props.JsonRefuse
import Verif.Props.JsonFate
import Verif.Props.BufferNoAlloc
import Verif.Suite.Json
import Verif.Suite.Fmt
import Verif.Suite.Tokens
import Verif.Suite.Derive
import Verif.Suite.Flatten
import Verif.Suite.Values
import Verif.Suite.Core
import Verif.Suite.Buffer
import Verif.Suite.Serde
import Verif.Suite.Nested
import Verif.Buffer.Display
import Verif.Props.BufferDisplay
import Verif.Nested.NoAlloc
import Verif.Buffer.Debug
import Verif.Props.BufferDebug
import Verif.Props.NestedNoAlloc
import Verif.Props.NestedDebug
import Verif.Nested.Free
import Verif.Props.NestedFree
import Verif.Props.NestedFixed
import Verif.Core.Alike
import Verif.Props.Hints
import Verif.Props.HintsNested
import Verif.Props.HintsFlatten
import Verif.Props.SizesRust
import Verif.Props.Members
import Verif.Props.OneLine
import Verif.Props.OneLineExact
import Verif.Props.Truncate
import Verif.Props.Distinct
import Verif.Props.Kept
import Verif.Props.KeptExact
import Verif.Props.KeptSerde
import Verif.Props.KeptSerdeExact
import Verif.Props.Shown
import Verif.Props.Without
import Verif.Props.FmtOneLine
import Verif.Props.Sizes
import Verif.Fmt.Formatter
import Verif.Props.FmtOptions
import Verif.Props.Fragments
import Verif.Props.FlattenNoAlloc
import Verif.Props.FlattenLimits
import Verif.Flatten.Buffered
import Verif.Props.FlattenBuffer
import Verif.Buffer.AsValue
import Verif.Props.TextBuf
import Verif.Props.CollectExact
import Verif.Rust.Debug
import Verif.Props.FmtDebug
import Verif.Props.FlattenOther
import Verif.Props.FlattenFmt
import Verif.Serde.Through
import Verif.Props.SerdeThrough
import Verif.Props.SerdeNoAlloc
import Verif.Props.BufferNested
import Verif.Props.BufferLend
import Verif.Reader.Bytes
import Verif.Json.Bytes
import Verif.Props.Bytes
import Verif.Core.Received
import Verif.Core.Carried
import Verif.Json.Cost
import Verif.Json.Chars
import Verif.Json.Ends
import Verif.Fmt.Cost
import Verif.Fmt.Chars
import Verif.Buffer.Cost
import Verif.Json.Panic
import Verif.Buffer.Panic
import Verif.Nested.Calm
import Verif.Nested.Steady
import Verif.Nested.Window
import Verif.Fmt.Safe
import Verif.Props.Panics
import Verif.Flatten.Wild
import Verif.Props.FlattenPanics
import Verif.Props.NestedPanics
import Verif.Props.Amplify
import Verif.Core.LowerCost
import Verif.Reader.Cost
import Verif.Flatten.Cost
import Verif.Nested.Cost
import Verif.Props.AmplifyMore
import Verif.Buffer.Again
import Verif.Props.BufferAgain
import Verif.Props.TextBufLife
import Verif.Props.PanicsNoAlloc
import Verif.Buffer.Parts
import Verif.Props.BufferExtract
import Verif.Props.BufferParts
import Verif.Examples.Tags
import Verif.Examples.TagsExact
import Verif.Props.Timestamps
import Verif.Nested.Bare
import Verif.Props.NestedBare
import Verif.Props.NestedBareJson
