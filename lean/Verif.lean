import Verif.Model.Basic
import Verif.Model.Cells
import Verif.Model.Chars
import Verif.Model.Copies
import Verif.Model.CrossProduct
import Verif.Model.Cursor
import Verif.Model.Declare
import Verif.Model.Demo
import Verif.Model.Deprecation
import Verif.Model.Diagnose
import Verif.Model.Error
import Verif.Model.Eval
import Verif.Model.Expand
import Verif.Model.FormatString
import Verif.Model.Funcs
import Verif.Model.Interp
import Verif.Model.Items
import Verif.Model.Located
import Verif.Model.Normalize
import Verif.Model.Parse
import Verif.Model.Parses
import Verif.Model.Release
import Verif.Model.Reports
import Verif.Model.Resolve
import Verif.Model.SipHash
import Verif.Model.SpanDeprecation
import Verif.Model.SpanItems
import Verif.Model.Spans
import Verif.Model.Steps
import Verif.Model.Subst
import Verif.Model.TypeName
import Verif.Model.Types
import Verif.Model.UniqueId
import Verif.Model.Value
import Verif.Model.Visitor
import Verif.Model.VisitorParses
import Verif.Model.Walker
import Verif.Spec.Commas
import Verif.Spec.Copies
import Verif.Spec.Cursor
import Verif.Spec.Deprecation
import Verif.Spec.Depth
import Verif.Spec.Faults
import Verif.Spec.Fields
import Verif.Spec.First
import Verif.Spec.Flatten
import Verif.Spec.Format
import Verif.Spec.Inline
import Verif.Spec.InlineArgs
import Verif.Spec.Interchange
import Verif.Spec.Items
import Verif.Spec.JoinNames
import Verif.Spec.Leafmap
import Verif.Spec.Lifetimes
import Verif.Spec.Literals
import Verif.Spec.Loops
import Verif.Spec.Message
import Verif.Spec.NormalizeValue
import Verif.Spec.Numbers
import Verif.Spec.Operands
import Verif.Spec.Order
import Verif.Spec.Ordinary
import Verif.Spec.Origin
import Verif.Spec.Parses
import Verif.Spec.Pasted
import Verif.Spec.Quote
import Verif.Spec.RawNames
import Verif.Spec.Reference
import Verif.Spec.Rename
import Verif.Spec.Reports
import Verif.Spec.Respelled
import Verif.Spec.Run
import Verif.Spec.Size
import Verif.Spec.SpanDeprecation
import Verif.Spec.SpanItems
import Verif.Spec.SpanReads
import Verif.Spec.Spans
import Verif.Spec.Strings
import Verif.Spec.Subst
import Verif.Spec.Syntax
import Verif.Spec.Text
import Verif.Spec.Tuples
import Verif.Spec.Twice
import Verif.Spec.Typing
import Verif.Spec.Unused
import Verif.Spec.Uses
import Verif.Spec.Values
import Verif.Spec.WriteOut
import Verif.Proofs.AnySpans
import Verif.Proofs.BeforeComma
import Verif.Proofs.BuiltinSound
import Verif.Proofs.Builtins
import Verif.Proofs.Cells
import Verif.Proofs.Commas
import Verif.Proofs.Copies
import Verif.Proofs.CrossProduct
import Verif.Proofs.Cursor
import Verif.Proofs.Decimal
import Verif.Proofs.Denote
import Verif.Proofs.Deprecation
import Verif.Proofs.Depth
import Verif.Proofs.Diagnose
import Verif.Proofs.Eval
import Verif.Proofs.Expand
import Verif.Proofs.Failures
import Verif.Proofs.FaultPlaces
import Verif.Proofs.First
import Verif.Proofs.Flatten
import Verif.Proofs.FlattenSafe
import Verif.Proofs.FormatString
import Verif.Proofs.Funcs
import Verif.Proofs.Heads
import Verif.Proofs.Independence
import Verif.Proofs.Inside
import Verif.Proofs.Interchange
import Verif.Proofs.Invariant
import Verif.Proofs.JoinNames
import Verif.Proofs.Leafmap
import Verif.Proofs.Lib
import Verif.Proofs.Lifetimes
import Verif.Proofs.Located
import Verif.Proofs.Matters
import Verif.Proofs.Message
import Verif.Proofs.Normalize
import Verif.Proofs.NormalizeValue
import Verif.Proofs.Numbers
import Verif.Proofs.Order
import Verif.Proofs.Ordinary
import Verif.Proofs.Origin
import Verif.Proofs.OverflowCongr
import Verif.Proofs.Overload
import Verif.Proofs.Parse
import Verif.Proofs.ParseContext
import Verif.Proofs.ParseExpr
import Verif.Proofs.ParseForms
import Verif.Proofs.ParseTop
import Verif.Proofs.Parses
import Verif.Proofs.Pasted
import Verif.Proofs.Principal
import Verif.Proofs.RawNames
import Verif.Proofs.ReadCalls
import Verif.Proofs.Recast
import Verif.Proofs.Reference
import Verif.Proofs.Release
import Verif.Proofs.Rename
import Verif.Proofs.Reports
import Verif.Proofs.Resolve
import Verif.Proofs.Respelled
import Verif.Proofs.Run
import Verif.Proofs.Seed
import Verif.Proofs.Size
import Verif.Proofs.Sound
import Verif.Proofs.SpanBlocks
import Verif.Proofs.SpanDeprecation
import Verif.Proofs.SpanReads
import Verif.Proofs.SpanVisitor
import Verif.Proofs.SpanWalk
import Verif.Proofs.Spans
import Verif.Proofs.Steps
import Verif.Proofs.Subst
import Verif.Proofs.Text
import Verif.Proofs.Twice
import Verif.Proofs.UniqueId
import Verif.Proofs.Unused
import Verif.Proofs.Visitor
import Verif.Proofs.VisitorCongr
import Verif.Proofs.VisitorErrors
import Verif.Proofs.VisitorLocal
import Verif.Proofs.VisitorParses
import Verif.Proofs.Walker
import Verif.Proofs.Worst
import Verif.Proofs.WriteOut
import Verif.Proofs.WriteOutSafe
import Verif.Props.Again
import Verif.Props.AnySpans
import Verif.Props.Cells
import Verif.Props.Commas
import Verif.Props.Context
import Verif.Props.Copies
import Verif.Props.Counts
import Verif.Props.CrossProduct
import Verif.Props.Cursor
import Verif.Props.Declare
import Verif.Props.Deprecation
import Verif.Props.Depth
import Verif.Props.Diagnose
import Verif.Props.Docs
import Verif.Props.Eval
import Verif.Props.Exact
import Verif.Props.ExactForms
import Verif.Props.ExactMore
import Verif.Props.Expand
import Verif.Props.Failures
import Verif.Props.Fields
import Verif.Props.First
import Verif.Props.Flatten
import Verif.Props.FormatString
import Verif.Props.Fragments
import Verif.Props.Funcs
import Verif.Props.InCode
import Verif.Props.InlineArgs
import Verif.Props.JoinNames
import Verif.Props.Laws
import Verif.Props.Lifetimes
import Verif.Props.Literals
import Verif.Props.LoopOrder
import Verif.Props.Matters
import Verif.Props.Message
import Verif.Props.Names
import Verif.Props.NamesLeft
import Verif.Props.NoCrash
import Verif.Props.Normalize
import Verif.Props.NormalizeValue
import Verif.Props.Numbers
import Verif.Props.Operands
import Verif.Props.Order
import Verif.Props.Origin
import Verif.Props.Panics
import Verif.Props.Parse
import Verif.Props.Pasted
import Verif.Props.PastedValues
import Verif.Props.Places
import Verif.Props.Positions
import Verif.Props.Quote
import Verif.Props.RawNames
import Verif.Props.Recast
import Verif.Props.Reference
import Verif.Props.Release
import Verif.Props.Rename
import Verif.Props.RenameText
import Verif.Props.Reparse
import Verif.Props.Reports
import Verif.Props.Resolve
import Verif.Props.Respelled
import Verif.Props.Run
import Verif.Props.SameReading
import Verif.Props.Size
import Verif.Props.SpanBlock
import Verif.Props.SpanInput
import Verif.Props.SpanWarnings
import Verif.Props.Spans
import Verif.Props.Steps
import Verif.Props.Subst
import Verif.Props.Text
import Verif.Props.Twice
import Verif.Props.Types
import Verif.Props.Unused
import Verif.Props.Visitor
import Verif.Props.WhenCode
import Verif.Props.Whole
import Verif.Lite.Applied
import Verif.Lite.Ascii
import Verif.Lite.Blind
import Verif.Lite.Facts
import Verif.Lite.Findings
import Verif.Lite.Lexer
import Verif.Lite.Local
import Verif.Lite.Rust
import Verif.Lite.Taken
import Verif.Lite.Tests
import Verif.Lite.TestsFuncs
import Verif.Lite.TestsPlaces
import Verif.Lite.TestsStrings
import Verif.Lite.TestsSubst
import Verif.Lite.TestsUnits
import Verif.Lite.TestsValues
import Verif.Lite.Units
