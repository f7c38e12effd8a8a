import Verif.Model.Text
import Verif.Model.Error
import Verif.Model.Syntax
import Verif.Model.AhoCorasick
import Verif.Model.Value
import Verif.Model.Ast
import Verif.Model.Compiler
import Verif.Model.Lexer
import Verif.Model.Parser
import Verif.Model.Stack
import Verif.Model.Fmt
import Verif.Model.Filter
import Verif.Model.Render
import Verif.Model.Engine
import Verif.Model.Ser
import Verif.Spec.Search
import Verif.Spec.Lexing
import Verif.Spec.Grammar
import Verif.Spec.Semantics
import Verif.Proofs.AC.Words
import Verif.Proofs.AC.Trie
import Verif.Proofs.AC.Fill
import Verif.Proofs.AC.Build
import Verif.Proofs.AC.Search
import Verif.Proofs.Utf8
import Verif.Proofs.LexBasic
import Verif.Proofs.LexStep
import Verif.Proofs.LexRun
import Verif.Proofs.LexTiles
import Verif.Proofs.LexComplete
import Verif.Proofs.ParseBase
import Verif.Proofs.Literals
import Verif.Proofs.ParseExpr
import Verif.Proofs.ParseBlock
import Verif.Proofs.ParseStmt
import Verif.Proofs.ParseComplete
import Verif.Proofs.ParseTemplate
import Verif.Proofs.ParseErr
import Verif.Proofs.Code
import Verif.Proofs.Sim
import Verif.Proofs.SimStmt
import Verif.Proofs.DecEq
import Verif.Props.C01_C02
import Verif.Props.C04_C06
import Verif.Props.LexExamples
import Verif.Props.Parsing
import Verif.Props.Literals
import Verif.Props.C07
import Verif.Spec.Rendering
import Verif.Spec.InSource
import Verif.Spec.Access
import Verif.Proofs.Piece
import Verif.Proofs.InSource
import Verif.Props.Rendering
import Verif.Props.Lookup
import Verif.Props.Include
import Verif.Props.Render
import Verif.Spec.Maps
import Verif.Spec.History
import Verif.Spec.Setup
import Verif.Spec.Output
import Verif.Spec.Filters
import Verif.Proofs.Maps
import Verif.Proofs.Lock
import Verif.Proofs.ParsedIn
import Verif.Props.Registry
import Verif.Props.Setup
import Verif.Props.Output
import Verif.Props.Filters
import Verif.Props.Format
import Verif.Spec.Serial
import Verif.Props.Serial
import Verif.Spec.Location
import Verif.Props.Errors
import Verif.Spec.Blame
import Verif.Spec.Apart
import Verif.Proofs.OwnErr
import Verif.Proofs.NoCrash
import Verif.Proofs.Demo
import Verif.Props.Blame
import Verif.Props.NoCrash
import Verif.Props.Quirks
import Verif.Spec.Trace
import Verif.Props.Pipeline
import Verif.Spec.Data
import Verif.Proofs.OrderedRun
import Verif.Props.MapOrder
import Verif.Spec.Steps
import Verif.Proofs.Steps
import Verif.Props.Depth
import Verif.Props.Raise
import Verif.Props.Providers
import Verif.Props.Writers
import Verif.Props.Report
import Verif.Model.Macro
import Verif.Spec.Macro
import Verif.Props.Macro
import Verif.Examples.Reports
import Verif.Examples.Rendering
import Verif.Examples.Whole
import Verif.Examples.Setup
import Verif.Examples.Errors
import Verif.Examples.Data
import Verif.Spec.Mentions
import Verif.Proofs.Mentions
import Verif.Props.Mentions
import Verif.Examples.Mentions
import Verif.Spec.Words
import Verif.Proofs.Words
import Verif.Proofs.Accept
import Verif.Proofs.Plain
import Verif.Proofs.Compose
import Verif.Spec.Chars
import Verif.Props.Chars
import Verif.Props.Compose
import Verif.Examples.Compose
import Verif.Props.Words
import Verif.Examples.Words
import Verif.Spec.Escaping
import Verif.Proofs.Escaping
import Verif.Props.Escaping
import Verif.Examples.Escaping
import Verif.Props.LiteralsRendered
import Verif.Spec.Globals
import Verif.Proofs.Globals
import Verif.Props.Globals
import Verif.Examples.Globals
import Verif.Spec.Plain
import Verif.Spec.Refactor
import Verif.Proofs.Refactor
import Verif.Props.Refactor
import Verif.Examples.Refactor
import Verif.Spec.Diagnosis
import Verif.Spec.Stuck
import Verif.Proofs.Machine
import Verif.Proofs.Completion
import Verif.Proofs.Modes
import Verif.Proofs.DiagBase
import Verif.Proofs.DiagExpr
import Verif.Proofs.DiagBlock
import Verif.Proofs.DiagTag
import Verif.Proofs.DiagItem
import Verif.Proofs.DiagLoop
import Verif.Props.Diagnosis
import Verif.Examples.Diagnosis
import Verif.Proofs.Stuck
import Verif.Proofs.StuckErr
import Verif.Props.Stuck
import Verif.Examples.Stuck
import Verif.Spec.Quote
import Verif.Spec.Names
import Verif.Spec.Errors
import Verif.Spec.Params
import Verif.Spec.Print
import Verif.Proofs.Print
import Verif.Proofs.PrintTree
import Verif.Props.Print
import Verif.Examples.Print
import Verif.Model.Typed
import Verif.Spec.Typed
import Verif.Props.Typed
import Verif.Examples.Typed
import Verif.Model.Api
import Verif.Spec.Ways
import Verif.Proofs.Ways
import Verif.Props.Ways
import Verif.Examples.Ways
import Verif.Model.Features
import Verif.Spec.Features
import Verif.Proofs.Features
import Verif.Proofs.FeaturesRender
import Verif.Proofs.FeaturesUp
import Verif.Props.Features
import Verif.Examples.Features
import Verif.Model.Threads
import Verif.Spec.Threads
import Verif.Proofs.Threads
import Verif.Props.Threads
import Verif.Examples.Threads
import Verif.Model.Effects
import Verif.Spec.Effects
import Verif.Proofs.Effects
import Verif.Proofs.EffectsSafe
import Verif.Props.Effects
import Verif.Examples.Effects
import Verif.Spec.Size
import Verif.Proofs.Size
import Verif.Props.Size
import Verif.Examples.Size
import Verif.Spec.Values
import Verif.Spec.Cost
import Verif.Proofs.Values
import Verif.Proofs.Cost
import Verif.Props.Cost
import Verif.Examples.Cost
import Verif.Spec.Related
import Verif.Proofs.Related
import Verif.Props.Related
import Verif.Examples.Related
import Verif.Examples.Raise
import Verif.Proofs.SameOn
import Verif.Props.Provenance
import Verif.Examples.Provenance
import Verif.Proofs.Volume
import Verif.Props.Volume
import Verif.Model.Impls
import Verif.Model.Signatures
import Verif.Spec.Signatures
import Verif.Props.Signatures
import Verif.Examples.Signatures
import Verif.Spec.Shapes
import Verif.Proofs.Shapes
import Verif.Props.Shapes
import Verif.Examples.Shapes
import Verif.Props.Partial
import Verif.Examples.Partial
import Verif.Spec.Richer
import Verif.Proofs.Richer
import Verif.Props.Richer
import Verif.Examples.Richer
import Verif.Spec.Loops
import Verif.Proofs.Loops
import Verif.Props.Loops
import Verif.Examples.Loops
import Verif.Proofs.Tame
import Verif.Spec.Seam
import Verif.Proofs.Seam
import Verif.Props.Seam
import Verif.Examples.Seam
import Verif.Spec.Labels
import Verif.Proofs.Labels
import Verif.Props.Labels
import Verif.Examples.Labels
import Verif.Proofs.Interrupted
import Verif.Props.Interrupted
import Verif.Examples.Interrupted
import Verif.Spec.Simplify
import Verif.Proofs.Simplify
import Verif.Props.Simplify
import Verif.Examples.Simplify
import Verif.Spec.Chains
import Verif.Proofs.Chains
import Verif.Props.Chains
import Verif.Examples.Chains
import Verif.Model.Debug
import Verif.Spec.Debug
import Verif.Proofs.Debug
import Verif.Proofs.Equality
import Verif.Props.Debug
import Verif.Examples.Debug
import Verif.Spec.Texts
import Verif.Proofs.Texts
import Verif.Proofs.Texts2
import Verif.Props.Texts
import Verif.Examples.Texts
import Verif.Spec.Explicit
import Verif.Proofs.Explicit
import Verif.Props.Explicit
import Verif.Examples.Explicit
import Verif.Proofs.FromFn
import Verif.Props.FromFn
import Verif.Examples.FromFn
import Verif.Spec.Fill
import Verif.Spec.Known
import Verif.Spec.Ahead
import Verif.Spec.Alone
import Verif.Proofs.Fill
import Verif.Proofs.Known
import Verif.Proofs.Ahead
import Verif.Proofs.Alone
import Verif.Props.Fill
import Verif.Props.Known
import Verif.Props.Ahead
import Verif.Examples.Fill
import Verif.Examples.Known
import Verif.Examples.Ahead
import Verif.Props.Trims
import Verif.Examples.Trims
import Verif.Props.Escape
import Verif.Examples.Escape
import Verif.Props.SharedErrors
import Verif.Examples.SharedErrors
