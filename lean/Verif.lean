import Verif.Corpus.Calc
import Verif.Corpus.Calc2
import Verif.Corpus.Calc3
import Verif.Corpus.CalcShape
import Verif.Corpus.CalcsShape
import Verif.Corpus.Grammars
import Verif.Corpus.JsonShape
import Verif.Corpus.Ntcc
import Verif.Corpus.NumeralsShape
import Verif.Corpus.Run
import Verif.Corpus.Small
import Verif.Corpus.Verdict
import Verif.Model.Analysis
import Verif.Model.AnalysisTexts
import Verif.Model.Ast
import Verif.Model.Chaining
import Verif.Model.CharClass
import Verif.Model.Code
import Verif.Model.Compiler
import Verif.Model.FileMap
import Verif.Model.Front
import Verif.Model.FrontErrors
import Verif.Model.FrontSpans
import Verif.Model.Macro
import Verif.Model.Module
import Verif.Model.Names
import Verif.Model.ParseState
import Verif.Model.Report
import Verif.Model.Res
import Verif.Model.Stream
import Verif.Model.Texts
import Verif.Model.Typing
import Verif.Model.WellFormed
import Verif.Proofs.ActionCall
import Verif.Proofs.Actions
import Verif.Proofs.Analysis
import Verif.Proofs.AnalysisTexts
import Verif.Proofs.AnalysisTextsSay
import Verif.Proofs.CalcDecided
import Verif.Proofs.CalcGrammar
import Verif.Proofs.CalcLex
import Verif.Proofs.CalcParser
import Verif.Proofs.CalcPrint
import Verif.Proofs.CalcSyntax
import Verif.Proofs.CalcsGrammar
import Verif.Proofs.CalcsLinked
import Verif.Proofs.CalcsStyle
import Verif.Proofs.CalcsValues
import Verif.Proofs.Calls
import Verif.Proofs.CallsLL1
import Verif.Proofs.CallsMade
import Verif.Proofs.Chaining
import Verif.Proofs.CharClass
import Verif.Proofs.Checked
import Verif.Proofs.CodegenOk
import Verif.Proofs.Combinators
import Verif.Proofs.Comp
import Verif.Proofs.CompOcc
import Verif.Proofs.CompileCorrect
import Verif.Proofs.CompileCorrect2
import Verif.Proofs.CompileCorrect3
import Verif.Proofs.CompileCorrect4
import Verif.Proofs.Compose
import Verif.Proofs.ContextFree
import Verif.Proofs.Correct
import Verif.Proofs.Count
import Verif.Proofs.Depth
import Verif.Proofs.FailCause
import Verif.Proofs.FileMap
import Verif.Proofs.Frame
import Verif.Proofs.FrontComplete
import Verif.Proofs.FrontErase
import Verif.Proofs.FrontErrors
import Verif.Proofs.FrontErrorsLeft
import Verif.Proofs.FrontErrorsRules
import Verif.Proofs.FrontErrorsSame
import Verif.Proofs.FrontSound
import Verif.Proofs.FrontSpans
import Verif.Proofs.FrontSpansRules
import Verif.Proofs.FrontTotal
import Verif.Proofs.Ghost
import Verif.Proofs.JsonGrammar
import Verif.Proofs.JsonLex
import Verif.Proofs.JsonParser
import Verif.Proofs.JsonPrint
import Verif.Proofs.LL1Check
import Verif.Proofs.Lexer
import Verif.Proofs.Literal
import Verif.Proofs.Location
import Verif.Proofs.Main
import Verif.Proofs.Module
import Verif.Proofs.MsgPlaces
import Verif.Proofs.Names
import Verif.Proofs.NamesCompile
import Verif.Proofs.Numerals
import Verif.Proofs.Owned
import Verif.Proofs.OwnedFn
import Verif.Proofs.OwnedMain
import Verif.Proofs.OwnedTypes
import Verif.Proofs.PegBasic
import Verif.Proofs.PegOps
import Verif.Proofs.PegSpans
import Verif.Proofs.PegVals
import Verif.Proofs.Pipeline
import Verif.Proofs.PipelineFuel
import Verif.Proofs.Precedence
import Verif.Proofs.PrecedenceText
import Verif.Proofs.Print
import Verif.Proofs.Program
import Verif.Proofs.RecData
import Verif.Proofs.RecWarnings
import Verif.Proofs.Refactor
import Verif.Proofs.RefsMain
import Verif.Proofs.Renaming
import Verif.Proofs.RenamingTypes
import Verif.Proofs.Report
import Verif.Proofs.Restyle
import Verif.Proofs.Run
import Verif.Proofs.RunComplete
import Verif.Proofs.RunSound
import Verif.Proofs.RustCode
import Verif.Proofs.RustConverse
import Verif.Proofs.RustFn
import Verif.Proofs.RustGives
import Verif.Proofs.RustScope
import Verif.Proofs.RustScopes
import Verif.Proofs.RustTypes
import Verif.Proofs.Scoped
import Verif.Proofs.ScopedCode
import Verif.Proofs.ScopedMain
import Verif.Proofs.ScopesExact
import Verif.Proofs.Separate
import Verif.Proofs.Shown
import Verif.Proofs.ShownSpans
import Verif.Proofs.Size
import Verif.Proofs.Stream
import Verif.Proofs.Texts
import Verif.Proofs.TypingAccept
import Verif.Proofs.TypingBase
import Verif.Proofs.TypingDepth
import Verif.Proofs.TypingDepthInv
import Verif.Proofs.TypingDepthMain
import Verif.Proofs.TypingDet
import Verif.Proofs.TypingDoc
import Verif.Proofs.TypingEnd
import Verif.Proofs.TypingFuel
import Verif.Proofs.TypingMsgs
import Verif.Proofs.TypingPlaces
import Verif.Proofs.TypingReady
import Verif.Proofs.TypingReduce
import Verif.Proofs.TypingRegion
import Verif.Proofs.TypingRule
import Verif.Proofs.TypingSane
import Verif.Proofs.TypingShape
import Verif.Proofs.TypingSized
import Verif.Proofs.TypingSum
import Verif.Proofs.TypingSurf
import Verif.Proofs.TypingTop
import Verif.Proofs.UserStream
import Verif.Proofs.WFAccept
import Verif.Proofs.WFClean
import Verif.Proofs.WFExact
import Verif.Proofs.WFSound
import Verif.Proofs.WFTotal
import Verif.Proofs.WFVisit
import Verif.Proofs.Work
import Verif.Proofs.WorkBound
import Verif.Proofs.WorkLL1
import Verif.Properties.Analysis
import Verif.Properties.AnalysisTexts
import Verif.Properties.CalcCalls
import Verif.Properties.Calculator
import Verif.Properties.Calculators
import Verif.Properties.Calls
import Verif.Properties.Chaining
import Verif.Properties.CharClass
import Verif.Properties.Checked
import Verif.Properties.Codegen
import Verif.Properties.Combinators
import Verif.Properties.Compose
import Verif.Properties.ContextFree
import Verif.Properties.Corpus
import Verif.Properties.Depth
import Verif.Properties.Description
import Verif.Properties.FileMap
import Verif.Properties.Front
import Verif.Properties.FrontErrors
import Verif.Properties.FrontSpans
import Verif.Properties.Json
import Verif.Properties.Lexer
import Verif.Properties.Location
import Verif.Properties.Macro
import Verif.Properties.Message
import Verif.Properties.Module
import Verif.Properties.Names
import Verif.Properties.Numerals
import Verif.Properties.Operators
import Verif.Properties.Ownership
import Verif.Properties.Parsing
import Verif.Properties.Precedence
import Verif.Properties.RecWarnings
import Verif.Properties.Refactor
import Verif.Properties.Rejections
import Verif.Properties.Renaming
import Verif.Properties.Reports
import Verif.Properties.Restyle
import Verif.Properties.Runtime
import Verif.Properties.RustTyping
import Verif.Properties.Samples
import Verif.Properties.Size
import Verif.Properties.Typing
import Verif.Properties.TypingTexts
import Verif.Properties.UserStream
import Verif.Properties.WellFormed
import Verif.Properties.Work
import Verif.Spec.Actions
import Verif.Spec.Analysis
import Verif.Spec.AnalysisTexts
import Verif.Spec.Calculator
import Verif.Spec.Calculators
import Verif.Spec.Calls
import Verif.Spec.Chaining
import Verif.Spec.CharClass
import Verif.Spec.Checked
import Verif.Spec.Compose
import Verif.Spec.ContextFree
import Verif.Spec.Count
import Verif.Spec.Depth
import Verif.Spec.External
import Verif.Spec.FileMap
import Verif.Spec.Front
import Verif.Spec.FrontErrors
import Verif.Spec.FrontSpans
import Verif.Spec.Json
import Verif.Spec.Lexer
import Verif.Spec.Literal
import Verif.Spec.Macro
import Verif.Spec.Message
import Verif.Spec.Module
import Verif.Spec.Names
import Verif.Spec.Numerals
import Verif.Spec.Operators
import Verif.Spec.Ownership
import Verif.Spec.Peg
import Verif.Spec.Precedence
import Verif.Spec.Print
import Verif.Spec.RecWarnings
import Verif.Spec.Refactor
import Verif.Spec.Refs
import Verif.Spec.Rejections
import Verif.Spec.Renaming
import Verif.Spec.Report
import Verif.Spec.Resolved
import Verif.Spec.Restyle
import Verif.Spec.Result
import Verif.Spec.Runtime
import Verif.Spec.RustTyping
import Verif.Spec.Scope
import Verif.Spec.Scoped
import Verif.Spec.Size
import Verif.Spec.Sized
import Verif.Spec.Stream
import Verif.Spec.Texts
import Verif.Spec.Typed
import Verif.Spec.Typing
import Verif.Spec.UserStream
import Verif.Spec.WellFormed
import Verif.Spec.Work
import Verif.Spec.Yields
