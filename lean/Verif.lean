import Verif.Props.Text
import Verif.Props.Lex
import Verif.Props.Tree
import Verif.Props.Syn
import Verif.Props.Runs
import Verif.Props.Incremental
import Verif.Props.Static
import Verif.Props.Total
import Verif.Spec.Pratt
import Verif.Spec.Arith
import Verif.Lemmas.Grouping
import Verif.Lemmas.Pratt
import Verif.Lemmas.Arith
import Verif.Props.Pratt
import Verif.Model.Lines
import Verif.Spec.Lines
import Verif.Lemmas.Lines
import Verif.Model.Symbols
import Verif.Spec.Symbols
import Verif.Lemmas.Symbols
import Verif.Model.Indexer
import Verif.Spec.Indexer
import Verif.Lemmas.Indexer
import Verif.Props.Lines
import Verif.Props.Indexer
import Verif.Model.Editor
import Verif.Spec.Editor
import Verif.Lemmas.Editor
import Verif.Props.Editor
import Verif.Model.Db
import Verif.Spec.Db
import Verif.Lemmas.Db
import Verif.Props.Db
import Verif.Model.Analysis
import Verif.Spec.Analysis
import Verif.Lemmas.Analysis
import Verif.Lemmas.AnalysisCalls
import Verif.Lemmas.AnalysisTyped
import Verif.Lemmas.AnalysisWhole
import Verif.Spec.Shaped
import Verif.Lemmas.AnalysisSafe
import Verif.Props.AnalysisSample
import Verif.Props.Analysis
import Verif.Model.LexRules
import Verif.Spec.LexRules
import Verif.Lemmas.LexRules
import Verif.Props.LexRules
import Verif.Spec.Promise
import Verif.Lemmas.Promise
import Verif.Lemmas.PromiseCheck
import Verif.Lemmas.PromiseBars
import Verif.Props.Promise
import Verif.Props.AnalysisSafe
import Verif.Model.Codegen
import Verif.Spec.Codegen
import Verif.Lemmas.Codegen
import Verif.Lemmas.CodegenUnique
import Verif.Lemmas.SynRename
import Verif.Props.CodegenSample
import Verif.Props.Codegen
import Verif.Model.FallEditor
import Verif.Spec.FallEditor
import Verif.Lemmas.FallEditor
import Verif.Props.FallEditorSample
import Verif.Props.FallEditor
import Verif.Spec.FallFormat
import Verif.Lemmas.FallFormat
import Verif.Props.FallFormat
import Verif.Spec.FallExtract
import Verif.Spec.FallView
import Verif.Lemmas.FallExtract
import Verif.Lemmas.FallView
import Verif.Props.FallExtract
import Verif.Props.FallActions
import Verif.Props.FallView
import Verif.Lemmas.RunsCall
import Verif.Spec.Balanced
import Verif.Lemmas.Balanced
import Verif.Lemmas.Twin
import Verif.Props.Balanced
import Verif.Lemmas.Lockstep
import Verif.Lemmas.Marks
import Verif.Lemmas.Replaced
import Verif.Lemmas.Relocate
import Verif.Lemmas.ReparseCert
import Verif.Spec.LexLongest
import Verif.Spec.FallReparse
import Verif.Lemmas.FallReparse
import Verif.Lemmas.LexLookahead
import Verif.Lemmas.FallTokens
import Verif.Lemmas.RelexCongr
import Verif.Lemmas.LexPlain
import Verif.Lemmas.RustTokens
import Verif.Props.LexLookahead
import Verif.Props.FallReparse
import Verif.Spec.LanguageReparse
import Verif.Lemmas.FastParse
import Verif.Props.LanguageReparse
import Verif.Lemmas.CodegenTotal
import Verif.Lemmas.CodegenSucceeds
import Verif.Lemmas.CodegenTidy
import Verif.Props.CodegenSucceeds
import Verif.Model.Generate
import Verif.Spec.Generate
import Verif.Lemmas.Generate
import Verif.Lemmas.GenerateTotal
import Verif.Lemmas.GenerateNames
import Verif.Lemmas.GenerateModule
import Verif.Lemmas.GenerateResolves
import Verif.Props.GenerateSample
import Verif.Props.Generate
import Verif.Model.RustEditor
import Verif.Spec.RustEditor
import Verif.Lemmas.RustEditor
import Verif.Props.RustEditor
import Verif.Props.RustEditorSample
import Verif.Model.Dump
import Verif.Model.TestTools
import Verif.Spec.Dump
import Verif.Spec.TestTools
import Verif.Lemmas.Dump
import Verif.Props.Dump
import Verif.Props.TestTools
import Verif.Model.Plugin
import Verif.Spec.Plugin
import Verif.Lemmas.Plugin
import Verif.Props.Plugin
import Verif.Spec.Json
import Verif.Lemmas.Acts
import Verif.Lemmas.Lists
import Verif.Lemmas.Json
import Verif.Lemmas.JsonFile
import Verif.Props.Json
import Verif.Spec.Strict
import Verif.Lemmas.Strict
import Verif.Props.Strict
import Verif.Spec.Utf8
import Verif.Lemmas.Utf8
import Verif.Props.Utf8
import Verif.Props.Utf8Features
import Verif.Spec.Bnf
import Verif.Spec.Sexp
import Verif.Lemmas.Exact
import Verif.Lemmas.Bnf
import Verif.Lemmas.Sexp
import Verif.Props.Bnf
import Verif.Props.Sexp
import Verif.Lemmas.ArithExact
import Verif.Props.Arith
import Verif.Model.SymbolIndex
import Verif.Spec.SymbolIndex
import Verif.Props.SymbolIndex
import Verif.Spec.Arguments
import Verif.Lemmas.Arguments
import Verif.Props.Arguments
import Verif.Spec.Parens
import Verif.Lemmas.Parens
import Verif.Props.Parens
import Verif.Spec.ArithText
import Verif.Lemmas.ArithText
import Verif.Props.ArithText
import Verif.Spec.JsonText
import Verif.Lemmas.JsonText
import Verif.Props.JsonText
import Verif.Props.Clamp
import Verif.Spec.Layout
import Verif.Lemmas.Layout
import Verif.Props.Layout
import Verif.Props.Axioms
