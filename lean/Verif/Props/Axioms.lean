import Lean.Elab.Command
import Lean.Util.CollectAxioms
import Verif.Props.Text
import Verif.Props.Lex
import Verif.Props.Tree
import Verif.Props.Syn
import Verif.Props.Runs
import Verif.Props.Incremental
import Verif.Props.Static
import Verif.Props.Total
import Verif.Props.Pratt
import Verif.Props.Lines
import Verif.Props.Indexer
import Verif.Props.Editor
import Verif.Props.Db
import Verif.Props.Analysis
import Verif.Props.LexRules
import Verif.Props.Promise
import Verif.Props.AnalysisSafe
import Verif.Props.Codegen
import Verif.Props.FallEditor
import Verif.Props.FallFormat
import Verif.Props.FallExtract
import Verif.Props.FallActions
import Verif.Props.FallView
import Verif.Props.Balanced
import Verif.Props.LexLookahead
import Verif.Props.FallReparse
import Verif.Props.LanguageReparse
import Verif.Props.CodegenSucceeds
import Verif.Props.GenerateSample
import Verif.Props.Generate
import Verif.Props.RustEditor
import Verif.Props.RustEditorSample
import Verif.Props.Dump
import Verif.Props.TestTools
import Verif.Props.Plugin
import Verif.Props.Json
import Verif.Props.Strict
import Verif.Props.Utf8
import Verif.Props.Utf8Features
import Verif.Props.Bnf
import Verif.Props.Sexp
import Verif.Props.Arith
import Verif.Props.SymbolIndex
import Verif.Props.Arguments
import Verif.Props.Parens
import Verif.Props.ArithText
import Verif.Props.JsonText
import Verif.Props.Clamp
import Verif.Props.Layout

/-!
Checks that no property theorem depends on an axiom other than the three standard ones. The build
fails if one does.
-/

open Lean Elab Command in
/-- Looks at all theorems of the model whose name begins with the id of a property. -/
elab "#check_property_axioms" : command => do
  let env ← getEnv
  let names := env.constants.map₁.fold (init := #[]) fun acc name info =>
    match name with
    | .str (.str .anonymous "Fall") s =>
      let cs := s.toList
      if cs.head? = some 'C' ∧ ((cs.drop 1).take 2).all Char.isDigit = true then
        match info with
        | .thmInfo _ => acc.push name
        | _ => acc
      else acc
    | _ => acc
  for name in names do
    for ax in ← liftCoreM (collectAxioms name) do
      unless ax == ``propext || ax == ``Classical.choice || ax == ``Quot.sound do
        throwError "{name} depends on {ax}"
  if names.size < 60 then
    throwError "only {names.size} property theorems found"

#check_property_axioms
