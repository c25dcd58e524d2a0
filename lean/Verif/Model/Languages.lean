import Verif.Model.Grammars
import Verif.Model.RustGrammar
import Verif.Model.Convert

/-!
The shipped languages. Their lexers are parameters, see `Verif.Model.Lex`; the hand-written rules of the lexers are
modelled here.
-/

namespace Fall

/-- `fall/parse/src/lib.rs` 93-103: a definition with the default binder. -/
def Definition.plain (g : Grammar) (isWs : NodeType → Bool) (lexer : Lexer Nat) : Definition where
  nodeTypes := g.nodeTypes
  rules := g.rules
  binder _ _ _ := 0
  lexer := lexer
  isWs := isWs

/-- `fall/test/src/sexp.rs` 12-83. -/
def sexpDefinition (lexer : Lexer Nat) : Definition := .plain sexpGrammar sexpIsWs lexer

/-- `fall/test/src/arith.rs` 22-107. -/
def arithDefinition (lexer : Lexer Nat) : Definition := .plain arithGrammar arithIsWs lexer

/-- `fall/test/src/weird.rs` 21-107. -/
def weirdDefinition (lexer : Lexer Nat) : Definition := .plain weirdGrammar weirdIsWs lexer

/-- `lang/bnf/src/bnf.rs` 13-81. -/
def bnfDefinition (lexer : Lexer Nat) : Definition := .plain bnfGrammar bnfIsWs lexer

/-- `lang/json/src/json.rs` 22-109. -/
def jsonDefinition (lexer : Lexer Nat) : Definition := .plain jsonGrammar jsonIsWs lexer

/-- `lang/fall/syntax/src/fall.rs` 58-188. -/
def fallDefinition (lexer : Lexer Nat) : Definition := .plain fallGrammar fallIsWs lexer

/-- `lang/rust/syntax/src/rust.rs` 551-571; the numbers of the types are in lines 3, 4 and 105. The variable
`has_comment` is never read. Texts are lists of bytes here; a newline is the byte 10. -/
def rustBinder (ty : NodeType) (spaces : List (NodeType × List Nat)) (leading : Bool) : Nat :=
  if !leading then 0
  else if ty = 202 then
    (spaces.reverse.takeWhile fun (ty, text) =>
      if ty = 101 then true else ty == 100 && (text.filter (· == 10)).head?.isNone).length
  else 0

/-- `lang/rust/syntax/src/rust.rs` 207-550. -/
def rustDefinition (lexer : Lexer Nat) : Definition where
  nodeTypes := rustGrammar.nodeTypes
  rules := rustGrammar.rules
  binder := rustBinder
  lexer := lexer
  isWs := rustIsWs

end Fall
