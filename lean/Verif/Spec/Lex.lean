import Verif.Model.Lex

/-! Specification vocabulary for lexing. -/

namespace Fall.Spec

/-- `ts` is the tokenization of `text`: each token is what the lexer says at its start offset, is
not empty, fits into the text, and the tokens exhaust the text. -/
def IsLexing (lexer : Lexer α) : List α → List Token → Prop
  | text, [] => text = []
  | text, t :: ts =>
    lexer text = t ∧ 0 < t.len ∧ t.len ≤ text.length ∧ IsLexing lexer (text.drop t.len) ts

/-- A lexer that always returns a non-empty token inside the text. -/
def Progress (lexer : Lexer α) : Prop :=
  ∀ text, text ≠ [] → 0 < (lexer text).len ∧ (lexer text).len ≤ text.length

/-- A token that is not an error is determined by its own bytes and the byte after it
(or the fact that there is none). -/
def OneByteLookahead (lexer : Lexer α) : Prop :=
  ∀ text text', (lexer text).ty ≠ ERROR →
    text.take ((lexer text).len + 1) = text'.take ((lexer text).len + 1) →
    lexer text' = lexer text

end Fall.Spec
