import Verif.Spec.Incremental
import Verif.Spec.Lex
import Verif.Model.Lex
import Verif.Model.Languages
import Verif.Spec.LexLongest

/-!
Vocabulary for reparsing files of the Fall language.
-/

namespace Fall.Spec

/-- The tokens of a piece of text without errors that ends with a token of type `ty` are the same wherever the
piece is. -/
def PieceTokens (ty : NodeType) (lexer : Lexer Nat) : Prop :=
  ∀ text text' M R us, IsLexing lexer text (M ++ R) → (∀ t ∈ M, t.ty ≠ ERROR) →
    (∃ t, M.getLast? = some t ∧ t.ty = ty) → text.take (M.map (·.len)).sum = text'.take (M.map (·.len)).sum →
    IsLexing lexer text' us → ∃ R', us = M ++ R'

/-- Things about the tokens of the Fall language: a hash (118) is a hash, where there is a lowercase letter there is
no error, and pieces that end with a closing curly brace (120) have the same tokens everywhere. -/
structure FallTokens (lexer : Lexer Nat) : Prop where
  hash : ∀ text, text ≠ [] → (lexer text).ty = 118 → text.head? = some 35
  word : ∀ c text, 97 ≤ c → c ≤ 122 → (lexer (c :: text)).ty ≠ ERROR
  piece : PieceTokens 120 lexer

/-- Relexing after an edit gives the tokens of the new text. -/
def RelexesTo (lexer : Lexer Nat) (tokens : List Token) (edit : TextEdit Nat) (newText : List Nat) : Prop :=
  ∃ ts region, relex lexer tokens edit newText = some (ts, region) ∧ lex lexer newText = some ts

/-- Relexing is right for ASCII texts that fulfil a condition, whatever the edit: for all lexers that apply the
rules. -/
def RelexesWhere (rules : List LexRule) (ok : List Nat → Prop) : Prop :=
  ∀ lexer, LexesAscii rules lexer → ∀ oldText newText tokens edit, Ascii oldText → Ascii newText → ok oldText →
    ok newText → lex lexer oldText = some tokens → TextEdit.apply edit (Text.ofBuf oldText) = some newText →
    RelexesTo lexer tokens edit newText

/-- Like `Session`, but the texts are ASCII, the copies of each edit are in order and relexing after it gives the tokens
of the new text. -/
inductive RelexedSession (d : Definition) : List Nat → File Nat → Definition.IncrementalData → Prop
  | parse {n text file data} : Ascii text → d.parse n text = .ok (file, data) → RelexedSession d text file data
  | edit {n text file data text' file' data'} (edit : TextEdit Nat) : RelexedSession d text file data → Ascii text' →
      OrderedCopies 0 edit.ops → edit.apply (Text.ofBuf text) = some text' →
      RelexesTo d.lexer data.tokens edit text' → d.reparse n text data edit = .ok (file', data') →
      RelexedSession d text' file' data'

end Fall.Spec
