import Verif.Model.Lex
import Verif.Model.Tree

/-!
Texts of characters, and the places between them.
-/

namespace Fall.Spec

/-- The bytes are those of a string. -/
def Utf8 (s : List UInt8) : Prop := ∃ cs : List Char, s = cs.flatMap String.utf8EncodeChar

/-- `k` is a place between two characters, or one of the ends. -/
def Between (s : List UInt8) (k : Nat) : Prop := ∃ a b, Utf8 a ∧ Utf8 b ∧ s = a ++ b ∧ k = a.length

/-- Tokens of the lexer end between characters. -/
def CharLexer (lexer : Lexer Nat) : Prop :=
  ∀ s : List UInt8, Utf8 s → s ≠ [] → Between s (lexer (s.map UInt8.toNat)).len

/-- All nodes of the file begin and end between characters. -/
def Aligned (f : File UInt8) : Prop := ∀ n r, f.range n = some r → Between f.text r.start ∧ Between f.text r.stop

/-- All texts of the edit are strings. -/
def StringEdit (e : FileEdit UInt8) : Prop :=
  (∀ n s, (n, s) ∈ e.replaced → Utf8 s) ∧ ∀ n s, (n, s) ∈ e.inserted → Utf8 s

/-- The edit copies pieces between characters of the text and inserts strings. -/
def StringScript (text : List UInt8) (edit : TextEdit UInt8) : Prop :=
  (∀ r, .copy r ∈ edit.ops → Between text r.start ∧ Between text r.stop) ∧ ∀ s, .insert s ∈ edit.ops → Utf8 s

/-- The edit does so, and it makes a string of the text. -/
def EditsString (text : List UInt8) (edit : TextEdit UInt8) : Prop :=
  StringScript text edit ∧ ∃ out, edit.apply (Text.ofBuf text) = some out ∧ Utf8 out

end Fall.Spec
