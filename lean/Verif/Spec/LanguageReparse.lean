import Verif.Spec.FallReparse

/-!
Vocabulary for reparsing files of the shipped languages.
-/

namespace Fall.Spec

/-- For a language given by its lexical rules: reparsing an ASCII text after any edit is parsing the new text, also as
to panics. `ok` is a condition on the texts. -/
def ReparsesWhere (d : Lexer Nat → Definition) (rules : List LexRule) (ok : List Nat → Prop) : Prop :=
  ∀ lexer, LexesAscii rules lexer → ∀ n0 oldText newText file data edit, Ascii oldText → Ascii newText → ok oldText →
    ok newText → (d lexer).parse n0 oldText = .ok (file, data) →
    TextEdit.apply edit (Text.ofBuf oldText) = some newText →
    ∀ n, (d lexer).reparse n oldText data edit = (d lexer).parse n newText

/-- Like `Session`, with a condition on the texts. -/
inductive SessionWhere (ok : List Nat → Prop) (d : Definition) :
    List Nat → File Nat → Definition.IncrementalData → Prop
  | parse {n text file data} : ok text → d.parse n text = .ok (file, data) → SessionWhere ok d text file data
  | edit {n text file data text' file' data'} (edit : TextEdit Nat) : SessionWhere ok d text file data →
      ok text' → edit.apply (Text.ofBuf text) = some text' → d.reparse n text data edit = .ok (file', data') →
      SessionWhere ok d text' file' data'

end Fall.Spec
