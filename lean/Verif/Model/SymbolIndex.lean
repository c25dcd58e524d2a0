import Verif.Model.Symbols
import Verif.Model.Indexer
import Verif.Model.RustEditor
import Verif.Model.Languages

/-!
Model of the symbols of a project: `lang/rust/src/editor/symbol_index.rs` 17-29 and 92-104, on top of the models of the
parser, of the line index and of the file index.
-/

namespace Fall

/-- `String::from_utf8`: used by `file::get_text` in `lang/rust/src/editor/symbol_index.rs` 25, where it is an error if
the bytes are not those of a string. Also stands for `to_string` in line 100, where it never fails in Rust because a
name is a string already; here names are bytes. The loop has a bound on its number of turns. -/
def decodeUtf8 : (turns : Nat) → List UInt8 → Option (List Char)
  | _, [] => some []
  | 0, _ :: _ => none
  | turns + 1, b :: bs => do
    let c ← (b :: bs).toByteArray.utf8DecodeChar? 0
    let cs ← decodeUtf8 turns ((b :: bs).drop c.utf8Size)
    some (c :: cs)

/-- `lang/rust/src/editor/symbol_index.rs` 97-103: what is stored for a declaration. -/
def symbolOf (upperBound : List Nat → Nat → Nat) (text : List Char) (f : File UInt8) (name : List UInt8) (n : NodeId) :
    Option Symbol := do
  let range ← f.range n
  let ty ← f.ty n
  let name ← decodeUtf8 name.length name
  let start ← (LineIndex.new text).translate upperBound range.start
  let stop ← (LineIndex.new text).translate upperBound range.stop
  some ⟨ty, name, range, (start, stop)⟩

/-- `lang/rust/src/editor/symbol_index.rs` 92-114. The parser is given `fuel`. -/
def FileSymbols.ofText (lexer : Lexer Nat) (fuel : Nat) (upperBound : List Nat → Nat → Nat)
    (lowerStr : List Char → List Char) (text : List Char) : Option FileSymbols :=
  match (rustDefinition lexer).parse fuel ((bytesOf text).map UInt8.toNat) with
  | .ok (file, _) => do
    let found ← processSymbols ⟨bytesOf text, file.nodes⟩ (symbolOf upperBound text ⟨bytesOf text, file.nodes⟩)
    FileSymbols.new lowerStr found
  | _ => none

/-- `indxr/src/lib.rs` 25-30 with the extension `rs` of `lang/rust/src/editor/symbol_index.rs` 23: the extension of the
last part of a path is what is behind its last dot, if something is in front of it (`Path::extension`). -/
def isRustPath (path : Indexer.Path) : Bool :=
  match path.getLast? with
  | none => false
  | some name =>
    let r := name.toList.reverse
    let ext := r.takeWhile (· != '.')
    ext.reverse = ['r', 's'] && 1 < (r.drop ext.length).length

/-- `lang/rust/src/editor/symbol_index.rs` 22-29: a file that is no text is not in the index. -/
def symbolConfig (lexer : Lexer Nat) (fuel : List UInt8 → Nat) (upperBound : List Nat → Nat → Nat)
    (lowerStr : List Char → List Char) (roots : List Indexer.Path) : Indexer.Config (List UInt8) FileSymbols where
  roots := roots
  filter := isRustPath
  mapper := fun _ content =>
    (decodeUtf8 content.length content).bind (FileSymbols.ofText lexer (fuel content) upperBound lowerStr)

end Fall
