import Verif.Model.SymbolIndex
import Verif.Spec.Symbols
import Verif.Spec.Lines
import Verif.Spec.Indexer
import Verif.Spec.RustEditor
import Verif.Spec.Codegen

/-!
The symbols of a project, as the user sees them.
-/

namespace Fall.Spec

open Indexer

/-- The symbol is about the declaration: it has its type, its name and its range, and the lines and columns of the ends
of the range. -/
def SymbolFor (text : List Char) (f : File UInt8) (n : NodeId) (s : Symbol) : Prop :=
  Declares f n (bytesOf s.name) ∧ f.ty n = some s.ty ∧ f.range n = some s.range ∧
    IsAt text s.range.start s.lcRange.1.line s.lcRange.1.col ∧ IsAt text s.range.stop s.lcRange.2.line s.lcRange.2.col

/-- The symbols of a text: one for each declaration in the tree of the text, those inside of others and those before
others first. -/
def SymbolsOf (lexer : Lexer Nat) (text : List Char) (syms : List Symbol) : Prop :=
  ∃ (n : Nat) (file : File Nat) (data : Definition.IncrementalData) (nodes : List NodeId),
    (rustDefinition lexer).parse n ((bytesOf text).map UInt8.toNat) = .ok (file, data) ∧
    Pointwise (SymbolFor text ⟨bytesOf text, file.nodes⟩) nodes syms ∧ nodes.Nodup ∧
    (∀ n, n ∈ nodes ↔ ∃ name, Declares ⟨bytesOf text, file.nodes⟩ n name) ∧
    nodes.Pairwise (fun x y => (Desc ⟨bytesOf text, file.nodes⟩ y x ∧ x ≠ y) ∨ Before ⟨bytesOf text, file.nodes⟩ x y)

/-- The last part of the path ends in `.rs` and has something before that. -/
def RustPath (p : Path) : Prop := ∃ dir name pre, p = dir ++ [name] ∧ pre ≠ [] ∧ name.toList = pre ++ ['.', 'r', 's']

/-- There is the text at the path. -/
def HasText (fs : FS (List UInt8)) (p : Path) (text : List Char) : Prop := fs p = some (.file (bytesOf text))

/-- For every path the last look that tells about it saw what is there now; and there is nothing to be listed where no
look tells about it. -/
def Seen (c : Config C V) (fs : FS C) (events : List (FS C × Indexer.Event)) (now : FS C) : Prop :=
  ∀ q, (∃ before look after, looks c fs events = before ++ look :: after ∧ TellsAbout c look q ∧
      (∀ l ∈ after, ¬ TellsAbout c l q) ∧ now q = look.1 q) ∨
    ((∀ look ∈ looks c fs events, ¬ TellsAbout c look q) ∧ expected c now q = none)

/-- The files of the index, in some order (`HashMap::values` in `indxr/src/lib.rs` 48). -/
def ListsAll (data : Data V) (files : List (Path × V)) : Prop :=
  (files.map (·.1)).Nodup ∧ ∀ p v, (p, v) ∈ files ↔ data p = some ⟨p, v⟩

end Fall.Spec
