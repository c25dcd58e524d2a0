import Verif.Model.VsEdit
import Verif.Model.Incremental

/-!
Model of the part of the plugin for VS Code that keeps a file for each document: `code/common.ts` 15-47, 49 and
159-214, with the functions of the backend that it calls: `code/generic_backend/src/lib.rs` 41-49 and 63-80.

A document is the list of its characters (Unicode code points); the editor counts UTF-16 units.
-/

namespace Fall

/-- How many UTF-16 units a character is in the strings of the editor (`code/common.ts` 183, 185 and 366). -/
def utf16Len (c : Nat) : Nat := if c < 0x10000 then 1 else 2

/-- The bytes of a character in the strings of the backend, `code/generic_backend/src/lib.rs` 67. -/
def utf8 (c : Nat) : List Nat :=
  if c < 0x80 then [c]
  else if c < 0x800 then [0xC0 + c / 0x40, 0x80 + c % 0x40]
  else if c < 0x10000 then [0xE0 + c / 0x1000, 0x80 + c / 0x40 % 0x40, 0x80 + c % 0x40]
  else [0xF0 + c / 0x40000, 0x80 + c / 0x1000 % 0x40, 0x80 + c / 0x40 % 0x40, 0x80 + c % 0x40]

/-- The conversion of a string of the editor, `code/generic_backend/src/lib.rs` 67 and 73. -/
def utf8Text (doc : List Nat) : List Nat := doc.flatMap utf8

/-- `vscode.Position`, as in `code/common.ts` 183. -/
structure Position where
  line : Nat
  character : Nat
deriving DecidableEq, Repr

/-- `vscode.TextDocument.offsetAt` as called in `code/common.ts` 183 and 360. Simplified: lines end with a line
feed. -/
def offsetAt : List Nat → Position → Nat
  | [], _ => 0
  | c :: doc, ⟨0, character⟩ =>
    if c = 10 ∨ character = 0 then 0 else utf16Len c + offsetAt doc ⟨0, character - utf16Len c⟩
  | c :: doc, ⟨line + 1, character⟩ =>
    utf16Len c + offsetAt doc (if c = 10 then ⟨line, character⟩ else ⟨line + 1, character⟩)

/-- The loop of `positionAt`. -/
def positionFrom : List Nat → Nat → Position → Position
  | [], _, p => p
  | c :: doc, offset, p =>
    if offset = 0 then p
    else positionFrom doc (offset - utf16Len c)
      (if c = 10 then ⟨p.line + 1, 0⟩ else ⟨p.line, p.character + utf16Len c⟩)

/-- `vscode.TextDocument.positionAt` as called in `code/common.ts` 354-355. Simplified: lines end with a line feed. -/
def positionAt (doc : List Nat) (offset : Nat) : Position := positionFrom doc offset ⟨0, 0⟩

/-- `vscode.TextDocumentContentChangeEvent`, the fields used in `code/common.ts` 182-187. -/
structure ContentChange where
  start : Position
  rangeLength : Nat
  text : List Nat
deriving DecidableEq, Repr

/-- `code/common.ts` 182-188 and the conversion of the argument, `code/generic_backend/src/lib.rs` 73. -/
def changeRecord (doc : List Nat) (change : ContentChange) : VsEdit Nat :=
  let start := offsetAt doc change.start
  ⟨⟨start, start + change.rangeLength⟩, utf8Text change.text⟩

/-- `code/common.ts` 352-357 and 363-365: what is to be replaced, and by what. -/
def toVsRange (doc : List Nat) (range : TextRange) : Position × Position :=
  (positionAt doc range.start, positionAt doc range.stop)

/-- The functions `parse` and `edit` of a backend, `code/common.ts` 190, 198 and 209; `none` is a panic. -/
structure Backend (φ : Type) where
  parse : List Nat → Option φ
  edit : φ → List (VsEdit Nat) → Option φ

/-- What a run that ends gives, `none` after a panic. -/
def Result.toOption : Result β → Option β
  | .ok b => some b
  | _ => none

/-- The backend of a language: `code/generic_backend/src/lib.rs` 41-49 and 63-80, `lang/fall/src/editor/mod.rs` 21-28,
`lang/rust/src/editor/mod.rs` 103-110 and `fall/tree/src/node/mod.rs` 47-49. `budget` is for a text of a given length.
Simplified: the analysis that goes with a file of the Fall language is not built here. -/
def langBackend (d : Definition) (budget : Nat → Nat) : Backend (File Nat × Definition.IncrementalData) where
  parse text := (d.parse (budget text.length) text).toOption
  edit f edits := do
    let edit ← fromVsEdits (Text.ofBuf f.1.text) edits
    let text ← edit.apply (Text.ofBuf f.1.text)
    (d.reparse (budget text.length) f.1.text f.2 edit).toOption

/-- What the plugin sees of the editor: the texts of the documents (`doc.getText()`, `code/common.ts` 198 and 209) and
the document of the active editor (`code/common.ts` 43-45). -/
structure World (U : Type) where
  text : U → List Nat
  active : Option U

/-- The object `docs`, `code/common.ts` 160. -/
abbrev Docs (U φ : Type) := U → Option φ

/-- `code/common.ts` 162-167. -/
def Docs.set [DecidableEq U] (docs : Docs U φ) (u : U) (file : Option φ) : Docs U φ :=
  fun v => if v = u then file else docs v

section
variable [DecidableEq U] (b : Backend φ) (known : U → Bool) (w : World U)

/-- `updateActiveEditor`, `code/common.ts` 24-47, with `getFile`, 205-213: the active document gets a file if it has
none. `update` calls it again in this case, and then it has one. Simplified: what is done with the file changes nothing
here and does not panic. `known` is `isKnownDoc`, 174-176. -/
def refresh (docs : Docs U φ) : Option (Docs U φ) :=
  match w.active with
  | none => some docs
  | some u =>
    if known u && (docs u).isNone then (b.parse (utf8Text (w.text u))).map fun file => docs.set u (some file)
    else some docs

/-- `update`, `code/common.ts` 161-169, with `onChange`, 17-22. -/
def update (docs : Docs U φ) (u : U) (file : Option φ) : Option (Docs U φ) :=
  refresh b known w (docs.set u file)

/-- The function returned in `code/common.ts` 205-213: the file and what `docs` is then. -/
def getFile (docs : Docs U φ) (u : U) : Option (Option φ × Docs U φ) :=
  if !known u then some (none, docs)
  else
    match docs u with
    | some file => some (some file, docs)
    | none => do
      let file ← b.parse (utf8Text (w.text u))
      let docs ← update b known w docs u (some file)
      some (docs u, docs)

end

/-- The events that the plugin handles, `code/common.ts` 49, 178, 196 and 201, and the calls of `getFile` by its other
parts. -/
inductive PluginEvent (U : Type) where
  | opened (u : U)
  | changed (u : U) (changes : List ContentChange)
  | closed (u : U)
  | activated
  | asked (u : U)

/-- `code/common.ts` 49 and 178-203. `w` is the editor when the event is handled. -/
def handle [DecidableEq U] (b : Backend φ) (known : U → Bool) (w : World U) (docs : Docs U φ) :
    PluginEvent U → Option (Docs U φ)
  | .opened u =>
    if !known u then some docs
    else (b.parse (utf8Text (w.text u))).bind fun file => update b known w docs u (some file)
  | .changed u changes =>
    if !known u then some docs
    else
      match changes, docs u with
      | [change], some tree =>
        (b.edit tree [changeRecord (w.text u) change]).bind fun file => update b known w docs u (some file)
      | _, _ => update b known w docs u none
  | .closed u => update b known w docs u none
  | .activated => refresh b known w docs
  | .asked u => (getFile b known w docs u).map (·.2)

/-- The handlers are called one after the other. -/
def runPlugin [DecidableEq U] (b : Backend φ) (known : U → Bool) :
    List (PluginEvent U × World U) → Docs U φ → Option (Docs U φ)
  | [], docs => some docs
  | (event, w) :: rest, docs => (handle b known w docs event).bind (runPlugin b known rest)

end Fall
