import Verif.Model.Plugin
import Verif.Spec.Text
import Verif.Spec.LexLongest

/-!
Vocabulary for the plugin: what the editor does, and what is asked of a backend.
-/

namespace Fall.Spec

/-- The length of a text for the editor. -/
def units (text : List Nat) : Nat := (text.map utf16Len).sum

/-- The position after a text: lines are counted from zero, and so are the units since the last line feed. -/
def positionAfter (text : List Nat) : Position :=
  text.foldl (fun p c => if c = 10 then ⟨p.line + 1, 0⟩ else ⟨p.line, p.character + utf16Len c⟩) ⟨0, 0⟩

/-- The editor replaces `old`, which comes after `before`, and says so. -/
def Describes (change : ContentChange) (doc doc' : List Nat) : Prop :=
  ∃ before old after, doc = before ++ (old ++ after) ∧ doc' = before ++ (change.text ++ after) ∧
    change.start = positionAfter before ∧ change.rangeLength = units old

/-- What happens in the editor: the event, and the editor when it is handled. Nothing is said about the text after
several changes at once. -/
inductive Happens [DecidableEq U] (w : World U) : PluginEvent U → World U → Prop
  | opened (u : U) (doc : List Nat) : Happens w (.opened u) { w with text := fun v => if v = u then doc else w.text v }
  | changed (u : U) (change : ContentChange) (doc : List Nat) : Describes change (w.text u) doc →
      Happens w (.changed u [change]) { w with text := fun v => if v = u then doc else w.text v }
  | severalChanges (u : U) (changes : List ContentChange) (doc : List Nat) : changes.length ≠ 1 →
      Happens w (.changed u changes) { w with text := fun v => if v = u then doc else w.text v }
  | closed (u : U) : Happens w (.closed u) w
  | activated (active : Option U) : Happens w .activated { w with active }
  | asked (u : U) : Happens w (.asked u) w

/-- A sequence of events from `w` on. All the documents that the plugin knows meet a condition after each of them. -/
def HappenAll [DecidableEq U] (known : U → Bool) (ok : List Nat → Prop) : World U → List (PluginEvent U × World U) → Prop
  | _, [] => True
  | w, (event, w') :: rest =>
    Happens w event w' ∧ (∀ u, known u = true → ok (w'.text u)) ∧ HappenAll known ok w' rest

/-- The editor at the end. -/
def lastWorld (w : World U) : List (PluginEvent U × World U) → World U
  | [] => w
  | (_, w') :: rest => lastWorld w' rest

/-- A backend that is right about documents that meet a condition: it does not panic, and from the file of a document it
makes the file of the changed document. `IsFile f doc` is that `f` is the file of the document. -/
structure Faithful (b : Backend φ) (ok : List Nat → Prop) (IsFile : φ → List Nat → Prop) : Prop where
  parse : ∀ doc, ok doc → ∃ f, b.parse (utf8Text doc) = some f ∧ IsFile f doc
  edit : ∀ doc doc' change f, ok doc → ok doc' → Describes change doc doc' → IsFile f doc →
    ∃ f', b.edit f [changeRecord doc' change] = some f' ∧ IsFile f' doc'

/-- The editor decodes the strings of the records that it gets. `code` is the number of a byte. -/
def Decoded (code : α → Nat) : List (VsEdit α) → List (VsEdit Nat) → Prop
  | [], [] => True
  | r :: rs, r' :: rs' => r'.delete = r.delete ∧ utf8Text r'.insert = r.insert.map code ∧ Decoded code rs rs'
  | _, _ => False

/-- The editor replaces what is between two positions, for each record; the positions are those of the document before
the changes. -/
def editorReplaces (doc : List Nat) (records : List (VsEdit Nat)) : List Nat :=
  splice doc 0 (records.map fun r =>
    (⟨offsetAt doc (toVsRange doc r.delete).1, offsetAt doc (toVsRange doc r.delete).2⟩, r.insert))

end Fall.Spec
