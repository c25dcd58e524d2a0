import Verif.Model.Text

/-!
Specification vocabulary for the text layer. Nothing here refers to the functions of the
model (only to its data types).
-/

namespace Fall.Spec

/-- The bytes `[a, b)` of a text. -/
def bytes (text : List α) (a b : Nat) : List α :=
  (text.drop a).take (b - a)

/-- A list of (range, replacement) pairs is in order from offset `pos` and stays inside a text
of length `len`: each range is well formed and starts at or after the end of the previous one. -/
def InOrder (len : Nat) : Nat → List (TextRange × List α) → Prop
  | pos, [] => pos ≤ len
  | pos, (r, _) :: rest => pos ≤ r.start ∧ r.start ≤ r.stop ∧ InOrder len r.stop rest

/-- Simultaneous replacement of ranges, from offset `pos` of the text on: unchanged bytes up to the
next range, then its replacement, then on after the range; the rest of the text at the end. -/
def splice (text : List α) : Nat → List (TextRange × List α) → List α
  | pos, [] => bytes text pos text.length
  | pos, (r, s) :: rest => bytes text pos r.start ++ s ++ splice text r.stop rest

/-- What a request asks for: the range to go and the text to come. -/
def request : EditReq α → TextRange × List α
  | .insert offset text => (⟨offset, offset⟩, text)
  | .delete range => (range, [])
  | .replace range text => (range, text)

/-- A view whose range is a valid range of its buffer. -/
def ValidView (t : Text α) : Prop :=
  t.range.start ≤ t.range.stop ∧ t.range.stop ≤ t.owned.length

/-- Offset `i` (of a byte) lies in the range. -/
def Covers (r : TextRange) (i : Nat) : Prop := r.start ≤ i ∧ i < r.stop

/-- The copies of a script are in order from `offset`, and the script ends at `len`: the last copied
range ends at `len` and no later operation is missing (insertions may follow). -/
def CopiesInOrder (len : Nat) : Nat → List (TextEditOp α) → Prop
  | offset, [] => offset = len
  | offset, .copy r :: ops => offset ≤ r.start ∧ r.start ≤ r.stop ∧ CopiesInOrder len r.stop ops
  | offset, .insert _ :: ops => CopiesInOrder len offset ops

end Fall.Spec
