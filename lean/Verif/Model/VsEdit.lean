import Verif.Model.Text

/-!
Model of the edit conversion of the editor backend:
`code/generic_backend/src/lib.rs` 188-222.
-/

namespace Fall

/-- `code/generic_backend/src/lib.rs` 188-192. -/
structure VsEdit (α : Type u) where
  delete : TextRange
  insert : List α
deriving DecidableEq, Repr

/-- `code/generic_backend/src/lib.rs` 194-200. -/
def fromVsEdits (text : Text α) (edits : List (VsEdit α)) : Option (TextEdit α) :=
  (edits.foldlM (fun (b : TextEditBuilder α) e => b.replace e.delete e.insert) (TextEditBuilder.new text)).bind
    TextEditBuilder.build

/-- The loop of `code/generic_backend/src/lib.rs` 205-219 from a given `result` and `offset`. -/
def toVsEditsLoop : List (TextEditOp α) → List (VsEdit α) → Nat → Option (List (VsEdit α))
  | [], result, _ => some result
  | .copy range :: ops, result, offset =>
    if range.start ≠ offset then
      (TextRange.fromTo offset range.start).bind fun del =>
        toVsEditsLoop ops (result ++ [⟨del, []⟩]) range.stop
    else toVsEditsLoop ops result range.stop
  | .insert text :: ops, result, offset =>
    (TextRange.fromLen offset 0).bind fun del =>
      toVsEditsLoop ops (result ++ [⟨del, text⟩]) offset

/-- `code/generic_backend/src/lib.rs` 202-222. -/
def toVsEdits (edit : TextEdit α) : Option (List (VsEdit α)) :=
  toVsEditsLoop edit.ops [] 0

end Fall
