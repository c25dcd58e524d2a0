import Verif.Model.Lines

/-!
Vocabulary for lines and for symbol search.
-/

namespace Fall.Spec

/-- The contract of `upper_bound` of the crate `ordslice`: in a sorted list it finds the number of
elements that are not greater than `x`. -/
def UpperBound (f : List Nat → Nat → Nat) : Prop :=
  ∀ l x, l.Pairwise (· ≤ ·) → f l x = l.countP (decide <| · ≤ x)

/-- `text` is `before ++ line ++ after`, where `line` is line number `n`: a maximal piece without
newline, apart from the one that ends it. -/
structure LineAt (text : List Char) (n : Nat) (before line after : List Char) : Prop where
  split : text = before ++ line ++ after
  number : before.count '\n' = n
  begins : before = [] ∨ ∃ b, before = b ++ ['\n']
  ends : ('\n' ∉ line ∧ after = []) ∨ ∃ l, line = l ++ ['\n'] ∧ '\n' ∉ l

/-- Offset `offset` is `col` bytes after the start of line number `n`, and belongs to that line: it is
before its end, or the line is the last one, which is not ended by a newline. -/
def IsAt (text : List Char) (offset n col : Nat) : Prop :=
  ∃ before line after, LineAt text n before line after ∧ offset = utf8Len before + col ∧
    (col < utf8Len line ∨ ('\n' ∉ line ∧ after = []))

/-- How a search through an automaton may use its hints on a name: in a state that cannot match it may
answer no, in a state that always matches it may answer yes, and otherwise it must go on. -/
inductive Searched (a : FstSubSeq) : Nat → List UInt8 → Bool → Prop
  | abandon : a.canMatch s = false → Searched a s name false
  | always : a.willAlwaysMatch s = true → Searched a s name true
  | done : Searched a s [] (a.isMatch s)
  | step : Searched a (a.accept s b) name r → Searched a s (b :: name) r

end Fall.Spec
