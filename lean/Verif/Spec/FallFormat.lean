import Verif.Spec.FallEditor

/-! Vocabulary for the formatter of grammars. -/

namespace Fall.Spec

/-- `b` is the sibling right after `a`. -/
def NextTo (f : File α) (a b : NodeId) : Prop := ∃ p pre post, f.children p = some (pre ++ a :: b :: post)

/-- There is no newline in the text of the node. -/
def OneLine (f : File UInt8) (n : NodeId) : Prop := ∃ s, f.textOf n = some s ∧ 10 ∉ s

/-- The node comes right after `<` or right before `>`. -/
def Tight (f : File UInt8) (n : NodeId) : Prop :=
  (∃ a, OfType f 123 a ∧ NextTo f a n) ∨ ∃ b, OfType f 124 b ∧ NextTo f n b

/-- The node is next to `|`. -/
def ByPipe (f : File UInt8) (n : NodeId) : Prop := ∃ p, OfType f 112 p ∧ (NextTo f p n ∨ NextTo f n p)

/-- A space is to be put after the node: it is between `|` and something else than whitespace, which has no newline. -/
def SpaceAfter (f : File UInt8) (n : NodeId) : Prop :=
  ∃ m, NextTo f n m ∧
    ((OfType f 112 n ∧ ¬ OfType f 100 m ∧ OneLine f m) ∨ (OfType f 112 m ∧ ¬ OfType f 100 n ∧ OneLine f n))

/-- Whitespace to be removed. -/
def Surplus (f : File UInt8) (n : NodeId) : Prop := OfType f 100 n ∧ OneLine f n ∧ Tight f n

/-- Whitespace to be replaced by a single space: it does not consist of one character. -/
def Ragged (f : File UInt8) (n : NodeId) : Prop :=
  OfType f 100 n ∧ OneLine f n ∧ ByPipe f n ∧ ∃ s, f.textOf n = some s ∧ s.length ≠ 1

/-- What is put after a node. -/
def GapAfter (f : File UInt8) (n : NodeId) (g : List UInt8) : Prop :=
  (SpaceAfter f n ∧ g = [32]) ∨ (¬ SpaceAfter f n ∧ g = [])

mutual

/-- What formatting makes of a node. -/
inductive Formatted (f : File UInt8) : NodeId → List UInt8 → Prop
  | removed : Surplus f n → Formatted f n []
  | single : ¬ Surplus f n → Ragged f n → Formatted f n [32]
  | leaf : ¬ Surplus f n → ¬ Ragged f n → f.children n = some [] → f.textOf n = some s → GapAfter f n g →
      Formatted f n (s ++ g)
  | inner : ¬ Surplus f n → ¬ Ragged f n → f.children n = some cs → cs ≠ [] → FormattedAll f cs out → GapAfter f n g →
      Formatted f n (out ++ g)

/-- What formatting makes of a list of nodes. -/
inductive FormattedAll (f : File UInt8) : List NodeId → List UInt8 → Prop
  | nil : FormattedAll f [] []
  | cons : Formatted f n s → FormattedAll f ns t → FormattedAll f (n :: ns) (s ++ t)

end

/-- The byte is a newline or part of an ASCII character that is not blank. -/
def isInk (b : UInt8) : Bool := b == 10 || (b < 128 && b != 32 && !(9 ≤ b && b ≤ 13))

/-- Whitespace consists of blanks, newlines and characters outside of ASCII. -/
def BlankSpaces (f : File UInt8) : Prop :=
  ∀ n s, OfType f 100 n → f.textOf n = some s → ∀ b, b ∈ s → isInk b = true → b = 10

end Fall.Spec
