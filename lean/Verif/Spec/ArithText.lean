import Verif.Spec.LexLongest

/-!
Arithmetic expressions as texts.
-/

namespace Fall.Spec

/-- A digit. -/
def DecimalDigit (c : Nat) : Prop := 48 ≤ c ∧ c ≤ 57

/-- White space. -/
def BlankChar (c : Nat) : Prop := 9 ≤ c ∧ c ≤ 13 ∨ c = 32

/-- Texts of arithmetic expressions. Blanks may be anywhere but in numbers. -/
inductive ArithText : List Nat → Prop
  | number {ds : List Nat} : ds ≠ [] → (∀ d ∈ ds, DecimalDigit d) → ArithText ds
  | before {c : Nat} {s : List Nat} : BlankChar c → ArithText s → ArithText (c :: s)
  | after {c : Nat} {s : List Nat} : BlankChar c → ArithText s → ArithText (s ++ [c])
  | plus {s t : List Nat} : ArithText s → ArithText t → ArithText (s ++ 43 :: t)
  | minus {s t : List Nat} : ArithText s → ArithText t → ArithText (s ++ 45 :: t)
  | times {s t : List Nat} : ArithText s → ArithText t → ArithText (s ++ 42 :: t)
  | over {s t : List Nat} : ArithText s → ArithText t → ArithText (s ++ 47 :: t)
  | neg {s : List Nat} : ArithText s → ArithText (45 :: s)
  | fact {s : List Nat} : ArithText s → ArithText (s ++ [33])
  | paren {s : List Nat} : ArithText s → ArithText (40 :: (s ++ [41]))

end Fall.Spec
