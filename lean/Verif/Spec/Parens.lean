import Verif.Spec.LexLongest

/-!
Parentheses of a text.
-/

namespace Fall.Spec

/-- A character of symbolic expressions: a blank, a parenthesis, a letter, a digit or an underscore. -/
def SexpChar (c : Nat) : Prop :=
  9 ≤ c ∧ c ≤ 13 ∨ c = 32 ∨ c = 40 ∨ c = 41 ∨ 48 ≤ c ∧ c ≤ 57 ∨ 65 ≤ c ∧ c ≤ 90 ∨ c = 95 ∨ 97 ≤ c ∧ c ≤ 122

/-- Nowhere have more parentheses been closed than opened, and at the end as many. -/
def ParensMatch (text : List Nat) : Prop :=
  (∀ k, (text.take k).count 41 ≤ (text.take k).count 40) ∧ text.count 40 = text.count 41

end Fall.Spec
