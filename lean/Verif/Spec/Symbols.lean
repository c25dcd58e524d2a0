import Verif.Model.Symbols

/-!
Vocabulary for symbol search.
-/

namespace Fall.Spec

/-- The symbol is the first one in the file with its name, up to case. -/
def FirstNamed (lowerStr : List Char → List Char) (found : List Symbol) (s : Symbol) : Prop :=
  ∃ before after, found = before ++ s :: after ∧ ∀ t ∈ before, lowerStr t.name ≠ lowerStr s.name

/-- The symbol has a name that matches what the user typed, up to case and without `#`: as strings of
bytes, the query is a subsequence of the name. -/
def MatchesQuery (lowerChar : Char → List Char) (lowerStr : List Char → List Char) (query : List Char) (s : Symbol) :
    Prop :=
  (bytesOf ((query.filter (· != '#')).flatMap lowerChar)).Sublist (bytesOf (lowerStr s.name))

/-- The symbol defines a type: it is a `struct`, an `enum`, a `trait` or a `type` item. -/
def DefinesType (s : Symbol) : Prop := s.ty = 202 ∨ s.ty = 205 ∨ s.ty = 209 ∨ s.ty = 211

end Fall.Spec
