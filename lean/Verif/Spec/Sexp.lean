import Verif.Model.Syn

/-!
Symbolic expressions: atoms, and lists in parentheses.
-/

namespace Fall.Spec

mutual

/-- An atom, or a list of expressions. -/
inductive Sexp where
  | atom
  | list (items : Sexps)

/-- Expressions one after the other. -/
inductive Sexps where
  | nil
  | cons (first : Sexp) (rest : Sexps)

end

mutual

/-- The tokens of an expression: 103 is an atom, 101 and 102 are parentheses. -/
def Sexp.tokens : Sexp → List NodeType
  | .atom => [103]
  | .list items => 101 :: (items.tokens ++ [102])

/-- The tokens of expressions. -/
def Sexps.tokens : Sexps → List NodeType
  | .nil => []
  | .cons first rest => first.tokens ++ rest.tokens

end

mutual

/-- The tree of an expression: there is a node around a list. -/
def Sexp.tree : Sexp → List Event
  | .atom => [.token 103 1]
  | .list items => .start 105 none :: .token 101 1 :: (items.trees ++ [.token 102 1, .fin])

/-- The trees of expressions. -/
def Sexps.trees : Sexps → List Event
  | .nil => []
  | .cons first rest => first.tree ++ rest.trees

end

/-- The tree of a file. -/
def Sexps.tree (items : Sexps) : List Event := .start 104 none :: (items.trees ++ [.fin])

end Fall.Spec
