import Verif.Model.Syn

/-!
Grammars in BNF: productions, each with alternatives of symbols.
-/

namespace Fall.Spec

/-- A grammar: its productions, their alternatives, and the symbols of these as types of tokens: 103 is a terminal and
104 a nonterminal. -/
abbrev Bnf := List (List (List NodeType))

/-- Productions have alternatives, and alternatives have symbols. -/
def Bnf.Proper (g : Bnf) : Prop :=
  ∀ p, p ∈ g → p ≠ [] ∧ ∀ a, a ∈ p → a ≠ [] ∧ ∀ t, t ∈ a → t = 103 ∨ t = 104

/-- The tokens of the alternatives, with 102 (`|`) between them. -/
def altTokens : List (List NodeType) → List NodeType
  | [] => []
  | [a] => a
  | a :: b :: rest => a ++ 102 :: altTokens (b :: rest)

/-- The tokens of a production: a nonterminal, 101 (`->`) and the alternatives. -/
def prodTokens (p : List (List NodeType)) : List NodeType := 104 :: 101 :: altTokens p

/-- The tokens of a grammar. -/
def Bnf.tokens (g : Bnf) : List NodeType := g.flatMap prodTokens

/-- The node of a symbol. -/
def symbolTree (t : NodeType) : List Event := [.start 109 none, .token t 1, .fin]

/-- The node of an alternative. -/
def altTree (a : List NodeType) : List Event := .start 108 none :: (a.flatMap symbolTree ++ [.fin])

/-- The nodes of the alternatives, with the tokens between them. -/
def altTrees : List (List NodeType) → List Event
  | [] => []
  | [a] => altTree a
  | a :: b :: rest => altTree a ++ .token 102 1 :: altTrees (b :: rest)

/-- The node of a production, with a node for what is behind the arrow. -/
def prodTree (p : List (List NodeType)) : List Event :=
  .start 106 none :: .token 104 1 :: .token 101 1 :: .start 107 none :: (altTrees p ++ [.fin, .fin])

/-- The tree of a grammar. -/
def Bnf.tree (g : Bnf) : List Event := .start 105 none :: (g.flatMap prodTree ++ [.fin])

end Fall.Spec
