import Verif.Model.Grammars

/-!
Arithmetic expressions, as the user of the language of `fall/test/src/arith.fall` thinks of them.
-/

namespace Fall.Spec

/-- Arithmetic expressions: numbers, expressions in parentheses, `-a`, `a!`, `l + r` or `l - r`,
`l * r` or `l / r`. -/
inductive Arith where
  | num
  | paren (a : Arith)
  | neg (a : Arith)
  | fact (a : Arith)
  | sum (minus : Bool) (l r : Arith)
  | prod (slash : Bool) (l r : Arith)
deriving DecidableEq

namespace Arith

/-- The types of the tokens of an expression. -/
def tokens : Arith → List NodeType
  | num => [101]
  | paren a => 107 :: (a.tokens ++ [108])
  | neg a => 103 :: a.tokens
  | fact a => a.tokens ++ [106]
  | sum minus l r => l.tokens ++ (if minus then 103 else 102) :: r.tokens
  | prod slash l r => l.tokens ++ (if slash then 105 else 104) :: r.tokens

/-- The tree of an expression: a node for every number, pair of parentheses and operator. -/
def tree : Arith → List Event
  | num => [.start 112 none, .token 101 1, .fin]
  | paren a => .start 113 none :: .token 107 1 :: (a.tree ++ [.token 108 1, .fin])
  | neg a => .start 115 none :: .token 103 1 :: (a.tree ++ [.fin])
  | fact a => .start 114 none :: (a.tree ++ [.token 106 1, .fin])
  | sum minus l r =>
    .start 111 none :: (l.tree ++ .token (if minus then 103 else 102) 1 :: (r.tree ++ [.fin]))
  | prod slash l r =>
    .start 110 none :: (l.tree ++ .token (if slash then 105 else 104) 1 :: (r.tree ++ [.fin]))

/-- How tightly the outermost operator binds. -/
def level : Arith → Nat
  | sum _ _ _ => 1
  | prod _ _ _ => 2
  | neg _ => 3
  | fact _ => 4
  | num => 5
  | paren _ => 5

/-- Parentheses are where they are needed: the expression is one of the usual grammar of sums of
products of negated factorials, with `+`, `-`, `*` and `/` associating to the left. -/
def Proper : Arith → Prop
  | num => True
  | paren a => a.Proper
  | neg a => 3 ≤ a.level ∧ a.Proper
  | fact a => 4 ≤ a.level ∧ a.Proper
  | sum _ l r => 2 ≤ r.level ∧ l.Proper ∧ r.Proper
  | prod _ l r => 2 ≤ l.level ∧ 3 ≤ r.level ∧ l.Proper ∧ r.Proper

instance Proper.dec : (a : Arith) → Decidable a.Proper
  | num => .isTrue trivial
  | paren a => Proper.dec a
  | neg a => @instDecidableAnd _ _ _ (Proper.dec a)
  | fact a => @instDecidableAnd _ _ _ (Proper.dec a)
  | sum _ l r => @instDecidableAnd _ _ _ (@instDecidableAnd _ _ (Proper.dec l) (Proper.dec r))
  | prod _ l r => @instDecidableAnd _ _ _ (@instDecidableAnd _ _ _
      (@instDecidableAnd _ _ (Proper.dec l) (Proper.dec r)))

end Arith

end Fall.Spec
