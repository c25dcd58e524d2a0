import Verif.Spec.Convert
import Verif.Spec.Lex

/-!
What remains of texts and trees if white space is left out.
-/

namespace Fall.Spec

/-- The tokens with their texts. -/
def tokenWords : List Nat → List Token → List (NodeType × List Nat)
  | _, [] => []
  | text, t :: ts => (t.ty, text.take t.len) :: tokenWords (text.drop t.len) ts

/-- The tokens that are not whitespace, with their texts. -/
def inked (isWs : NodeType → Bool) (text : List Nat) (tokens : List Token) : List (NodeType × List Nat) :=
  (tokenWords text tokens).filter fun t => !isWs t.1

/-- The calls for a tree without the leaves that are whitespace and without the lengths. -/
def inkedOps (isWs : NodeType → Bool) (ops : List BuilderOp) : List BuilderOp :=
  ops.flatMap fun
    | .leaf ty _ => if isWs ty then [] else [.leaf ty 0]
    | op => [op]

/-- Where a string of the grammar is found in the text, the lexer finds a token with at least this string. -/
def WholeWords (d : Definition) (text : List Nat) : Prop :=
  ∀ (ty : Nat) (w : List Nat), .contextualToken ty w ∈ d.rules →
    ∀ rest, w ++ rest <:+ text → w.length ≤ (d.lexer (w ++ rest)).len

end Fall.Spec
