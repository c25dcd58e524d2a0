import Verif.Spec.Analysis
import Verif.Spec.Shaped
import Verif.Model.FallEditor

/-!
Vocabulary for the editor features for Fall grammars.
-/

namespace Fall.Spec

/-! ## The caret -/

/-- Of the nodes with a property, the one that begins last. -/
def Rightmost (f : File α) (P : NodeId → Prop) (l : NodeId) : Prop :=
  P l ∧ ∀ l', P l' → ∀ r r', f.range l = some r → f.range l' = some r' → r'.start ≤ r.start

/-- The leaf that a caret is at: of two leaves the left one, but the right one if that is whitespace. -/
def CaretLeaf (f : File α) (isWs : NodeType → Bool) (offset : Nat) (l : NodeId) : Prop :=
  ∃ left ty, Leftmost f (LeafAt f offset) left ∧ f.ty left = some ty ∧
    (isWs ty = false ∧ l = left ∨ isWs ty = true ∧ Rightmost f (LeafAt f offset) l)

/-- The innermost node around `l` with the property. -/
def Innermost (f : File α) (l : NodeId) (P : NodeId → Prop) (n : NodeId) : Prop :=
  Desc f n l ∧ P n ∧ ∀ m, Desc f m l → P m → Desc f m n

/-! ## Uses and declarations -/

/-- The node is a use of something, and `ref` is what names it: a reference names itself, a method has a selector, and
the name of a called rule names it. -/
inductive IsReference (f : File UInt8) : NodeId → NodeId → Prop where
  | expr : OfType f 135 n → IsReference f n n
  | method : OfType f 153 n → FirstChild f n (OfType f 154) sel → IsReference f n sel
  | call : OfType f 130 n → Child f c n → OfType f 140 c → Ident f c name → name ∉ builtInNames →
      RuleNamed f name r → FirstChild f r (OfType f 133) pl → IsReference f n n

/-- The declaration that a reference refers to. -/
def refTarget : RefKind → NodeId
  | .rule r => r
  | .param p => p
  | .token t => t

/-- The declaration that a method selects; there is none if it selects a text. -/
def methodTarget : MethodKind → Option NodeId
  | .astNode n _ => some n
  | .astClass n _ => some n
  | .token t _ => some t
  | .text _ _ => none

/-- What a use refers to. -/
inductive LeadsTo (f : File UInt8) : NodeId → Option NodeId → Prop where
  | expr : OfType f 135 n → RefersTo f n k → LeadsTo f n (k.map refTarget)
  | method : OfType f 153 n → MethodMeans f n k → LeadsTo f n (k.bind methodTarget)
  | call : OfType f 130 n → Child f c n → OfType f 140 c → Ident f c name → name ∉ builtInNames →
      RuleNamed f name r → FirstChild f r (OfType f 133) pl → LeadsTo f n (some r)

/-- The node of a declaration that is shown: the name of a rule, node or class, and the whole declaration of a token, a
parameter or a rule without a name. -/
def Shown (f : File UInt8) (d i : NodeId) : Prop :=
  ((OfType f 132 d ∨ OfType f 150 d ∨ OfType f 151 d) ∧ FirstChild f d (OfType f 130) i) ∨
  ((OfType f 134 d ∨ OfType f 142 d ∨ (OfType f 132 d ∧ ∀ c, ¬ FirstChild f d (OfType f 130) c)) ∧ i = d)

/-- A caret in the node is about the declaration `d`: it touches the shown part of it, or the node is a use of it. -/
def About (f : File UInt8) (offset : Nat) (n d : NodeId) : Prop :=
  (d = n ∧ ∃ i, Shown f n i ∧ Touches f i offset) ∨ LeadsTo f n (some d)

/-! ## Tests -/

/-- The test that a caret is in. Between two tests it is in the second one. -/
def TestAt (f : File UInt8) (offset : Nat) (test : NodeId) : Prop :=
  ∃ l, Rightmost f (LeafAt f offset) l ∧ Innermost f l (OfType f 143) test

/-- The types of declarations: rules, tokenizers, tests, verbatim blocks and descriptions of trees. -/
def declarationTypes : List NodeType := [132, 141, 143, 148, 149]

/-- The declarations are at the top of the file. -/
def TopDeclarations (f : File UInt8) : Prop := ∀ n t, t ∈ declarationTypes → OfType f t n → Child f 0 n

end Fall.Spec
