import Verif.Spec.Promise

/-!
Grammars read strictly: nothing that is required may be missing.
-/

namespace Fall.Spec

/-- The rule without its means to go on after errors: commits do nothing and a layer is its body. Only a layer whose
bound is among `N`, those that may read nothing, may be without its body. -/
def strictRule (N : Nat → Bool) : Expr → Expr
  | .and parts _ => .and parts none
  | .layer l body => if N l then .opt body else .withSkip l body
  | rule => rule

/-- The grammar with all rules strict. -/
def strict (N : Nat → Bool) (g : Grammar) : Grammar := { g with rules := g.rules.map (strictRule N) }

/-- There is no ERROR in the file, neither a node nor a token. -/
def Errorless (f : File α) : Prop := ∀ n, f.ty n ≠ some ERROR

end Fall.Spec
