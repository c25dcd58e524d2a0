import Verif.Model.Syn

/-!
What the arguments of rules mean.
-/

namespace Fall.Spec

/-- The expressions that an expression consists of. A call is not made of its rule and its arguments. -/
def components : Expr → List Nat
  | .pub _ body _ | .pubReplace _ body | .rep body | .opt body | .not body | .enter _ body | .exit _ body
  | .cached body => [body]
  | .or parts | .and parts _ => parts
  | .withSkip first body => [first, body]
  | .layer l e => [l, e]
  | .pratt table => table.atoms ++ table.prefixes.map (·.op) ++ table.infixes.map (·.op)
  | .inject pre body => [pre, body]
  | .token _ | .contextualToken _ _ | .eof | .any | .isIn _ | .call _ _ | .var _ | .prevIs _ => []

/-- The parameter is free in the expression: it occurs in it, or in a rule used by it, and no call in between gives it a
value. -/
inductive Mentions (g : Grammar) : Nat → Nat → Prop where
  | var : g.rules[e]? = some (.var i) → Mentions g e i
  | component : g.rules[e]? = some x → c ∈ components x → Mentions g c i → Mentions g e i
  | rule : g.rules[e]? = some (.call body args) → Mentions g body i → (∀ a, (i, a) ∉ args) → Mentions g e i
  | argument : g.rules[e]? = some (.call body args) → (k, a) ∈ args → Mentions g a i → Mentions g e i

/-- The expression mentions the parameter, or another one whose value leads to it. -/
inductive Reaches (g : Grammar) (args : List (Option Nat)) (e : Nat) : Nat → Prop where
  | mentions : Mentions g e i → Reaches g args e i
  | value : Reaches g args e k → args[k]? = some (some a) → Mentions g a i → Reaches g args e i

/-- Every argument of a call is a parameter that is passed on, and for which there is no argument before it, or mentions no
parameters. No parameter has two arguments. -/
def PlainArguments (g : Grammar) : Prop :=
  ∀ (e body : Nat) (as : List (Nat × Nat)), g.rules[e]? = some (.call body as) → (as.map (·.1)).Nodup ∧
    ∀ l p a r, as = l ++ (p, a) :: r →
    (∃ i, g.rules[a]? = some (.var i) ∧ ∀ x, (i, x) ∉ l) ∨
    ((∀ i, g.rules[a]? ≠ some (.var i)) ∧ ∀ i, ¬ Mentions g a i)

/-- The values of the parameters mention no parameters. -/
def ClosedArgs (g : Grammar) (args : List (Option Nat)) : Prop :=
  ∀ i a : Nat, args[i]? = some (some a) → ∀ k, ¬ Mentions g a k

/-- The same outcome with other values of the parameters. -/
def withArgs (args : List (Option Nat)) : Out β → Out β
  | .ok b s => .ok b { s with args := args }
  | .panic => .panic
  | .timeout => .timeout

end Fall.Spec
