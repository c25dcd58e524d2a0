import Verif.Spec.Analysis

/-!
What the analysis of grammars expects of the nodes of a file, and where it panics.
-/

namespace Fall.Spec

/-- References have names and are inside of rules; parameters, calls, tokens and attributes have names; methods have
a selector with a name; the text of a string is in quotes. -/
structure Shaped (f : File UInt8) : Prop where
  ref : ∀ n, OfType f 135 n → (∃ s, RefName f n s) ∧ ∃ rule, EnclosingRule f n rule
  named : ∀ t n, t ∈ [134, 140, 142, 145] → OfType f t n → ∃ s, Ident f n s
  method : ∀ n, OfType f 153 n → ∃ sel s, FirstChild f n (OfType f 154) sel ∧ Ident f sel s
  quoted : ∀ n s, OfType f 128 n → f.textOf n = some s → ∃ body, Quoted s body

/-- A rule with a name and an attribute of operators, but without a body. -/
def Bodyless (f : File UInt8) (rule : NodeId) : Prop :=
  (∃ i, FirstChild f rule (OfType f 130) i) ∧ (∃ kind a, OperatorKind f rule kind a) ∧
    ∀ b, ¬ FirstChild f rule (IsExpr f) b

/-- A trait of the first `ast` block has no name. -/
def NamelessTrait (f : File UInt8) : Prop :=
  ∃ ast t, FirstChild f 0 (OfType f 149) ast ∧ Child f ast t ∧ OfType f 152 t ∧ ∀ s, ¬ Ident f t s

/-- An item of the type without a name comes before all items of the name `s`. -/
def NamelessBefore (f : File UInt8) (ast : NodeId) (ty : NodeType) (s : List UInt8) : Prop :=
  ∃ n, FirstChild f ast (fun n => OfType f ty n ∧ (Ident f n s ∨ ∀ s', ¬ Ident f n s')) n ∧ ∀ s', ¬ Ident f n s'

/-- The look-up of what the method selects comes to an item without a name. -/
def NamelessItem (f : File UInt8) (method : NodeId) : Prop :=
  ∃ sel s ast, FirstChild f method (OfType f 154) sel ∧ Ident f sel s ∧ FirstChild f 0 (OfType f 149) ast ∧
    (NamelessBefore f ast 150 s ∨ ((∀ n, ¬ AstItem f 150 s n) ∧ NamelessBefore f ast 151 s))

/-- The queries that panic: about operator rules without a body, methods that select an item behind one without a
name, and the traits of nodes if a trait has no name. -/
def PanicsAt (f : File UInt8) : Query → Prop
  | .prattVariant rule => Bodyless f rule
  | .resolveMethod m => NamelessItem f m
  | .astNodeTraits _ => NamelessTrait f
  | .resolveRef _ | .resolveCall _ | .allLexRules | .allSynRules | .allContexts | .unusedRules => False

end Fall.Spec
