import Verif.Spec.Static
import Verif.Spec.Tree

/-!
Vocabulary for what the typed accessors of a tree rely on: nodes of a type have children of some types, or are
inside of nodes of another type. And static analyses of grammars for these.
-/

namespace Fall.Spec

/-- Every node of type `T` has a child whose type is one of `S`. -/
def HasChild (f : File α) (T : NodeType) (S : List NodeType) : Prop :=
  ∀ n, f.ty n = some T → ∃ c t, Child f n c ∧ f.ty c = some t ∧ t ∈ S

/-- No node of type `T` has a child whose type is one of `S`. -/
def NoChild (f : File α) (T : NodeType) (S : List NodeType) : Prop :=
  ∀ n c t, f.ty n = some T → Child f n c → f.ty c = some t → t ∉ S

/-- Every node of type `T` is inside of a node of type `A`. -/
def InsideOf (f : File α) (T A : NodeType) : Prop :=
  ∀ n, f.ty n = some T → ∃ a, Desc f a n ∧ f.ty a = some A

/-- No token of the type is made by the lexer. -/
def NeverLexed (lexer : Lexer α) (T : NodeType) : Prop := ∀ text, (lexer text).ty ≠ T

section
variable (g : Grammar)

/-- What the expression reads may be without a node or token of one of the types `S`, not looking into nodes. -/
inductive Lacks (S : List NodeType) : Nat → Prop
  | pub {e ty body : Nat} {b : Bool} : g.rules[e]? = some (.pub ty body b) →
    (∀ t, g.nodeTypes[ty]? = some t → t ∉ S) → Lacks S e
  | pubReplaced {e ty ty' body : Nat} : g.rules[e]? = some (.pub ty body true) → Replaces g ty' →
    (∀ t, g.nodeTypes[ty']? = some t → t ∉ S) → Lacks S e
  | pubReplace {e ty body : Nat} : g.rules[e]? = some (.pubReplace ty body) → Lacks S body → Lacks S e
  | or {e p : Nat} {ps : List Nat} : g.rules[e]? = some (.or ps) → p ∈ ps → Lacks S p → Lacks S e
  | and {e : Nat} {ps : List Nat} {c : Option Nat} : g.rules[e]? = some (.and ps c) →
    (∀ p, p ∈ ps.take (c.getD ps.length) → Lacks S p) → Lacks S e
  | token {e ty : Nat} : g.rules[e]? = some (.token ty) → (∀ t, g.nodeTypes[ty]? = some t → t ∉ S) → Lacks S e
  | contextual {e ty : Nat} {w : List Nat} : g.rules[e]? = some (.contextualToken ty w) →
    (∀ t, g.nodeTypes[ty]? = some t → t ∉ S) → Lacks S e
  | any {e : Nat} : g.rules[e]? = some .any → Lacks S e
  | eof {e : Nat} : g.rules[e]? = some .eof → Lacks S e
  | opt {e body : Nat} : g.rules[e]? = some (.opt body) → Lacks S e
  | not {e body : Nat} : g.rules[e]? = some (.not body) → Lacks S e
  | rep {e body : Nat} : g.rules[e]? = some (.rep body) → Lacks S e
  | isIn {e c : Nat} : g.rules[e]? = some (.isIn c) → Lacks S e
  | prevIs {e : Nat} {tys : List Nat} : g.rules[e]? = some (.prevIs tys) → Lacks S e
  | layer {e l body : Nat} : g.rules[e]? = some (.layer l body) → Lacks S e
  | withSkip {e l body : Nat} : g.rules[e]? = some (.withSkip l body) → Lacks S body → Lacks S e
  | atom {e p : Nat} {table : PrattTable} : g.rules[e]? = some (.pratt table) → p ∈ table.atoms → Lacks S p → Lacks S e
  | pre {e : Nat} {p : Prefix} {table : PrattTable} : g.rules[e]? = some (.pratt table) → p ∈ table.prefixes →
    (∀ t, g.nodeTypes[p.ty]? = some t → t ∉ S) → Lacks S e
  | op {e : Nat} {p : Infix} {table : PrattTable} : g.rules[e]? = some (.pratt table) → p ∈ table.infixes →
    (∀ t, g.nodeTypes[p.ty]? = some t → t ∉ S) → Lacks S e
  | enter {e c body : Nat} : g.rules[e]? = some (.enter c body) → Lacks S body → Lacks S e
  | exit {e c body : Nat} : g.rules[e]? = some (.exit c body) → Lacks S body → Lacks S e
  | call {e body : Nat} {args : List (Nat × Nat)} : g.rules[e]? = some (.call body args) → Lacks S body → Lacks S e
  | var {e i a : Nat} : g.rules[e]? = some (.var i) → PassedAs g i a → Lacks S a → Lacks S e
  | inject {e pre body : Nat} : g.rules[e]? = some (.inject pre body) → Lacks S body → Lacks S e
  | cached {e body : Nat} : g.rules[e]? = some (.cached body) → Lacks S body → Lacks S e

/-- The grammar promises that nodes of type `T` have a child of one of the types `S`. If `linked`, the left operands
of operators are counted. -/
structure Promises (T : NodeType) (S : List NodeType) (linked : Bool) : Prop where
  error : T ≠ ERROR
  pub : ∀ (e ty body : Nat) (b : Bool), g.rules[e]? = some (.pub ty body b) →
    g.nodeTypes[ty]? = some T ∨ (b = true ∧ ∃ ty', Replaces g ty' ∧ g.nodeTypes[ty']? = some T) → ¬ Lacks g S body
  contextual : ∀ (e ty : Nat) (w : List Nat), g.rules[e]? = some (.contextualToken ty w) → g.nodeTypes[ty]? ≠ some T
  pre : ∀ (e : Nat) (table : PrattTable) (p : Prefix), g.rules[e]? = some (.pratt table) → p ∈ table.prefixes →
    g.nodeTypes[p.ty]? = some T → Lacks g S p.op → ¬ Lacks g S e
  op : ∀ (e : Nat) (table : PrattTable) (p : Infix), g.rules[e]? = some (.pratt table) → p ∈ table.infixes →
    g.nodeTypes[p.ty]? = some T → Lacks g S p.op → linked = true ∧ ¬ Lacks g S e
  /-- Operands are made by public rules, so that nothing is linked twice. -/
  atoms : linked = true → ∀ (e : Nat) (table : PrattTable) (a : Nat), g.rules[e]? = some (.pratt table) →
    a ∈ table.atoms → ∃ ty body b, g.rules[a]? = some (.pub ty body b)
  inject : linked = true → ∀ e pre body : Nat, g.rules[e]? ≠ some (.inject pre body)

/-- What the expression reads may have a node or token of one of the types `S`, not looking into nodes. -/
inductive Shows (S : List NodeType) : Nat → Prop
  | pub {e ty body : Nat} {b : Bool} {t : NodeType} : g.rules[e]? = some (.pub ty body b) →
    g.nodeTypes[ty]? = some t → t ∈ S → Shows S e
  | pubReplaced {e ty ty' body : Nat} {t : NodeType} : g.rules[e]? = some (.pub ty body true) → Replaces g ty' →
    g.nodeTypes[ty']? = some t → t ∈ S → Shows S e
  | token {e ty : Nat} {t : NodeType} : g.rules[e]? = some (.token ty) → g.nodeTypes[ty]? = some t → t ∈ S → Shows S e
  | contextual {e ty : Nat} {w : List Nat} {t : NodeType} : g.rules[e]? = some (.contextualToken ty w) →
    g.nodeTypes[ty]? = some t → t ∈ S → Shows S e
  | any {e : Nat} : g.rules[e]? = some .any → Shows S e
  | part {e p : Nat} {rule : Expr} : g.rules[e]? = some rule → (∀ ty body b, rule ≠ .pub ty body b) →
    (p, false) ∈ tries rule → Shows S p → Shows S e
  | pre {e : Nat} {p : Prefix} {table : PrattTable} {t : NodeType} : g.rules[e]? = some (.pratt table) →
    p ∈ table.prefixes → g.nodeTypes[p.ty]? = some t → t ∈ S → Shows S e
  | op {e : Nat} {p : Infix} {table : PrattTable} {t : NodeType} : g.rules[e]? = some (.pratt table) →
    p ∈ table.infixes → g.nodeTypes[p.ty]? = some t → t ∈ S → Shows S e
  | call {e body : Nat} {args : List (Nat × Nat)} : g.rules[e]? = some (.call body args) → Shows S body → Shows S e
  | var {e i a : Nat} : g.rules[e]? = some (.var i) → PassedAs g i a → Shows S a → Shows S e

/-- The grammar keeps children of the types `S` out of nodes of the types `P`. -/
structure Bars (P : NodeType → Bool) (S : List NodeType) : Prop where
  noError : ERROR ∉ S
  pub : ∀ (e ty body : Nat) (b : Bool), g.rules[e]? = some (.pub ty body b) →
    (∃ ty' t, (ty' = ty ∨ (b = true ∧ Replaces g ty')) ∧ g.nodeTypes[ty']? = some t ∧ P t = true) → ¬ Shows g S body
  pre : ∀ (e : Nat) (table : PrattTable) (p : Prefix) (t : NodeType), g.rules[e]? = some (.pratt table) →
    p ∈ table.prefixes → g.nodeTypes[p.ty]? = some t → P t = true → ¬ Shows g S e
  op : ∀ (e : Nat) (table : PrattTable) (p : Infix) (t : NodeType), g.rules[e]? = some (.pratt table) →
    p ∈ table.infixes → g.nodeTypes[p.ty]? = some t → P t = true → ¬ Shows g S e
  inject : ∀ e pre body : Nat, g.rules[e]? ≠ some (.inject pre body)

/-- What the expression reads, with the values `V` of the parameters, may have a node of type `T` that is not inside of
one of type `A`. -/
inductive Outside (T A : NodeType) : Nat → Args → Prop
  | pub {e ty body : Nat} {b : Bool} {V : Args} : g.rules[e]? = some (.pub ty body b) → g.nodeTypes[ty]? = some T →
    Outside T A e V
  | pubBody {e ty body : Nat} {b : Bool} {V : Args} : g.rules[e]? = some (.pub ty body b) →
    g.nodeTypes[ty]? ≠ some A ∨ (b = true ∧ ∃ ty', Replaces g ty' ∧ g.nodeTypes[ty']? ≠ some A) →
    Outside T A body V → Outside T A e V
  | pubReplaced {e ty ty' body : Nat} {V : Args} : g.rules[e]? = some (.pub ty body true) → Replaces g ty' →
    g.nodeTypes[ty']? = some T → Outside T A e V
  | contextual {e ty : Nat} {w : List Nat} {V : Args} : g.rules[e]? = some (.contextualToken ty w) →
    g.nodeTypes[ty]? = some T → Outside T A e V
  | part {e p : Nat} {rule : Expr} {V : Args} : g.rules[e]? = some rule → (∀ ty body b, rule ≠ .pub ty body b) →
    (p, false) ∈ tries rule → Outside T A p V → Outside T A e V
  | pre {e : Nat} {p : Prefix} {table : PrattTable} {V : Args} : g.rules[e]? = some (.pratt table) →
    p ∈ table.prefixes → g.nodeTypes[p.ty]? = some T → Outside T A e V
  | op {e : Nat} {p : Infix} {table : PrattTable} {V : Args} : g.rules[e]? = some (.pratt table) →
    p ∈ table.infixes → g.nodeTypes[p.ty]? = some T → Outside T A e V
  | call {e body : Nat} {args : List (Nat × Nat)} {V V' : Args} : g.rules[e]? = some (.call body args) →
    Binds g V args V' → Outside T A body V' → Outside T A e V
  | var {e i a : Nat} {V : Args} : g.rules[e]? = some (.var i) → V[i]? = some (some a) → Outside T A a V →
    Outside T A e V

/-- Types of the nodes that readings have. -/
inductive Builds : NodeType → Prop
  | error : Builds ERROR
  | pub {e ty body : Nat} {b : Bool} {t : NodeType} : g.rules[e]? = some (.pub ty body b) →
    g.nodeTypes[ty]? = some t → Builds t
  | pubReplaced {e ty ty' body : Nat} {t : NodeType} : g.rules[e]? = some (.pub ty body true) → Replaces g ty' →
    g.nodeTypes[ty']? = some t → Builds t
  | pre {e : Nat} {p : Prefix} {table : PrattTable} {t : NodeType} : g.rules[e]? = some (.pratt table) →
    p ∈ table.prefixes → g.nodeTypes[p.ty]? = some t → Builds t
  | op {e : Nat} {p : Infix} {table : PrattTable} {t : NodeType} : g.rules[e]? = some (.pratt table) →
    p ∈ table.infixes → g.nodeTypes[p.ty]? = some t → Builds t

end

end Fall.Spec
