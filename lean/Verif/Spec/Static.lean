import Verif.Spec.Runs

/-!
Static analyses of grammars. Each of these is an inductive definition of what may happen; a grammar
passes a check if something bad may not happen.
-/

namespace Fall.Spec

variable (g : Grammar)

/-- `PassedAs i a`: the expression `a` may be the value of parameter number `i`. An argument that is
itself a parameter stands for the value of that parameter. -/
inductive PassedAs : Nat → Nat → Prop
  | direct {e body i a : Nat} {args : List (Nat × Nat)} :
    g.rules[e]? = some (.call body args) → (i, a) ∈ args → (∀ j : Nat, g.rules[a]? ≠ some (.var j)) →
    PassedAs i a
  | indirect {e body i a j b : Nat} {args : List (Nat × Nat)} :
    g.rules[e]? = some (.call body args) → (i, a) ∈ args → g.rules[a]? = some (.var j) → PassedAs j b →
    PassedAs i b

/-- The expression may succeed without consuming a token. -/
inductive Nullable : Nat → Prop
  | pub {e ty body : Nat} {b : Bool} : g.rules[e]? = some (.pub ty body b) → Nullable body → Nullable e
  | pubReplace {e ty body : Nat} : g.rules[e]? = some (.pubReplace ty body) → Nullable body → Nullable e
  | or {e p : Nat} {ps : List Nat} : g.rules[e]? = some (.or ps) → p ∈ ps → Nullable p → Nullable e
  | and {e : Nat} {ps : List Nat} {c : Option Nat} : g.rules[e]? = some (.and ps c) →
    (∀ p, p ∈ ps.take (c.getD ps.length) → Nullable p) → Nullable e
  | contextual {e ty : Nat} : g.rules[e]? = some (.contextualToken ty []) → Nullable e
  | eof {e : Nat} : g.rules[e]? = some .eof → Nullable e
  | opt {e body : Nat} : g.rules[e]? = some (.opt body) → Nullable e
  | not {e body : Nat} : g.rules[e]? = some (.not body) → Nullable e
  | rep {e body : Nat} : g.rules[e]? = some (.rep body) → Nullable e
  | isIn {e c : Nat} : g.rules[e]? = some (.isIn c) → Nullable e
  | prevIs {e : Nat} {tys : List Nat} : g.rules[e]? = some (.prevIs tys) → Nullable e
  | layer {e l body : Nat} : g.rules[e]? = some (.layer l body) → Nullable l → Nullable e
  | withSkip {e l body : Nat} : g.rules[e]? = some (.withSkip l body) → Nullable body → Nullable e
  | atom {e p : Nat} {table : PrattTable} : g.rules[e]? = some (.pratt table) → p ∈ table.atoms →
    Nullable p → Nullable e
  | enter {e c body : Nat} : g.rules[e]? = some (.enter c body) → Nullable body → Nullable e
  | exit {e c body : Nat} : g.rules[e]? = some (.exit c body) → Nullable body → Nullable e
  | call {e body : Nat} {args : List (Nat × Nat)} : g.rules[e]? = some (.call body args) →
    Nullable body → Nullable e
  | var {e i a : Nat} : g.rules[e]? = some (.var i) → PassedAs g i a → Nullable a → Nullable e
  | inject {e pre body : Nat} : g.rules[e]? = some (.inject pre body) → Nullable pre → Nullable body →
    Nullable e
  | cached {e body : Nat} : g.rules[e]? = some (.cached body) → Nullable body → Nullable e

/-- `LeftPart e e'`: running `e` may run its part `e'` at the same position. -/
inductive LeftPart : Nat → Nat → Prop
  | pub {e ty body : Nat} {b : Bool} : g.rules[e]? = some (.pub ty body b) → LeftPart e body
  | pubReplace {e ty body : Nat} : g.rules[e]? = some (.pubReplace ty body) → LeftPart e body
  | or {e p : Nat} {ps : List Nat} : g.rules[e]? = some (.or ps) → p ∈ ps → LeftPart e p
  | and {e p : Nat} {before after : List Nat} {c : Option Nat} :
    g.rules[e]? = some (.and (before ++ p :: after) c) → (∀ q, q ∈ before → Nullable g q) → LeftPart e p
  | opt {e body : Nat} : g.rules[e]? = some (.opt body) → LeftPart e body
  | not {e body : Nat} : g.rules[e]? = some (.not body) → LeftPart e body
  | rep {e body : Nat} : g.rules[e]? = some (.rep body) → LeftPart e body
  | bound {e l body : Nat} : g.rules[e]? = some (.layer l body) → LeftPart e l
  | layer {e l body : Nat} : g.rules[e]? = some (.layer l body) → LeftPart e body
  | first {e l body : Nat} : g.rules[e]? = some (.withSkip l body) → LeftPart e l
  | withSkip {e l body : Nat} : g.rules[e]? = some (.withSkip l body) → LeftPart e body
  | atom {e p : Nat} {table : PrattTable} : g.rules[e]? = some (.pratt table) → p ∈ table.atoms →
    LeftPart e p
  | pre {e : Nat} {p : Prefix} {table : PrattTable} : g.rules[e]? = some (.pratt table) →
    p ∈ table.prefixes → LeftPart e p.op
  | op {e : Nat} {p : Infix} {table : PrattTable} : g.rules[e]? = some (.pratt table) →
    Nullable g e → p ∈ table.infixes → LeftPart e p.op
  | enter {e c body : Nat} : g.rules[e]? = some (.enter c body) → LeftPart e body
  | exit {e c body : Nat} : g.rules[e]? = some (.exit c body) → LeftPart e body
  | injected {e pre body : Nat} : g.rules[e]? = some (.inject pre body) → LeftPart e pre
  | inject {e pre body : Nat} : g.rules[e]? = some (.inject pre body) → Nullable g pre → LeftPart e body
  | cached {e body : Nat} : g.rules[e]? = some (.cached body) → LeftPart e body

/-- Values of parameters: the expression given to parameter `i`, if there is one, is at index `i`. -/
abbrev Args := List (Option Nat)

/-- All values are passed to the parameters somewhere in the grammar. -/
def Args.Passed (A : Args) : Prop := ∀ i a : Nat, A[i]? = some (some a) → PassedAs g i a

/-- `Binds A args A'`: the arguments `args`, set one after the other, make `A'` of the values `A`. -/
inductive Binds : Args → List (Nat × Nat) → Args → Prop
  | nil {A : Args} : Binds A [] A
  | value {A A' : Args} {i a : Nat} {args : List (Nat × Nat)} : i < A.length →
    (∀ j : Nat, g.rules[a]? ≠ some (.var j)) → Binds (A.set i (some a)) args A' → Binds A ((i, a) :: args) A'
  | passOn {A A' : Args} {i a j b : Nat} {args : List (Nat × Nat)} : i < A.length →
    g.rules[a]? = some (.var j) → A[j]? = some (some b) → Binds (A.set i (some b)) args A' → Binds A ((i, a) :: args) A'

/-- `LeftCalls e A e' A'`: running `e` with the values `A` of the parameters may run `e'` with the values `A'`
at the same position. -/
inductive LeftCalls : Nat → Args → Nat → Args → Prop
  | part {e e' : Nat} {A : Args} : LeftPart g e e' → LeftCalls e A e' A
  | call {e body : Nat} {args : List (Nat × Nat)} {A A' : Args} : g.rules[e]? = some (.call body args) →
    Binds g A args A' → LeftCalls e A body A'
  | var {e i a : Nat} {A : Args} : g.rules[e]? = some (.var i) → A[i]? = some (some a) → LeftCalls e A a A

/-- A chain of `n` runs at one position, each a part of the one before, below a run of `e` with the values `A`. -/
inductive LeftChain : Nat → Nat → Args → Prop
  | nil {e : Nat} {A : Args} : LeftChain 0 e A
  | cons {n e e' : Nat} {A A' : Args} : LeftCalls g e A e' A' → LeftChain n e' A' → LeftChain (n + 1) e A

/-- Nothing that can match nothing is repeated or used as an operator. -/
structure NoEmptyRounds : Prop where
  rep : ∀ e body : Nat, g.rules[e]? = some (.rep body) → ¬ Nullable g body
  prefixes : ∀ (e : Nat) (table : PrattTable) (p : Prefix), g.rules[e]? = some (.pratt table) → p ∈ table.prefixes →
    ¬ Nullable g p.op
  infixes : ∀ (e : Nat) (table : PrattTable) (p : Infix), g.rules[e]? = some (.pratt table) → p ∈ table.infixes →
    ¬ Nullable g p.op

/-- The grammar has no unbounded left recursion: at most `R` runs are nested at one position. And it does not
repeat what can match nothing. -/
structure Terminating (R : Nat) : Prop where
  chains : ∀ (n e : Nat) (A : Args), A.Passed g → LeftChain g n e A → n ≤ R
  rounds : NoEmptyRounds g

/-- `LeftReaches e e'`: `e'` may be run at the position where `e` begins, as part of `e`; a parameter may have any
value that is passed somewhere. -/
inductive LeftReaches : Nat → Nat → Prop
  | part {a b : Nat} : LeftPart g a b → LeftReaches a b
  | call {e body : Nat} {args : List (Nat × Nat)} : g.rules[e]? = some (.call body args) → LeftReaches e body
  | var {e i a : Nat} : g.rules[e]? = some (.var i) → PassedAs g i a → LeftReaches e a
  | trans {a b c : Nat} : LeftReaches a b → LeftReaches b c → LeftReaches a c

/-- Entries of the cache without tokens are for rules that can match nothing. -/
def EmptyHitsNullable (env : Env) : Prop :=
  ∀ cache evs, env.cache = some (cache, evs) → ∀ off body a nE,
    cache.lookup (off, body) = some (a, nE, 0) → Nullable env.grammar body

/-- What the expression reads may begin with something other than a node. -/
inductive Loose : Nat → Prop
  | token {e ty : Nat} : g.rules[e]? = some (.token ty) → Loose e
  | contextual {e ty : Nat} {w : List Nat} : g.rules[e]? = some (.contextualToken ty w) → Loose e
  | any {e : Nat} : g.rules[e]? = some .any → Loose e
  | cached {e body : Nat} : g.rules[e]? = some (.cached body) → Loose e
  | pubReplace {e ty body : Nat} : g.rules[e]? = some (.pubReplace ty body) → Loose body → Loose e
  | or {e p : Nat} {ps : List Nat} : g.rules[e]? = some (.or ps) → p ∈ ps → Loose p → Loose e
  | and {e p : Nat} {before after : List Nat} {c : Option Nat} :
    g.rules[e]? = some (.and (before ++ p :: after) c) → (∀ q, q ∈ before → Nullable g q) → Loose p → Loose e
  | opt {e body : Nat} : g.rules[e]? = some (.opt body) → Loose body → Loose e
  | rep {e body : Nat} : g.rules[e]? = some (.rep body) → Loose body → Loose e
  | layer {e l body : Nat} : g.rules[e]? = some (.layer l body) → Loose body → Loose e
  | withSkip {e l body : Nat} : g.rules[e]? = some (.withSkip l body) → Loose body → Loose e
  | atom {e p : Nat} {table : PrattTable} : g.rules[e]? = some (.pratt table) → p ∈ table.atoms → Loose p →
    Loose e
  | enter {e c body : Nat} : g.rules[e]? = some (.enter c body) → Loose body → Loose e
  | exit {e c body : Nat} : g.rules[e]? = some (.exit c body) → Loose body → Loose e
  | call {e body : Nat} {args : List (Nat × Nat)} : g.rules[e]? = some (.call body args) → Loose body → Loose e
  | var {e i a : Nat} : g.rules[e]? = some (.var i) → PassedAs g i a → Loose a → Loose e
  | injected {e pre body : Nat} : g.rules[e]? = some (.inject pre body) → Loose pre → Loose e
  | inject {e pre body : Nat} : g.rules[e]? = some (.inject pre body) → Nullable g pre → Loose body → Loose e

/-- The expression may fail. -/
inductive MayFail : Nat → Prop
  | token {e ty : Nat} : g.rules[e]? = some (.token ty) → MayFail e
  | contextual {e ty : Nat} {w : List Nat} : g.rules[e]? = some (.contextualToken ty w) → MayFail e
  | any {e : Nat} : g.rules[e]? = some .any → MayFail e
  | eof {e : Nat} : g.rules[e]? = some .eof → MayFail e
  | not {e body : Nat} : g.rules[e]? = some (.not body) → MayFail e
  | isIn {e c : Nat} : g.rules[e]? = some (.isIn c) → MayFail e
  | prevIs {e : Nat} {tys : List Nat} : g.rules[e]? = some (.prevIs tys) → MayFail e
  | withSkip {e l body : Nat} : g.rules[e]? = some (.withSkip l body) → MayFail e
  | pratt {e : Nat} {table : PrattTable} : g.rules[e]? = some (.pratt table) → MayFail e
  | pub {e ty body : Nat} {b : Bool} : g.rules[e]? = some (.pub ty body b) → MayFail body → MayFail e
  | pubReplace {e ty body : Nat} : g.rules[e]? = some (.pubReplace ty body) → MayFail body → MayFail e
  | or {e : Nat} {ps : List Nat} : g.rules[e]? = some (.or ps) → (∀ p, p ∈ ps → MayFail p) → MayFail e
  | and {e p : Nat} {ps : List Nat} {c : Option Nat} : g.rules[e]? = some (.and ps c) →
    p ∈ ps.take (c.getD ps.length) → MayFail p → MayFail e
  | commit {e c : Nat} {ps : List Nat} : g.rules[e]? = some (.and ps (some c)) → ps.length < c → MayFail e
  | layer {e l body : Nat} : g.rules[e]? = some (.layer l body) → MayFail l → MayFail e
  | enter {e c body : Nat} : g.rules[e]? = some (.enter c body) → MayFail body → MayFail e
  | exit {e c body : Nat} : g.rules[e]? = some (.exit c body) → MayFail body → MayFail e
  | call {e body : Nat} {args : List (Nat × Nat)} : g.rules[e]? = some (.call body args) → MayFail body → MayFail e
  | var {e i a : Nat} : g.rules[e]? = some (.var i) → PassedAs g i a → MayFail a → MayFail e
  | injected {e pre body : Nat} : g.rules[e]? = some (.inject pre body) → MayFail pre → MayFail e
  | inject {e pre body : Nat} : g.rules[e]? = some (.inject pre body) → MayFail body → MayFail e
  | cached {e body : Nat} : g.rules[e]? = some (.cached body) → MayFail body → MayFail e

end Fall.Spec

namespace Fall.Spec

/-- The expressions that running an expression may run in turn, other than by a parameter or with other values of
the parameters; and whether they are only tried. -/
def tries : Expr → List (Nat × Bool)
  | .pub _ body _ => [(body, false)]
  | .pubReplace _ body => [(body, false)]
  | .or ps => ps.map (·, false)
  | .and ps _ => ps.map (·, false)
  | .opt body => [(body, false)]
  | .not body => [(body, true)]
  | .rep body => [(body, false)]
  | .layer l body => [(l, true), (body, false)]
  | .withSkip first body => [(first, true), (body, false)]
  | .pratt t => t.atoms.map (·, false) ++ t.prefixes.map (·.op, false) ++ t.infixes.map (·.op, false)
  | .enter _ body => [(body, false)]
  | .exit _ body => [(body, false)]
  | .inject pre body => [(pre, false), (body, false)]
  | .cached body => [(body, false)]
  | .token _ | .contextualToken _ _ | .eof | .any | .isIn _ | .call _ _ | .var _ | .prevIs _ => []

variable (g : Grammar)

/-- `Reached e A la`: a parse of a file may run the expression `e` with the values `A` of the parameters; `la` is
whether this is lookahead. -/
inductive Reached : Nat → Args → Bool → Prop
  | start : Reached g.startRule (List.replicate 16 none) false
  | part {e e' : Nat} {A : Args} {la la' : Bool} {rule : Expr} : Reached e A la → g.rules[e]? = some rule →
    (e', la') ∈ tries rule → Reached e' A (la || la')
  | call {e body : Nat} {A A' : Args} {la : Bool} {args : List (Nat × Nat)} : Reached e A la →
    g.rules[e]? = some (.call body args) → Binds g A args A' → Reached body A' la
  | var {e i a : Nat} {A : Args} {la : Bool} : Reached e A la → g.rules[e]? = some (.var i) →
    A[i]? = some (some a) → Reached a A la

/-- What a rule has to satisfy where it may be run with the values `A`, in lookahead if `la`. -/
def RuleSafe (A : Args) (la : Bool) : Expr → Prop
  | .pub ty _ replaceable => ty < g.nodeTypes.length ∧ (la = true → replaceable = false)
  | .pubReplace ty _ => ty < g.nodeTypes.length
  | .token ty => ty < g.nodeTypes.length
  | .contextualToken ty _ => ty < g.nodeTypes.length
  | .prevIs tys => ∀ ty, ty ∈ tys → ty < g.nodeTypes.length
  | .pratt t => (∀ p, p ∈ t.prefixes → p.ty < g.nodeTypes.length) ∧
    (∀ p, p ∈ t.infixes → p.ty < g.nodeTypes.length ∧ la = false) ∧
    (t.infixes ≠ [] → ∀ a, a ∈ t.atoms → ¬ Loose g a)
  | .enter c _ => c < 16
  | .exit c _ => c < 16
  | .isIn c => c < 16
  | .call _ args => (∀ x, x ∈ args → x.2 < g.rules.length) ∧ ∃ A', Binds g A args A'
  | .var i => ∃ a, A[i]? = some (some a)
  | .inject pre _ => la = false ∧ ¬ Loose g pre
  | .or _ | .and _ _ | .opt _ | .not _ | .eof | .any | .rep _ | .layer _ _ | .withSkip _ _ | .cached _ => True

/-- Conditions under which no parse panics: what is run exists and satisfies `RuleSafe`, and the start rule is
public and cannot fail. -/
structure Safe : Prop where
  rules : ∀ e A la, Reached g e A la → ∃ rule, g.rules[e]? = some rule ∧ RuleSafe g A la rule
  start : ∃ ty body b, g.rules[g.startRule]? = some (.pub ty body b)
  succeeds : ¬ MayFail g g.startRule

/-- Where nodes are moved into a node that follows, there is such a node. -/
structure Linked : Prop where
  inject : ∀ e pre body : Nat, g.rules[e]? = some (.inject pre body) → ¬ Loose g body ∧ ¬ Nullable g body
  atom : ∀ (e a : Nat) (t : PrattTable), g.rules[e]? = some (.pratt t) → t.infixes ≠ [] → a ∈ t.atoms →
    ¬ Nullable g a

end Fall.Spec
