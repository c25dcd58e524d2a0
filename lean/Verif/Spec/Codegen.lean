import Verif.Spec.Analysis
import Verif.Model.Syn

/-!
Grammars as they are written, for the parser generator. The nodes of the syntax tree of a grammar themselves serve
as references: `Says f n e` gives the expression that is written at the node `n`, its parts being nodes again.
-/

namespace Fall.Spec

/-- The lists have the same length, and elements at the same place are related. -/
inductive Pointwise (R : α → β → Prop) : List α → List β → Prop where
  | nil : Pointwise R [] []
  | cons : R a b → Pointwise R as bs → Pointwise R (a :: as) (b :: bs)

/-! ## Renaming of references -/

/-- Renames the references of a table of operators. -/
def renameTable (φ : Nat → Nat) (t : PrattTable) : PrattTable where
  atoms := t.atoms.map φ
  prefixes := t.prefixes.map fun p => { p with op := φ p.op }
  infixes := t.infixes.map fun p => { p with op := φ p.op }

/-- Renames the references of an expression. -/
def rename (φ : Nat → Nat) : Expr → Expr
  | .pub ty body replaceable => .pub ty (φ body) replaceable
  | .pubReplace ty body => .pubReplace ty (φ body)
  | .or parts => .or (parts.map φ)
  | .and parts commit => .and (parts.map φ) commit
  | .token ty => .token ty
  | .contextualToken ty text => .contextualToken ty text
  | .rep body => .rep (φ body)
  | .withSkip first body => .withSkip (φ first) (φ body)
  | .opt body => .opt (φ body)
  | .not e => .not (φ e)
  | .eof => .eof
  | .any => .any
  | .layer l e => .layer (φ l) (φ e)
  | .pratt table => .pratt (renameTable φ table)
  | .enter ctx e => .enter ctx (φ e)
  | .exit ctx e => .exit ctx (φ e)
  | .isIn ctx => .isIn ctx
  | .call body args => .call (φ body) (args.map fun a => (a.1, φ a.2))
  | .var i => .var i
  | .prevIs tys => .prevIs tys
  | .inject pre body => .inject (φ pre) (φ body)
  | .cached body => .cached (φ body)

/-- The expressions that an expression refers to. -/
def references : Expr → List Nat
  | .pub _ body _ => [body]
  | .pubReplace _ body => [body]
  | .or parts => parts
  | .and parts _ => parts
  | .token _ => []
  | .contextualToken _ _ => []
  | .rep body => [body]
  | .withSkip first body => [first, body]
  | .opt body => [body]
  | .not e => [e]
  | .eof => []
  | .any => []
  | .layer l e => [l, e]
  | .pratt table => table.atoms ++ table.prefixes.map (·.op) ++ table.infixes.map (·.op)
  | .enter _ e => [e]
  | .exit _ e => [e]
  | .isIn _ => []
  | .call body args => body :: args.map (·.2)
  | .var _ => []
  | .prevIs _ => []
  | .inject pre body => [pre, body]
  | .cached body => [body]

/-- The numbers of the types of nodes that an expression mentions. -/
def typesIn : Expr → List Nat
  | .pub ty _ _ => [ty]
  | .pubReplace ty _ => [ty]
  | .token ty => [ty]
  | .contextualToken ty _ => [ty]
  | .pratt table => table.prefixes.map (·.ty) ++ table.infixes.map (·.ty)
  | .prevIs tys => tys
  | _ => []

/-! ## Numbers -/

/-- The tokens of the tokenizer. -/
def Tokens (f : File UInt8) (ts : List NodeId) : Prop :=
  (∃ d, FirstChild f 0 (OfType f 141) d ∧ ChildrenWith f d (OfType f 142) ts) ∨
  ((∀ d, ¬ FirstChild f 0 (OfType f 141) d) ∧ ts = [])

/-- The name of the rule is the name of a type of nodes. -/
def NamesType (f : File UInt8) (r : NodeId) : Prop :=
  OfType f 132 r ∧ (∃ p, FirstChild f r (OfType f 109) p) ∧ (∀ a, ¬ Attribute f r "type" a) ∧ ∃ s, Ident f r s

/-- The names of the types of nodes: first those of the tokens, then those of the rules. -/
def TypeNames (f : File UInt8) (ss : List (List UInt8)) : Prop :=
  ∃ ts rs ss1 ss2, Tokens f ts ∧ ChildrenWith f 0 (NamesType f) rs ∧ Pointwise (Ident f) ts ss1 ∧
    Pointwise (Ident f) rs ss2 ∧ ss = ss1 ++ ss2

/-- The number of the type `s`, counted from one; zero is the type of errors. -/
def TypeNumber (f : File UInt8) (s : List UInt8) (k : Nat) : Prop :=
  ∃ ss1 ss2, TypeNames f (ss1 ++ s :: ss2) ∧ s ∉ ss1 ∧ k = ss1.length + 1

/-- The number of the type of the nodes that a rule makes. -/
def RuleType (f : File UInt8) (r : NodeId) (k : Nat) : Prop := ∃ s, MakesNodes f r s ∧ TypeNumber f s k

/-- The parameters of a rule. -/
def ParamsOf (f : File UInt8) (r : NodeId) (ps : List NodeId) : Prop :=
  (∃ pl, FirstChild f r (OfType f 133) pl ∧ ChildrenWith f pl (OfType f 134) ps) ∨
  ((∀ pl, ¬ FirstChild f r (OfType f 133) pl) ∧ ps = [])

/-- The number of a parameter: the parameters of all rules are counted. -/
def ParamNumber (f : File UInt8) (p : NodeId) (i : Nat) : Prop :=
  ∃ rs pss, ChildrenWith f 0 (OfType f 132) rs ∧ Pointwise (ParamsOf f) rs pss ∧ pss.flatten[i]? = some p

/-! ## Expressions -/

/-- What stands for the expression `n`: the rule if it is a reference to a rule, else `n` itself. -/
def Target (f : File UInt8) (n m : NodeId) : Prop :=
  (OfType f 135 n ∧ RefersTo f n (some (.rule m))) ∨
  ((∀ r, ¬ (OfType f 135 n ∧ RefersTo f n (some (.rule r)))) ∧ m = n)

/-- The part of a sequence is a commit. -/
def IsCommit (f : File UInt8) (n : NodeId) : Prop := f.textOf n = some (ascii "<commit>")

/-- The number of parts before the first commit. -/
def CommitAt (f : File UInt8) (parts : List NodeId) : Option Nat → Prop
  | some c => ∃ pre p post, parts = pre ++ p :: post ∧ IsCommit f p ∧ (∀ q ∈ pre, ¬ IsCommit f q) ∧ c = pre.length
  | none => ∀ p ∈ parts, ¬ IsCommit f p

/-- What a call of this meaning says. -/
inductive CallSays (f : File UInt8) : CallKind → Expr → Prop where
  | eof : CallSays f .eof .eof
  | any : CallSays f .any .any
  | not : Target f e t → CallSays f (.not e) (.not t)
  | layer : Target f e1 t1 → Target f e2 t2 → CallSays f (.layer e1 e2) (.layer t1 t2)
  | withSkip : Target f e1 t1 → Target f e2 t2 → CallSays f (.withSkip e1 e2) (.withSkip t1 t2)
  | inject : Target f e1 t1 → Target f e2 t2 → CallSays f (.inject e1 e2) (.inject t1 t2)
  | enter : Target f e t → CallSays f (.enter i e) (.enter i t)
  | exit : Target f e t → CallSays f (.exit i e) (.exit i t)
  | isIn : CallSays f (.isIn i) (.isIn i)
  | rule : Pointwise (fun pe it => ParamNumber f pe.1 it.1 ∧ Target f pe.2 it.2) args args' →
      CallSays f (.ruleCall r args) (.call r args')
  | prevIs : Pointwise (RuleType f) rs ks → CallSays f (.prevIs rs) (.prevIs ks)

/-- The rule that an alternative of an operator expression begins with. -/
def AltRule (f : File UInt8) (alt r : NodeId) : Prop :=
  OfType f 136 alt ∧ ∃ part, FirstChild f alt (IsExpr f) part ∧ OfType f 135 part ∧ RefersTo f part (some (.rule r))

/-- The operators of the alternatives of an operator expression. -/
inductive TableSays (f : File UInt8) : List NodeId → PrattTable → Prop where
  | nil : TableSays f [] ⟨[], [], []⟩
  | atom : AltRule f alt r → RuleType f r k → OperatorMeans f r (some (.atom b)) ds → TableSays f alts ⟨as, ps, is⟩ →
      TableSays f (alt :: alts) ⟨r :: as, ps, is⟩
  | prefixOp : AltRule f alt r → RuleType f r k → OperatorMeans f r (some (.prefix op n)) ds → Target f op t →
      TableSays f alts ⟨as, ps, is⟩ → TableSays f (alt :: alts) ⟨as, ⟨k, t, n⟩ :: ps, is⟩
  | postfixOp : AltRule f alt r → RuleType f r k → OperatorMeans f r (some (.postfix op n)) ds → Target f op t →
      TableSays f alts ⟨as, ps, is⟩ → TableSays f (alt :: alts) ⟨as, ps, ⟨k, t, n, false⟩ :: is⟩
  | bin : AltRule f alt r → RuleType f r k → OperatorMeans f r (some (.bin op n)) ds → Target f op t →
      TableSays f alts ⟨as, ps, is⟩ → TableSays f (alt :: alts) ⟨as, ps, ⟨k, t, n, true⟩ :: is⟩

/-- What stands for the body of a rule: the attribute `pratt` if the body is a table of operators. -/
def BodyOf (f : File UInt8) (r m : NodeId) : Prop :=
  Attribute f r "pratt" m ∨
  ((∀ a, ¬ Attribute f r "pratt" a) ∧ ∃ b, FirstChild f r (IsExpr f) b ∧ Target f b m)

/-- What is written at a node. Besides expressions and rules, the attributes `pratt` and `cached` of a rule stand
for its table of operators and for the memory of its results. -/
inductive Says (f : File UInt8) : NodeId → Expr → Prop where
  | block : OfType f 137 n → ChildrenWith f n (IsExpr f) alts → Pointwise (Target f) alts ts → Says f n (.or ts)
  | seq : OfType f 136 n → ChildrenWith f n (IsExpr f) parts → CommitAt f parts c →
      ChildrenWith f n (fun p => IsExpr f p ∧ ¬ IsCommit f p) kept → Pointwise (Target f) kept ts →
      Says f n (.and ts c)
  | token : OfType f 135 n → RefersTo f n (some (.token t)) → Ident f t s → TypeNumber f s k →
      (∀ a, ¬ Attribute f t "contextual" a) → Says f n (.token k)
  | contextual : OfType f 135 n → RefersTo f n (some (.token t)) → Ident f t s → TypeNumber f s k →
      Attribute f t "contextual" a → Labelled f t 147 lit → (∀ q, lit ≠ 114 :: q) → Quoted lit text →
      Says f n (.contextualToken k (text.map (·.toNat)))
  | param : OfType f 135 n → RefersTo f n (some (.param p)) → ParamNumber f p i → Says f n (.var i)
  | call : OfType f 140 n → Ident f n name → ChildrenWith f n (IsExpr f) args →
      CallMeans f n args name (some kind) ds → CallSays f kind e → Says f n e
  | opt : OfType f 138 n → FirstChild f n (IsExpr f) b → Target f b t → Says f n (.opt t)
  | rep : OfType f 139 n → FirstChild f n (IsExpr f) b → Target f b t → Says f n (.rep t)
  | table : OfType f 132 r → Attribute f r "pratt" a → FirstChild f r (IsExpr f) b → OfType f 137 b →
      ChildrenWith f b (IsExpr f) alts → TableSays f alts table → Says f a (.pratt table)
  | memory : OfType f 132 r → Attribute f r "cached" a → BodyOf f r t → Says f a (.cached t)
  | replaces : OfType f 132 r → RuleType f r k → Attribute f r "replaces" a → BodyOf f r t → Says f r (.pubReplace k t)
  | pub : OfType f 132 r → RuleType f r k → (∀ a, ¬ Attribute f r "replaces" a) → (∀ a, ¬ Attribute f r "cached" a) →
      BodyOf f r t → (replaceable = true ↔ ∃ a, Attribute f r "replaceable" a) → Says f r (.pub k t replaceable)
  | pubCached : OfType f 132 r → RuleType f r k → (∀ a, ¬ Attribute f r "replaces" a) → Attribute f r "cached" a →
      (replaceable = true ↔ ∃ a, Attribute f r "replaceable" a) → Says f r (.pub k a replaceable)
  | cached : OfType f 132 r → (∀ k, ¬ RuleType f r k) → (∀ a, ¬ Attribute f r "replaces" a) →
      Attribute f r "cached" a → BodyOf f r t → Says f r (.cached t)
  | plain : OfType f 132 r → (∀ k, ¬ RuleType f r k) → (∀ a, ¬ Attribute f r "replaces" a) →
      (∀ a, ¬ Attribute f r "cached" a) → BodyOf f r t → Says f t e → Says f r e

/-- Something is written at the node, and at all expressions that it refers to, down to the rules. -/
inductive Meaningful (f : File UInt8) : NodeId → Prop where
  | mk : Says f n e → (∀ m ∈ references e, ¬ OfType f 132 m → Meaningful f m) → Meaningful f n

/-- Something is written at each rule and all its parts. -/
def MeaningfulRules (f : File UInt8) : Prop := ∀ r, Spec.Child f 0 r → OfType f 132 r → Meaningful f r

/-- The bodies of all rules are blocks, as the syntax of grammars demands. -/
def BlockBodies (f : File UInt8) : Prop :=
  ∀ r b, OfType f 132 r → FirstChild f r (IsExpr f) b → OfType f 137 b

/-- The syntax of rules and expressions: rules are at the top, their bodies are blocks, the alternatives of blocks are
sequences, and the operators `?` and `*` have operands. -/
structure RuleSyntax (f : File UInt8) : Prop where
  top : ∀ r, OfType f 132 r → Child f 0 r
  blocks : BlockBodies f
  alternatives : ∀ n c, OfType f 137 n → Child f n c → IsExpr f c → OfType f 136 c
  operands : ∀ n, OfType f 138 n ∨ OfType f 139 n → ∃ b, FirstChild f n (IsExpr f) b

/-- What the generator expects of a grammar, but the analysis does not check: rules have bodies; `type` names a type;
rules that replace others make nodes; each commit is written `<commit>`, without spaces, and is part of a sequence;
the texts of contextual tokens are quoted strings; the alternatives of operator expressions begin with public
rules with an attribute that says what kind of operator they are; and rules for operators contain no commits. -/
structure Tidy (f : File UInt8) : Prop where
  body : ∀ r, OfType f 132 r → ∃ b, FirstChild f r (IsExpr f) b
  type : ∀ r a s, OfType f 132 r → Attribute f r "type" a → Labelled f a 146 s → ∃ k, TypeNumber f s k
  replaces : ∀ r a, OfType f 132 r → Attribute f r "replaces" a → ∃ s, MakesNodes f r s
  commit : ∀ c, OfType f 140 c → Ident f c (ascii "commit") → IsCommit f c ∧ ∃ p, Child f p c ∧ OfType f 136 p
  contextual : ∀ t a, OfType f 142 t → Attribute f t "contextual" a →
    ∃ lit text, Labelled f t 147 lit ∧ (∀ q, lit ≠ 114 :: q) ∧ Quoted lit text
  operators : ∀ r a b alt, OfType f 132 r → Attribute f r "pratt" a → FirstChild f r (IsExpr f) b → Child f b alt →
    IsExpr f alt → ∃ q s kind a', AltRule f alt q ∧ MakesNodes f q s ∧ kind ∈ operatorKinds ∧ Attribute f q kind a'
  operatorParts : ∀ q kind a b alt c, OfType f 132 q → OperatorKind f q kind a → kind ≠ "atom" →
    FirstChild f q (IsExpr f) b → Child f b alt → Child f alt c → ¬ IsCommit f c

/-- The grammar has at each node of the file what is written there, and starts with the first rule. -/
def Written (f : File UInt8) (w : Grammar) : Prop :=
  (∀ n e, Says f n e → w.rules[n]? = some e) ∧ ∃ r, FirstChild f 0 (OfType f 132) r ∧ w.startRule = r

/-! ## Comparison of parses -/

/-- The event without the key of a memorised result. -/
def forgetKey : Event → Event
  | .cached _ n => .cached 0 n
  | e => e

/-- The outcome of a parse without the keys of memorised results. -/
def forgetKeys : Result (List Event × Nat) → Result (List Event × Nat)
  | .ok (es, ticks) => .ok (es.map forgetKey, ticks)
  | .panic => .panic
  | .timeout => .timeout

end Fall.Spec
