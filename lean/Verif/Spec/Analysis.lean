import Verif.Spec.Db
import Verif.Spec.Tree
import Verif.Spec.Editor
import Verif.Model.Analysis

/-!
Vocabulary for the analysis of grammars. The numbers of node types are those of `lang/fall/syntax/src/fall.rs`
3-57.
-/

namespace Fall.Spec

/-- `x` is the first element of the list with the property. -/
def First (xs : List NodeId) (P : NodeId → Prop) (x : NodeId) : Prop :=
  ∃ pre post, xs = pre ++ x :: post ∧ P x ∧ ∀ y ∈ pre, ¬ P y

/-- `x` is the last element of the list with the property. -/
def Last (xs : List NodeId) (P : NodeId → Prop) (x : NodeId) : Prop :=
  ∃ pre post, xs = pre ++ x :: post ∧ P x ∧ ∀ y ∈ post, ¬ P y

/-- `c` is the first child of `n` with the property. -/
def FirstChild (f : File UInt8) (n : NodeId) (P : NodeId → Prop) (c : NodeId) : Prop :=
  ∃ cs, f.children n = some cs ∧ First cs P c

/-- `c` is the last child of `n` with the property. -/
def LastChild (f : File UInt8) (n : NodeId) (P : NodeId → Prop) (c : NodeId) : Prop :=
  ∃ cs, f.children n = some cs ∧ Last cs P c

/-- The type of the node is `ty`. -/
def OfType (f : File UInt8) (ty : NodeType) (n : NodeId) : Prop := f.ty n = some ty

/-- The node is an expression. -/
def IsExpr (f : File UInt8) (n : NodeId) : Prop := ∃ ty, f.ty n = some ty ∧ FallExpr ty = true

/-- The first child of type `ty` has the text `s`. -/
def Labelled (f : File UInt8) (n : NodeId) (ty : NodeType) (s : List UInt8) : Prop :=
  ∃ c, FirstChild f n (OfType f ty) c ∧ f.textOf c = some s

/-- The name of a node: the text of its first identifier. -/
def Ident (f : File UInt8) (n : NodeId) (s : List UInt8) : Prop := Labelled f n 130 s

/-- The first rule of the file that is called `s`. -/
def RuleNamed (f : File UInt8) (s : List UInt8) (r : NodeId) : Prop :=
  FirstChild f 0 (fun r => OfType f 132 r ∧ Ident f r s) r

/-- The first parameter of the rule that is called `s`. -/
def ParamNamed (f : File UInt8) (rule : NodeId) (s : List UInt8) (p : NodeId) : Prop :=
  ∃ ps, FirstChild f rule (OfType f 133) ps ∧ FirstChild f ps (fun p => OfType f 134 p ∧ Ident f p s) p

/-- How a token is referred to: by its text in single quotes if it is declared in this way, else by its name. -/
def TokenName (f : File UInt8) (t : NodeId) (s : List UInt8) : Prop :=
  (Labelled f t 147 s ∧ ∃ q, s = 39 :: q) ∨ ((∀ q, ¬ Labelled f t 147 (39 :: q)) ∧ Ident f t s)

/-- The last token of the tokenizer that is called `s`. -/
def TokenNamed (f : File UInt8) (s : List UInt8) (t : NodeId) : Prop :=
  ∃ d, FirstChild f 0 (OfType f 141) d ∧ LastChild f d (fun t => OfType f 142 t ∧ TokenName f t s) t

/-- What a reference refers to: an identifier or a text in quotes. -/
def RefName (f : File UInt8) (r : NodeId) (s : List UInt8) : Prop :=
  Ident f r s ∨ ((∀ s', ¬ Ident f r s') ∧ Labelled f r 128 s)

/-- The innermost rule around a node. -/
def EnclosingRule (f : File UInt8) (n rule : NodeId) : Prop :=
  Desc f rule n ∧ OfType f 132 rule ∧ ∀ q, Desc f q n → OfType f 132 q → Desc f q rule

/-- What the name `s` means inside of `rule`: a parameter of the rule, else a rule, else a token, else nothing. -/
def Means (f : File UInt8) (rule : NodeId) (s : List UInt8) : Option RefKind → Prop
  | some (.param p) => ParamNamed f rule s p
  | some (.rule r) => (∀ p, ¬ ParamNamed f rule s p) ∧ RuleNamed f s r
  | some (.token t) => (∀ p, ¬ ParamNamed f rule s p) ∧ (∀ r, ¬ RuleNamed f s r) ∧ TokenNamed f s t
  | none => (∀ p, ¬ ParamNamed f rule s p) ∧ (∀ r, ¬ RuleNamed f s r) ∧ ∀ t, ¬ TokenNamed f s t

/-- `s` is the text between the quotes of the literal: single quotes if the literal begins with one. -/
def Quoted (lit s : List UInt8) : Prop :=
  ∃ a b, ∃ q : UInt8, lit = a ++ q :: s ++ q :: b ∧ q ∉ a ∧ q ∉ b ∧
    ((∃ rest, lit = 39 :: rest) ∧ q = 39 ∨ (∀ rest, lit ≠ 39 :: rest) ∧ q = 34)

/-- The call tests or changes the context `s`: `<is_in 's'>`, `<enter 's' ..>` or `<exit 's' ..>`. -/
def ContextName (f : File UInt8) (call : NodeId) (s : List UInt8) : Prop :=
  ∃ name arg lit, Ident f call name ∧ name ∈ [ascii "is_in", ascii "enter", ascii "exit"] ∧
    FirstChild f call (IsExpr f) arg ∧ Labelled f arg 128 lit ∧ Quoted lit s

/-- The reference is the name of a context, not a reference to anything. -/
def NamesContext (f : File UInt8) (ref : NodeId) : Prop :=
  ∃ call s, f.parent ref = some (some call) ∧ OfType f 140 call ∧ ContextName f call s ∧
    FirstChild f call (IsExpr f) ref

/-! ## Diagnostics -/

/-- `ds` are the reports of the message at the nodes, in this order. -/
def Reports (f : File UInt8) (error : Bool) (message : String) (ns : List NodeId) (ds : List Diagnostic) : Prop :=
  ∃ rs, ns.mapM f.range = some rs ∧ ds = rs.map fun r => ⟨r, error, message⟩

/-- `n` and, later, `m` are children of `p` with the property. -/
def Siblings (f : File UInt8) (p : NodeId) (P : NodeId → Prop) (n m : NodeId) : Prop :=
  ∃ cs, f.children p = some cs ∧ [n, m].Sublist cs ∧ P n ∧ P m

/-- The name of a rule that has the same name as an earlier rule. -/
def DuplicateRule (f : File UInt8) (ident : NodeId) : Prop :=
  ∃ r r' s, Siblings f 0 (fun r => OfType f 132 r ∧ Ident f r s) r r' ∧
    FirstChild f r' (OfType f 130) ident

/-- A token of the tokenizer that has the same name as an earlier token. -/
def DuplicateToken (f : File UInt8) (t : NodeId) : Prop :=
  ∃ d t' s, FirstChild f 0 (OfType f 141) d ∧ Siblings f d (fun t => OfType f 142 t ∧ Ident f t s) t' t

/-! ## Calls and contexts -/

/-- `cs` are the children of `n` with the property, in their order. -/
def ChildrenWith (f : File UInt8) (n : NodeId) (P : NodeId → Prop) (cs : List NodeId) : Prop :=
  ∃ all, f.children n = some all ∧ cs.Sublist all ∧ ∀ c ∈ all, c ∈ cs ↔ P c

/-- What the reference refers to. -/
def RefersTo (f : File UInt8) (ref : NodeId) (k : Option RefKind) : Prop :=
  ∃ s rule, RefName f ref s ∧ EnclosingRule f ref rule ∧ Means f rule s k

/-- The first attribute of the rule with this name. -/
def Attribute (f : File UInt8) (rule : NodeId) (name : String) (a : NodeId) : Prop :=
  ∃ as, FirstChild f rule (OfType f 144) as ∧ FirstChild f as (fun a => OfType f 145 a ∧ Ident f a (ascii name)) a

/-- The nodes that a rule makes are of the type `s`: only if it is public and no operator expression. -/
def MakesNodes (f : File UInt8) (rule : NodeId) (s : List UInt8) : Prop :=
  (∃ p, FirstChild f rule (OfType f 109) p) ∧ (∀ a, ¬ Attribute f rule "pratt" a) ∧
    ((∃ a, Attribute f rule "type" a ∧ Labelled f a 146 s) ∨
     ((∀ a, ¬ Attribute f rule "type" a) ∧ Ident f rule s))

/-- The contexts of the file, in the order of their numbers. -/
def Contexts (f : File UInt8) (ctxs : List (List UInt8)) : Prop :=
  ctxs.Pairwise (· < ·) ∧ ∀ s, s ∈ ctxs ↔ ∃ call, OfType f 140 call ∧ ContextName f call s

/-- The number of a context. -/
def ContextNumber (f : File UInt8) (s : List UInt8) (i : Nat) : Prop :=
  ∃ ctxs, Contexts f ctxs ∧ ctxs[i]? = some s

/-- `call` is the only one that tests or changes the context `s`. -/
def OnlyUse (f : File UInt8) (s : List UInt8) (call : NodeId) : Prop :=
  OfType f 140 call ∧ ContextName f call s ∧ ∀ call', OfType f 140 call' → ContextName f call' s → call' = call

/-- A report if the number of arguments is not the expected one. -/
def CountReport (f : File UInt8) (call : NodeId) (expected : Nat) (args : List NodeId) (ds : List Diagnostic) : Prop :=
  (args.length = expected ∧ ds = []) ∨
  (args.length ≠ expected ∧
    Reports f true s!"Wrong number of arguments, expected {expected}, got {args.length}" [call] ds)

/-- The argument is a reference to a rule that makes nodes. -/
def PublicRef (f : File UInt8) (arg rule : NodeId) : Prop :=
  OfType f 135 arg ∧ RefersTo f arg (some (.rule rule)) ∧ ∃ s, MakesNodes f rule s

/-- The rules that the arguments refer to; `bad` of the arguments refer to no public rule. -/
inductive PublicRefs (f : File UInt8) : (args rules : List NodeId) → (bad : Nat) → Prop where
  | nil : PublicRefs f [] [] 0
  | good : PublicRef f a r → PublicRefs f as rs n → PublicRefs f (a :: as) (r :: rs) n
  | bad : (∀ r, ¬ PublicRef f a r) → PublicRefs f as rs n → PublicRefs f (a :: as) rs (n + 1)

/-- The names of the built-in functions. -/
def builtInNames : List (List UInt8) :=
  ["any", "commit", "eof", "not", "is_in", "layer", "with_skip", "inject", "enter", "exit", "prev_is"].map ascii

/-- What a call of the function `name` means, and what is reported. A built-in function comes before a rule of the
same name. A wrong number of arguments is always reported, but the call has a meaning if there are too many. -/
inductive CallMeans (f : File UInt8) (call : NodeId) (args : List NodeId) :
    List UInt8 → Option CallKind → List Diagnostic → Prop where
  | any : CountReport f call 0 args ds → CallMeans f call args (ascii "any") (some .any) ds
  | commit : CountReport f call 0 args ds → CallMeans f call args (ascii "commit") (some .commit) ds
  | eof : CountReport f call 0 args ds → CallMeans f call args (ascii "eof") (some .eof) ds
  | not : args = e :: rest → CountReport f call 1 args ds → CallMeans f call args (ascii "not") (some (.not e)) ds
  | layer : args = e1 :: e2 :: rest → CountReport f call 2 args ds →
      CallMeans f call args (ascii "layer") (some (.layer e1 e2)) ds
  | withSkip : args = e1 :: e2 :: rest → CountReport f call 2 args ds →
      CallMeans f call args (ascii "with_skip") (some (.withSkip e1 e2)) ds
  | inject : args = e1 :: e2 :: rest → CountReport f call 2 args ds →
      CallMeans f call args (ascii "inject") (some (.inject e1 e2)) ds
  | isIn : args = e :: rest → CountReport f call 1 args ds → ContextName f call s → ContextNumber f s i →
      CallMeans f call args (ascii "is_in") (some (.isIn i)) ds
  | enter : args = e1 :: e2 :: rest → CountReport f call 2 args ds → ContextName f call s → ContextNumber f s i →
      CallMeans f call args (ascii "enter") (some (.enter i e2)) ds
  | exit : args = e1 :: e2 :: rest → CountReport f call 2 args ds → ContextName f call s → ContextNumber f s i →
      CallMeans f call args (ascii "exit") (some (.exit i e2)) ds
  | noArgument : name ∈ ["not", "is_in"].map ascii → args = [] → CountReport f call 1 args ds →
      CallMeans f call args name none ds
  | tooFew : name ∈ ["layer", "with_skip", "inject", "enter", "exit"].map ascii → args.length < 2 →
      CountReport f call 2 args ds → CallMeans f call args name none ds
  | noContext : (name = ascii "is_in" ∧ n = 1 ∨ name ∈ ["enter", "exit"].map ascii ∧ n = 2) → n ≤ args.length →
      (∀ s, ¬ ContextName f call s) → CountReport f call n args ds1 → args = e :: rest →
      Reports f true "Context should be a single quoted string" [e] ds2 →
      CallMeans f call args name none (ds1 ++ ds2)
  | prevIs : PublicRefs f args rules bad →
      Reports f true "<prev_is> arguments must be public rules" (List.replicate bad call) ds →
      CallMeans f call args (ascii "prev_is") (some (.prevIs rules)) ds
  | rule : name ∉ builtInNames → RuleNamed f name r → FirstChild f r (OfType f 133) pl →
      ChildrenWith f pl (OfType f 134) ps →
      ((ps.length = args.length ∧ ds = []) ∨ (ps.length ≠ args.length ∧
        Reports f true s!"Expected {ps.length} arguments, got {args.length}" [call] ds)) →
      CallMeans f call args name (some (.ruleCall r (ps.zip args))) ds
  | unresolved : name ∉ builtInNames → (∀ r pl, RuleNamed f name r → ¬ FirstChild f r (OfType f 133) pl) →
      FirstChild f call (OfType f 130) ident → Reports f true "Unresolved reference" [ident] ds →
      CallMeans f call args name none ds

/-- The rule is used: it is the first one, or a reference refers to it, or it has parameters and is called. -/
def UsedRule (f : File UInt8) (r : NodeId) : Prop :=
  FirstChild f 0 (OfType f 132) r ∨ (∃ ref, OfType f 135 ref ∧ RefersTo f ref (some (.rule r))) ∨
    ∃ call name pl, OfType f 140 call ∧ Ident f call name ∧ name ∉ builtInNames ∧ RuleNamed f name r ∧
      FirstChild f r (OfType f 133) pl

/-- The name of a rule that is not used. -/
def UnusedName (f : File UInt8) (ident : NodeId) : Prop :=
  ∃ r, Child f 0 r ∧ OfType f 132 r ∧ ¬ UsedRule f r ∧ FirstChild f r (OfType f 130) ident

/-! ## Operator rules -/

/-- A text of decimal digits and its value. -/
inductive Digits : List UInt8 → Nat → Prop where
  | one (d : Nat) : d < 10 → Digits [UInt8.ofNat (48 + d)] d
  | more (d : Nat) : d < 10 → Digits s n → Digits (s ++ [UInt8.ofNat (48 + d)]) (10 * n + d)

/-- A number of 32 bits, with or without a plus sign. -/
def Decimal (s : List UInt8) (n : Nat) : Prop := n < 2 ^ 32 ∧ (Digits s n ∨ ∃ t, s = 43 :: t ∧ Digits t n)

/-- The value of the attribute is the number `n`. -/
def AttrNumber (f : File UInt8) (a : NodeId) (n : Nat) : Prop := ∃ s, Labelled f a 146 s ∧ Decimal s n

/-- The attributes that say what part of an operator expression a rule is. -/
def operatorKinds : List String := ["atom", "postfix", "prefix", "bin"]

/-- The first kind for which the rule has an attribute. -/
def OperatorKind (f : File UInt8) (rule : NodeId) (kind : String) (a : NodeId) : Prop :=
  ∃ pre post, operatorKinds = pre ++ kind :: post ∧ Attribute f rule kind a ∧
    ∀ k ∈ pre, ∀ a, ¬ Attribute f rule k a

/-- The body is one alternative, a sequence of `parts`. -/
def OneSequence (f : File UInt8) (body : NodeId) (parts : List NodeId) : Prop :=
  OfType f 137 body ∧ ∃ alt, ChildrenWith f body (IsExpr f) [alt] ∧ OfType f 136 alt ∧
    ChildrenWith f alt (IsExpr f) parts

/-- The priority of a prefix or postfix operator. -/
def PriorityOr999 (f : File UInt8) (a : NodeId) (n : Nat) : Prop :=
  AttrNumber f a n ∨ ((∀ n, ¬ AttrNumber f a n) ∧ n = 999)

/-- What an operator rule means, and what is reported. -/
inductive OperatorMeans (f : File UInt8) (rule : NodeId) : Option PrattVariant → List Diagnostic → Prop where
  | noName : (∀ i, ¬ FirstChild f rule (OfType f 130) i) → OperatorMeans f rule none []
  | noKind : (∀ k ∈ operatorKinds, ∀ a, ¬ Attribute f rule k a) → OperatorMeans f rule none []
  | atom : FirstChild f rule (OfType f 130) ident → OperatorKind f rule "atom" a →
      FirstChild f rule (IsExpr f) b →
      ((∃ n, AttrNumber f a n) ∧ Reports f true "Atom rules don't have priority" [ident] ds ∨
       (∀ n, ¬ AttrNumber f a n) ∧ ds = []) → OperatorMeans f rule (some (.atom b)) ds
  | postfix : FirstChild f rule (OfType f 130) ident → OperatorKind f rule "postfix" a →
      FirstChild f rule (IsExpr f) b → OneSequence f b [e, op] → PriorityOr999 f a n →
      OperatorMeans f rule (some (.postfix op n)) []
  | prefix : FirstChild f rule (OfType f 130) ident → OperatorKind f rule "prefix" a →
      FirstChild f rule (IsExpr f) b → OneSequence f b [op, e] → PriorityOr999 f a n →
      OperatorMeans f rule (some (.prefix op n)) []
  | bin : FirstChild f rule (OfType f 130) ident → OperatorKind f rule "bin" a →
      FirstChild f rule (IsExpr f) b → OneSequence f b [e1, op, e2] → AttrNumber f a n →
      OperatorMeans f rule (some (.bin op n)) []
  | alternatives : FirstChild f rule (OfType f 130) ident → OperatorKind f rule kind a → kind ≠ "atom" →
      FirstChild f rule (IsExpr f) b → OfType f 137 b → ChildrenWith f b (IsExpr f) es → es.length ≠ 1 →
      Reports f true "Expression rule requires a single alternative" [b] ds → OperatorMeans f rule none ds
  | otherShape : FirstChild f rule (OfType f 130) ident → OperatorKind f rule kind a → kind ≠ "atom" →
      FirstChild f rule (IsExpr f) b →
      (¬ OfType f 137 b ∨ ∃ alt, ChildrenWith f b (IsExpr f) [alt] ∧ ¬ OfType f 136 alt) →
      OperatorMeans f rule none []
  | wrongPostfix : FirstChild f rule (OfType f 130) ident → OperatorKind f rule "postfix" a →
      FirstChild f rule (IsExpr f) b → OneSequence f b es → es.length ≠ 2 →
      Reports f true "Postfix rule requires a single expression and an operation" [b] ds →
      OperatorMeans f rule none ds
  | wrongPrefix : FirstChild f rule (OfType f 130) ident → OperatorKind f rule "prefix" a →
      FirstChild f rule (IsExpr f) b → OneSequence f b es → es.length ≠ 2 →
      Reports f true "Prefix rule requires an operation and a single expression" [b] ds →
      OperatorMeans f rule none ds
  | wrongBin : FirstChild f rule (OfType f 130) ident → OperatorKind f rule "bin" a →
      FirstChild f rule (IsExpr f) b → OneSequence f b es → es.length ≠ 3 →
      Reports f true ("Binary expression requires a left hand side expression, an operator " ++
        "and a right hand side expression") [b] ds →
      OperatorMeans f rule none ds
  | noPriority : FirstChild f rule (OfType f 130) ident → OperatorKind f rule "bin" a →
      FirstChild f rule (IsExpr f) b → OneSequence f b es → es.length = 3 → (∀ n, ¬ AttrNumber f a n) →
      Reports f true "Binary expression requires explicit priority" [ident] ds →
      OperatorMeans f rule none ds

/-! ## Typed trees -/

/-- The last trait of the file that is called `s`. -/
def TraitNamed (f : File UInt8) (s : List UInt8) (t : NodeId) : Prop :=
  ∃ ast, FirstChild f 0 (OfType f 149) ast ∧ LastChild f ast (fun t => OfType f 152 t ∧ Ident f t s) t

/-- The names after the first colon of a node definition. -/
def NamesAfterColon (f : File UInt8) (node : NodeId) (ids : List NodeId) : Prop :=
  ∃ pre post, f.children node = some (pre ++ post) ∧ (∀ c ∈ pre, ¬ OfType f 117 c) ∧
    (∀ c, post.head? = some c → OfType f 117 c) ∧ ids.Sublist post ∧ ∀ c ∈ post, c ∈ ids ↔ OfType f 130 c

/-- The traits that the names refer to, and the names that refer to no trait. -/
inductive TraitsOf (f : File UInt8) : (ids traits bad : List NodeId) → Prop where
  | nil : TraitsOf f [] [] []
  | good : f.textOf i = some s → TraitNamed f s t → TraitsOf f is ts bad → TraitsOf f (i :: is) (t :: ts) bad
  | bad : f.textOf i = some s → (∀ t, ¬ TraitNamed f s t) → TraitsOf f is ts bad → TraitsOf f (i :: is) ts (i :: bad)

/-- The first item of the `ast` block of this type and name. -/
def AstItem (f : File UInt8) (ty : NodeType) (s : List UInt8) (n : NodeId) : Prop :=
  ∃ ast, FirstChild f 0 (OfType f 149) ast ∧ FirstChild f ast (fun n => OfType f ty n ∧ Ident f n s) n

/-- The first token whose node type is called `s`. -/
def TokenTyped (f : File UInt8) (s : List UInt8) (t : NodeId) : Prop :=
  ∃ d, FirstChild f 0 (OfType f 141) d ∧ FirstChild f d (fun t => OfType f 142 t ∧ Ident f t s) t

/-- Whether the children are one, at most one, or many. -/
def SelectorArity (f : File UInt8) (sel : NodeId) : ChildArity → Prop
  | .optional => ∃ c, FirstChild f sel (OfType f 114) c
  | .many => (∀ c, ¬ FirstChild f sel (OfType f 114) c) ∧ ∃ c, FirstChild f sel (OfType f 113) c
  | .single => (∀ c, ¬ FirstChild f sel (OfType f 114) c) ∧ ∀ c, ¬ FirstChild f sel (OfType f 113) c

/-- What a method selects: nodes of a definition, else of a class, else tokens; the text of them if there is a
dot, which only tokens have. Without an `ast` block it selects nothing. -/
inductive MethodMeans (f : File UInt8) (m : NodeId) : Option MethodKind → Prop where
  | astNode : FirstChild f m (OfType f 154) sel → SelectorArity f sel ar → Ident f sel s → AstItem f 150 s n →
      (∀ c, ¬ FirstChild f sel (OfType f 115) c) → MethodMeans f m (some (.astNode n ar))
  | astClass : FirstChild f m (OfType f 154) sel → SelectorArity f sel ar → Ident f sel s →
      (∀ n, ¬ AstItem f 150 s n) → AstItem f 151 s n → (∀ c, ¬ FirstChild f sel (OfType f 115) c) →
      MethodMeans f m (some (.astClass n ar))
  | token : FirstChild f m (OfType f 154) sel → SelectorArity f sel ar → Ident f sel s →
      FirstChild f 0 (OfType f 149) ast → (∀ n, ¬ AstItem f 150 s n) → (∀ n, ¬ AstItem f 151 s n) →
      TokenTyped f s t → (∀ c, ¬ FirstChild f sel (OfType f 115) c) → MethodMeans f m (some (.token t ar))
  | text : FirstChild f m (OfType f 154) sel → SelectorArity f sel ar → Ident f sel s →
      FirstChild f 0 (OfType f 149) ast → (∀ n, ¬ AstItem f 150 s n) → (∀ n, ¬ AstItem f 151 s n) →
      TokenTyped f s t → FirstChild f sel (OfType f 115) c → MethodMeans f m (some (.text t ar))
  | noText : FirstChild f m (OfType f 154) sel → Ident f sel s →
      ((∃ n, AstItem f 150 s n) ∨ ∃ n, AstItem f 151 s n) → FirstChild f sel (OfType f 115) c →
      MethodMeans f m none
  | unknown : FirstChild f m (OfType f 154) sel → (∀ ast, ¬ FirstChild f 0 (OfType f 149) ast) →
      MethodMeans f m none
  | unresolved : FirstChild f m (OfType f 154) sel →
      (∀ s, Ident f sel s → (∀ n, ¬ AstItem f 150 s n) ∧ (∀ n, ¬ AstItem f 151 s n) ∧ ∀ t, ¬ TokenTyped f s t) →
      MethodMeans f m none

/-! ## The whole file -/

/-- Queries are about nodes of the right type: `RefExpr`, `CallExpr` and so on wrap nodes of these types. -/
def QueryTyped (f : File UInt8) : Query → Prop
  | .resolveRef n => OfType f 135 n
  | .resolveCall n => OfType f 140 n
  | .prattVariant n => OfType f 132 n
  | .resolveMethod n => OfType f 153 n
  | .astNodeTraits n => OfType f 150 n
  | .allLexRules => True
  | .allSynRules => True
  | .allContexts => True
  | .unusedRules => True

/-- `d` is the report of the message at a node with the property. -/
def ReportAt (f : File UInt8) (error : Bool) (message : String) (P : NodeId → Prop) (d : Diagnostic) : Prop :=
  ∃ n r, P n ∧ f.range n = some r ∧ d = ⟨r, error, message⟩

/-- The problems of a file, other than rules with the same name and contexts that are used only once. -/
inductive Problem (f : File UInt8) (d : Diagnostic) : Prop where
  | duplicateToken : ReportAt f true "Duplicate token" (DuplicateToken f) d → Problem f d
  | unusedRule : ReportAt f false "Unused rule" (UnusedName f) d → Problem f d
  | unresolvedRef : ReportAt f true "Unresolved reference"
      (fun ref => OfType f 135 ref ∧ RefersTo f ref none ∧ ¬ NamesContext f ref) d → Problem f d
  | call : OfType f 140 c → Ident f c name → ChildrenWith f c (IsExpr f) args → CallMeans f c args name k ds → d ∈ ds →
      Problem f d
  | operator : OfType f 132 rule → OperatorMeans f rule k ds → d ∈ ds → Problem f d
  | unresolvedTrait : ReportAt f true "Unresolved trait"
      (fun i => ∃ node ids s, OfType f 150 node ∧ NamesAfterColon f node ids ∧ i ∈ ids ∧ f.textOf i = some s ∧
        ∀ t, ¬ TraitNamed f s t) d → Problem f d

/-- A context that only one call tests or changes. -/
def LonelyContext (f : File UInt8) (d : Diagnostic) : Prop :=
  ∃ s call r, OnlyUse f s call ∧ f.range call = some r ∧ d = ⟨r, false, s!"Context `{showBytes s}` is used only once"⟩

/-- Some name is looked up among the rules: a reference that names no parameter, or a call of no built-in function. -/
def LooksUpRule (f : File UInt8) : Prop :=
  (∃ ref s rule, OfType f 135 ref ∧ RefName f ref s ∧ EnclosingRule f ref rule ∧ ∀ p, ¬ ParamNamed f rule s p) ∨
  ∃ call name, OfType f 140 call ∧ Ident f call name ∧ name ∉ builtInNames

/-- Some call tests or changes a context, and has enough arguments. -/
def UsesContext (f : File UInt8) : Prop :=
  ∃ call s args, OfType f 140 call ∧ ContextName f call s ∧ ChildrenWith f call (IsExpr f) args ∧
    (Ident f call (ascii "is_in") ∨ 2 ≤ args.length)

end Fall.Spec
