import Verif.Spec.Runs

/-!
Vocabulary for the grouping of operator expressions.
-/

namespace Fall.Spec

/-- A piece of an operator expression, in the order of the text: an operand, which is a node, a
prefix operator, an infix operator, a postfix operator, or the place of a missing right operand. The
type of an operator's token is given too. -/
inductive Lexeme where
  | operand (ty : NodeType) (body : Items)
  | pre (pf : Prefix) (t : NodeType)
  | op (ix : Infix) (t : NodeType)
  | post (ix : Infix) (t : NodeType)
  | missing
deriving DecidableEq

/-- An operator expression with its grouping. -/
inductive OpTree where
  | operand (ty : NodeType) (body : Items)
  | pre (pf : Prefix) (t : NodeType) (u : OpTree)
  | bin (ix : Infix) (t : NodeType) (l r : OpTree)
  | post (ix : Infix) (t : NodeType) (l : OpTree)
  | missing (ix : Infix) (t : NodeType) (l : OpTree)
deriving DecidableEq

namespace OpTree

/-- The expression without its grouping. -/
def yield : OpTree → List Lexeme
  | operand ty body => [.operand ty body]
  | pre pf t u => .pre pf t :: u.yield
  | bin ix t l r => l.yield ++ .op ix t :: r.yield
  | post ix t l => l.yield ++ [.post ix t]
  | missing ix t l => l.yield ++ [.op ix t, .missing]

/-- The tree itself: a node for each operator. `ty` gives the types of the nodes. -/
def events (ty : Nat → NodeType) : OpTree → List Event
  | operand t body => .start t none :: (body.resolve ++ [.fin])
  | pre pf t u => .start (ty pf.ty) none :: .token t 1 :: (u.events ty ++ [.fin])
  | bin ix t l r => .start (ty ix.ty) none :: (l.events ty ++ .token t 1 :: (r.events ty ++ [.fin]))
  | post ix t l => .start (ty ix.ty) none :: (l.events ty ++ [.token t 1, .fin])
  | missing ix t l =>
    .start (ty ix.ty) none :: (l.events ty ++ [.token t 1, .start ERROR none, .fin, .fin])

/-- The operators applied to the expression as a whole or to its leftmost part, up to a prefix
operator, have at least priority `p`. -/
def above (p : Nat) : OpTree → Prop
  | operand _ _ => True
  | pre _ _ _ => True
  | bin ix _ l _ => p ≤ ix.priority ∧ l.above p
  | post ix _ l => p ≤ ix.priority ∧ l.above p
  | missing ix _ l => p ≤ ix.priority ∧ l.above p

/-- An operator of priority `p` behind the expression takes all of it as its left operand, not only
the right operand of an infix operator or the operand of a prefix operator: no infix operator at the
right edge has a lower priority, and all prefix operators there have a higher one. -/
def heldBy (p : Nat) : OpTree → Prop
  | operand _ _ => True
  | pre pf _ u => p < pf.priority ∧ u.heldBy p
  | bin ix _ _ r => p ≤ ix.priority ∧ r.heldBy p
  | post _ _ _ => True
  | missing _ _ _ => True

/-- The grouping is the conventional one: the right operand of an infix operator contains only
operators of higher priority at its top, the left operand contains, at its right edge, only operators
of the same or a higher priority (so equal priorities group to the left), and the operand of a prefix
operator only operators of at least its priority at its top. -/
def Grouped : OpTree → Prop
  | operand _ _ => True
  | pre pf _ u => u.above pf.priority ∧ u.Grouped
  | bin ix _ l r => l.heldBy ix.priority ∧ r.above (ix.priority + 1) ∧ l.Grouped ∧ r.Grouped
  | post ix _ l => l.heldBy ix.priority ∧ l.Grouped
  | missing ix _ l => l.heldBy ix.priority ∧ l.Grouped

instance above.dec (p : Nat) : (T : OpTree) → Decidable (T.above p)
  | operand _ _ => .isTrue trivial
  | pre _ _ _ => .isTrue trivial
  | bin _ _ l _ => @instDecidableAnd _ _ _ (above.dec p l)
  | post _ _ l => @instDecidableAnd _ _ _ (above.dec p l)
  | missing _ _ l => @instDecidableAnd _ _ _ (above.dec p l)

instance heldBy.dec (p : Nat) : (T : OpTree) → Decidable (T.heldBy p)
  | operand _ _ => .isTrue trivial
  | pre _ _ u => @instDecidableAnd _ _ _ (heldBy.dec p u)
  | bin _ _ _ r => @instDecidableAnd _ _ _ (heldBy.dec p r)
  | post _ _ _ => .isTrue trivial
  | missing _ _ _ => .isTrue trivial

instance Grouped.dec : (T : OpTree) → Decidable T.Grouped
  | operand _ _ => .isTrue trivial
  | pre pf _ u => @instDecidableAnd _ _ (above.dec pf.priority u) (Grouped.dec u)
  | bin ix _ l r => @instDecidableAnd _ _ (heldBy.dec ix.priority l)
      (@instDecidableAnd _ _ (above.dec (ix.priority + 1) r)
        (@instDecidableAnd _ _ (Grouped.dec l) (Grouped.dec r)))
  | post ix _ l => @instDecidableAnd _ _ (heldBy.dec ix.priority l) (Grouped.dec l)
  | missing ix _ l => @instDecidableAnd _ _ (heldBy.dec ix.priority l) (Grouped.dec l)

end OpTree

/-- The expression matches a single token of one of the given types. -/
inductive Choice (g : Grammar) : Nat → List NodeType → Prop
  | token : g.rules[e]? = some (.token ty) → g.nodeTypes[ty]? = some t → Choice g e [t]
  | and : g.rules[e]? = some (.and [p] none) → Choice g p ts → Choice g e ts
  | or {alts : List (Nat × List NodeType)} : g.rules[e]? = some (.or (alts.map (·.1))) →
      (∀ x ∈ alts, Choice g x.1 x.2) → Choice g e (alts.flatMap (·.2))

/-- The operators of the table are single tokens, of the types `toks`, and no two infix or postfix
operators have a token in common, and no two prefix operators. The nodes have types. -/
structure TokenTable (g : Grammar) (table : PrattTable) (toks : Nat → List NodeType) : Prop where
  prefixTok : ∀ pf ∈ table.prefixes, Choice g pf.op (toks pf.op)
  infixTok : ∀ ix ∈ table.infixes, Choice g ix.op (toks ix.op)
  prefixTy : ∀ pf ∈ table.prefixes, (g.nodeTypes[pf.ty]?).isSome
  infixTy : ∀ ix ∈ table.infixes, (g.nodeTypes[ix.ty]?).isSome
  prefixes : ∀ pf ∈ table.prefixes, ∀ pf' ∈ table.prefixes, ∀ t ∈ toks pf.op, t ∈ toks pf'.op → pf = pf'
  infixes : ∀ ix ∈ table.infixes, ∀ ix' ∈ table.infixes, ∀ t ∈ toks ix.op, t ∈ toks ix'.op → ix = ix'

/-- The significant token number `i` is before the end `stop` and has type `t`. -/
def TokenAt (env : Env) (stop i : Nat) (t : NodeType) : Prop := i ≠ stop ∧ sigTy env i = some t

/-- At token `i` there is an operand up to token `j`: whatever came before, the operand rules of the
table produce this node. -/
def OperandAt (env : Env) (table : PrattTable) (stop i j : Nat) (ty : NodeType) (body : Items) : Prop :=
  j ≤ stop ∧ body.WF ∧ ∀ s, s.predicate = false → ∃ s', FirstOf env table.atoms ⟨i, stop⟩ s (some ⟨j, stop⟩) s' ∧
    s'.events = s.events ++ (Items.node ty body .nil).encode

/-- No operand rule matches at token `i`. -/
def NoOperandAt (env : Env) (table : PrattTable) (stop i : Nat) : Prop :=
  ∀ s, s.predicate = false → ∃ s', FirstOf env table.atoms ⟨i, stop⟩ s none s'

/-- No infix or postfix operator at token `i`. -/
def NoOpAt (env : Env) (table : PrattTable) (toks : Nat → List NodeType) (stop i : Nat) : Prop :=
  ∀ ix ∈ table.infixes, ∀ t ∈ toks ix.op, ¬ TokenAt env stop i t

/-- No operator expression begins at token `i`: behind any number of prefix operators there is no
operand and no further prefix operator. -/
inductive NothingAt (env : Env) (table : PrattTable) (toks : Nat → List NodeType) (stop : Nat) : Nat → Prop
  | none : NoOperandAt env table stop i →
      (∀ pf ∈ table.prefixes, ∀ t ∈ toks pf.op, ¬ TokenAt env stop i t) → NothingAt env table toks stop i
  | pre : NoOperandAt env table stop i → pf ∈ table.prefixes → t ∈ toks pf.op → TokenAt env stop i t →
      NothingAt env table toks stop (i + 1) → NothingAt env table toks stop i

/-- The significant tokens from `i` to `j` are these pieces of an operator expression. -/
inductive Spells (env : Env) (table : PrattTable) (toks : Nat → List NodeType) (stop : Nat) :
    Nat → Nat → List Lexeme → Prop
  | nil : Spells env table toks stop i i []
  | operand : OperandAt env table stop i k ty body → Spells env table toks stop k j w →
      Spells env table toks stop i j (.operand ty body :: w)
  | pre : pf ∈ table.prefixes → t ∈ toks pf.op → TokenAt env stop i t → NoOperandAt env table stop i →
      Spells env table toks stop (i + 1) j w → Spells env table toks stop i j (.pre pf t :: w)
  | op : ix ∈ table.infixes → ix.hasRhs = true → t ∈ toks ix.op → TokenAt env stop i t →
      Spells env table toks stop (i + 1) j w → Spells env table toks stop i j (.op ix t :: w)
  | post : ix ∈ table.infixes → ix.hasRhs = false → t ∈ toks ix.op → TokenAt env stop i t →
      Spells env table toks stop (i + 1) j w → Spells env table toks stop i j (.post ix t :: w)
  | missing : NothingAt env table toks stop i → Spells env table toks stop i j w →
      Spells env table toks stop i j (.missing :: w)

/-- The type of a node of the grammar. -/
def typeOf (g : Grammar) (ty : Nat) : NodeType := (g.nodeTypes[ty]?).getD ERROR

end Fall.Spec
