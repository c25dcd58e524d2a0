import Verif.Model.Syn

/-!
Vocabulary for properties of parser events.
-/

namespace Fall.Spec

/-- Number of nodes open after the events, starting with `d` open nodes; `none` if a node is closed
that was not opened. -/
def nest : Nat → List Event → Option Nat
  | d, [] => some d
  | d, .start _ _ :: es => nest (d + 1) es
  | d + 1, .fin :: es => nest d es
  | 0, .fin :: _ => none
  | d, .token _ _ :: es => nest d es
  | d, .cached _ _ :: es => nest d es

/-- Every node opened is closed and the other way around. -/
def Nested (es : List Event) : Prop := nest 0 es = some 0

/-- Number of significant tokens recorded by the events. -/
def tokenCount : List Event → Nat
  | [] => 0
  | .token _ n :: es => n + tokenCount es
  | _ :: es => tokenCount es

/-- The token records among the events, in order. -/
def tokenEvents (es : List Event) : List Event :=
  es.filter fun | .token _ _ => true | _ => false

/-- A sequence of events is the encoding of a sequence of such items.

* `tok ty n`: a token made of `n` significant tokens.
* `cached key body`: a fragment that may be reused when the file is parsed again.
* `node ty body`: a node.
* `link ty body mids`: a node that has to become, together with the items `mids` behind it, the
  beginning of the next node.
* `loop ty body`: a node linked to itself.

The last argument of each is the rest of the sequence. -/
inductive Items where
  | nil
  | tok (ty : NodeType) (n : Nat) (rest : Items)
  | cached (key : Nat) (body rest : Items)
  | node (ty : NodeType) (body rest : Items)
  | link (ty : NodeType) (body mids rest : Items)
  | loop (ty : NodeType) (body rest : Items)
deriving DecidableEq, Repr

namespace Items

/-- The events of a sequence of items. A link is the distance to the event after `mids`. -/
def encode : Items → List Event
  | nil => []
  | tok ty n rest => .token ty n :: rest.encode
  | cached key body rest => .cached key body.encode.length :: (body.encode ++ rest.encode)
  | node ty body rest => .start ty none :: (body.encode ++ .fin :: rest.encode)
  | link ty body mids rest =>
    .start ty (some (body.encode.length + mids.encode.length + 2)) ::
      (body.encode ++ .fin :: (mids.encode ++ rest.encode))
  | loop ty body rest => .start ty (some 0) :: (body.encode ++ .fin :: rest.encode)

/-- Number of significant tokens. -/
def toks : Items → Nat
  | nil => 0
  | tok _ n rest => n + rest.toks
  | cached _ body rest => body.toks + rest.toks
  | node _ body rest => body.toks + rest.toks
  | link _ body mids rest => body.toks + mids.toks + rest.toks
  | loop _ body rest => body.toks + rest.toks

def append : Items → Items → Items
  | nil, J => J
  | tok ty n rest, J => tok ty n (rest.append J)
  | cached key body rest, J => cached key body (rest.append J)
  | node ty body rest, J => node ty body (rest.append J)
  | link ty body mids rest, J => link ty body mids (rest.append J)
  | loop ty body rest, J => loop ty body (rest.append J)

/-- The first event is the start of a node. -/
def Opens : Items → Prop
  | node _ _ _ => True
  | link _ _ _ _ => True
  | loop _ _ _ => True
  | _ => False

/-- The first node of `I` linked to the beginning of `J`. -/
def under : (I J : Items) → Items
  | node ty body rest, J => link ty body rest J
  | link ty body mids rest, J => link ty body (mids.append rest) J
  | loop ty body rest, J => link ty body rest J
  | I, J => I.append J

/-- The first item is a node not linked to itself. -/
def HeadNode : Items → Prop
  | node _ _ _ => True
  | link _ _ _ _ => True
  | _ => False

/-- Every linked node is followed by a node to become its parent, and no node is linked to
itself. -/
def WF : Items → Prop
  | nil => True
  | tok _ _ rest => rest.WF
  | cached _ body rest => body.WF ∧ rest.WF
  | node _ body rest => body.WF ∧ rest.WF
  | link _ body mids rest => body.WF ∧ mids.WF ∧ rest.WF ∧ rest.HeadNode
  | loop _ _ _ => False

/-- The events with the linked nodes moved into the node that follows them. `first` is what has to
come first in the next node. -/
def resolveWith : List Event → Items → List Event
  | first, nil => first
  | first, tok ty n rest => first ++ .token ty n :: resolveWith [] rest
  | first, cached key body rest =>
    first ++ .cached key body.encode.length :: (resolveWith [] body ++ resolveWith [] rest)
  | first, node ty body rest =>
    .start ty none :: (first ++ resolveWith [] body ++ .fin :: resolveWith [] rest)
  | first, link ty body mids rest =>
    resolveWith (.start ty none :: (first ++ resolveWith [] body ++ .fin :: resolveWith [] mids))
      rest
  | first, loop ty body rest =>
    .start ty none :: (first ++ resolveWith [] body ++ .fin :: resolveWith [] rest)

def resolve (I : Items) : List Event := resolveWith [] I

end Items

/-- The significant token number `i`. -/
def sigToken (env : Env) (i : Nat) : Option Token := do
  let (_, k) ← env.nonWs[i]?
  env.tokens[k]?

/-- Type of the significant token number `i`. -/
def sigTy (env : Env) (i : Nat) : Option NodeType := (sigToken env i).map (·.ty)

/-- Length of the `n` significant tokens from number `i` on, not counting what is between them. -/
def sigLen (env : Env) : (i n : Nat) → Option Nat
  | _, 0 => some 0
  | i, n + 1 => do
    let t ← sigToken env i
    let rest ← sigLen env (i + 1) n
    some (t.len + rest)

/-- The text from significant token number `i` on begins with `w`, which is as long as the `n`
significant tokens from there on. -/
def SpelledBy (env : Env) (i n : Nat) (w : List Nat) : Prop :=
  (∃ start k, env.nonWs[i]? = some (start, k) ∧ w <+: env.text.drop start) ∧
    sigLen env i n = some w.length

/-- The token records are for the significant tokens from `i` to `j`, one after the other: each is
a single token with its type or a string of the grammar spelled by some tokens. -/
inductive CoversTokens (env : Env) : Nat → Nat → List Event → Prop
  | nil : CoversTokens env i i []
  | one : sigTy env i = some t → CoversTokens env (i + 1) j es → CoversTokens env i j (.token t 1 :: es)
  | text : .contextualToken ty w ∈ env.grammar.rules → env.grammar.nodeTypes[ty]? = some t →
      SpelledBy env i n w → CoversTokens env (i + n) j es → CoversTokens env i j (.token t n :: es)

/-- The arguments of a rule after passing `as`, each for the parameter it is paired with. An argument
that is itself a parameter stands for the current argument. -/
def bindArgs (g : Grammar) (args : List (Option Nat)) :
    List (Nat × Nat) → Option (List (Option Nat))
  | [] => some args
  | (i, a) :: as =>
    match g.rules[a]? with
    | none => none
    | some (.var k) =>
      match args[k]? with
      | some (some a') => if i < args.length then bindArgs g (args.set i (some a')) as else none
      | _ => none
    | some _ => if i < args.length then bindArgs g (args.set i (some a)) as else none

/-- What a piece of input is read as. -/
inductive Goal where
  /-- an expression of the grammar -/
  | expr (e : Nat)
  /-- one expression after the other -/
  | all (parts : List Nat)
  /-- an expression any number of times -/
  | many (body : Nat)
  /-- any tokens -/
  | skipped
  /-- an operator expression with operators of at least a priority -/
  | pratt (table : PrattTable) (minPrior : Nat)
  /-- an operand or a prefix operator with its operand -/
  | operand (table : PrattTable)
  /-- what follows the operand `lhs` -/
  | chain (table : PrattTable) (minPrior : Nat) (lhs : Items)
  /-- what follows an infix operator -/
  | rhs (table : PrattTable) (ix : Infix)

/-- A rule changes the type of the node around it to the type with this index. -/
def Replaces (g : Grammar) (ty : Nat) : Prop := ∃ e body : Nat, g.rules[e]? = some (.pubReplace ty body)

/-- `Derives env args goal i j I`: with the rule arguments `args`, the significant tokens from `i`
to `j` can be read as `goal`, and `I` is their structure. Order of choice, lookahead, contexts and
greediness are not taken into account. -/
inductive Derives (env : Env) : List (Option Nat) → Goal → Nat → Nat → Items → Prop
  | pub : env.grammar.rules[e]? = some (.pub ty body r) → env.grammar.nodeTypes[ty]? = some t →
      Derives env args (.expr body) i j I → Derives env args (.expr e) i j (.node t I .nil)
  | pubReplaced {ty' : Nat} : env.grammar.rules[e]? = some (.pub ty body true) → Replaces env.grammar ty' →
      env.grammar.nodeTypes[ty']? = some t →
      Derives env args (.expr body) i j I → Derives env args (.expr e) i j (.node t I .nil)
  | pubReplace : env.grammar.rules[e]? = some (.pubReplace ty body) →
      Derives env args (.expr body) i j I → Derives env args (.expr e) i j I
  | or : env.grammar.rules[e]? = some (.or parts) → p ∈ parts →
      Derives env args (.expr p) i j I → Derives env args (.expr e) i j I
  | and : env.grammar.rules[e]? = some (.and parts commit) →
      Derives env args (.all parts) i j I → Derives env args (.expr e) i j I
  | andCommit : env.grammar.rules[e]? = some (.and (ps ++ qs) (some commit)) →
      commit ≤ ps.length → qs ≠ [] → Derives env args (.all ps) i j I →
      Derives env args (.expr e) i j (I.append (.node ERROR .nil .nil))
  | token : env.grammar.rules[e]? = some (.token ty) → env.grammar.nodeTypes[ty]? = some t →
      sigTy env i = some t → Derives env args (.expr e) i (i + 1) (.tok t 1 .nil)
  | contextual : env.grammar.rules[e]? = some (.contextualToken ty text) →
      env.grammar.nodeTypes[ty]? = some t → SpelledBy env i n text →
      Derives env args (.expr e) i (i + n) (.tok t n .nil)
  | rep : env.grammar.rules[e]? = some (.rep body) → Derives env args (.many body) i j I →
      Derives env args (.expr e) i j I
  | withSkip : env.grammar.rules[e]? = some (.withSkip first body) →
      Derives env args (.expr body) i j I → Derives env args (.expr e) i j I
  | withSkipSkipped : env.grammar.rules[e]? = some (.withSkip first body) → i < k →
      Derives env args .skipped i k S → Derives env args (.expr body) k j I →
      Derives env args (.expr e) i j (.node ERROR S I)
  | opt : env.grammar.rules[e]? = some (.opt body) →
      Derives env args (.expr body) i j I → Derives env args (.expr e) i j I
  | optNone : env.grammar.rules[e]? = some (.opt body) → Derives env args (.expr e) i i .nil
  | not : env.grammar.rules[e]? = some (.not body) → Derives env args (.expr e) i i .nil
  | eof : env.grammar.rules[e]? = some .eof → Derives env args (.expr e) i i .nil
  | any : env.grammar.rules[e]? = some .any → sigTy env i = some t →
      Derives env args (.expr e) i (i + 1) (.tok t 1 .nil)
  | layer : env.grammar.rules[e]? = some (.layer l body) → Derives env args (.expr l) i j L →
      Derives env args (.expr body) i j I → Derives env args (.expr e) i j I
  | layerLeftover : env.grammar.rules[e]? = some (.layer l body) → Derives env args (.expr l) i j L →
      Derives env args (.expr body) i k I → k < j → Derives env args .skipped k j S →
      Derives env args (.expr e) i j (I.append (.node ERROR S .nil))
  | layerNone : env.grammar.rules[e]? = some (.layer l body) → Derives env args (.expr l) i i L →
      Derives env args (.expr e) i i .nil
  | layerSkipped : env.grammar.rules[e]? = some (.layer l body) → Derives env args (.expr l) i j L →
      i < j → Derives env args .skipped i j S → Derives env args (.expr e) i j (.node ERROR S .nil)
  | pratt : env.grammar.rules[e]? = some (.pratt table) → Derives env args (.pratt table 0) i j I →
      Derives env args (.expr e) i j I
  | enter : env.grammar.rules[e]? = some (.enter ctx body) →
      Derives env args (.expr body) i j I → Derives env args (.expr e) i j I
  | exit : env.grammar.rules[e]? = some (.exit ctx body) →
      Derives env args (.expr body) i j I → Derives env args (.expr e) i j I
  | isIn : env.grammar.rules[e]? = some (.isIn ctx) → Derives env args (.expr e) i i .nil
  | call : env.grammar.rules[e]? = some (.call body as) → bindArgs env.grammar args as = some args' →
      Derives env args' (.expr body) i j I → Derives env args (.expr e) i j I
  | var {k : Nat} : env.grammar.rules[e]? = some (.var k) → args[k]? = some (some body) →
      Derives env args (.expr body) i j I → Derives env args (.expr e) i j I
  | prevIs : env.grammar.rules[e]? = some (.prevIs tys) → Derives env args (.expr e) i i .nil
  | inject : env.grammar.rules[e]? = some (.inject pre body) →
      Derives env args (.expr pre) i i I → Derives env args (.expr body) i j J →
      Derives env args (.expr e) i j (I.append J)
  | injectLinked : env.grammar.rules[e]? = some (.inject pre body) → i < k →
      Derives env args (.expr pre) i k I → I.Opens → Derives env args (.expr body) k j J →
      Derives env args (.expr e) i j (I.under J)
  | cached : env.grammar.rules[e]? = some (.cached body) →
      Derives env args (.expr body) i j I → Derives env args (.expr e) i j (.cached body I .nil)
  | allNil : Derives env args (.all []) i i .nil
  | allCons : Derives env args (.expr p) i k I → Derives env args (.all ps) k j J →
      Derives env args (.all (p :: ps)) i j (I.append J)
  | manyNil : Derives env args (.many body) i i .nil
  | manyCons : Derives env args (.expr body) i k I → Derives env args (.many body) k j J →
      Derives env args (.many body) i j (I.append J)
  | skippedNil : Derives env args .skipped i i .nil
  | skippedCons : sigTy env i = some t → Derives env args .skipped (i + 1) j I →
      Derives env args .skipped i j (.tok t 1 I)
  | prattChain : Derives env args (.operand table) i k I →
      Derives env args (.chain table p I) k j J → Derives env args (.pratt table p) i j J
  | atom : a ∈ table.atoms → Derives env args (.expr a) i j I →
      Derives env args (.operand table) i j I
  | prefixOp : pf ∈ table.prefixes → env.grammar.nodeTypes[pf.ty]? = some t →
      Derives env args (.expr pf.op) i k I → Derives env args (.pratt table pf.priority) k j J →
      Derives env args (.operand table) i j (.node t (I.append J) .nil)
  | chainEnd : Derives env args (.chain table p I) i i I
  | chainOp : ix ∈ table.infixes → p ≤ ix.priority → env.grammar.nodeTypes[ix.ty]? = some t →
      Derives env args (.expr ix.op) i k A → Derives env args (.rhs table ix) k m B →
      lhs.Opens → Derives env args (.chain table p (.node t (A.append B) .nil)) m j J →
      Derives env args (.chain table p lhs) i j (lhs.under J)
  | chainLoop : ix ∈ table.infixes → p ≤ ix.priority → env.grammar.nodeTypes[ix.ty]? = some t →
      Derives env args (.expr ix.op) i k A → Derives env args (.rhs table ix) k m B →
      Derives env args (.chain table p (.loop t (A.append B) .nil)) m j J →
      Derives env args (.chain table p .nil) i j J
  | rhsNone : ix.hasRhs = false → Derives env args (.rhs table ix) i i .nil
  | rhsSome : ix.hasRhs = true → Derives env args (.pratt table (ix.priority + 1)) i j I →
      Derives env args (.rhs table ix) i j I
  | rhsMissing : ix.hasRhs = true → Derives env args (.rhs table ix) i i (.node ERROR .nil .nil)

end Fall.Spec
