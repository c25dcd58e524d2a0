import Verif.Model.Convert
import Verif.Spec.Static
import Verif.Spec.Tree

/-!
Vocabulary for properties of the conversion of events to a tree.
-/

namespace Fall.Spec

/-- With `d` nodes open, the last one is closed by the last event and not before. -/
def Closes : Nat → List Event → Prop
  | _, [] => False
  | d, .start _ _ :: es => Closes (d + 1) es
  | 0, .fin :: _ => False
  | 1, .fin :: es => es = []
  | d + 2, .fin :: es => Closes (d + 1) es
  | d, .token _ _ :: es => Closes d es
  | d, .cached _ _ :: es => Closes d es

/-- A complete event stream: one node, closed by the last event. -/
def Complete (es : List Event) : Prop :=
  ∃ ty fp rest, es = .start ty fp :: rest ∧ Closes 1 rest

/-- Numbers of raw tokens of the token records. -/
def counts (es : List Event) : List Nat :=
  es.filterMap fun | .token _ n => some n | _ => none

/-- The tokens consist of groups of `ns` adjacent significant tokens with whitespace between. -/
def Fits (isWs : NodeType → Bool) : List Nat → List Token → Prop
  | [], ts => ∀ t ∈ ts, isWs t.ty = true
  | n :: ns, ts => ∃ ws raw rest, ts = ws ++ (raw ++ rest) ∧ (∀ t ∈ ws, isWs t.ty = true) ∧
      raw.length = n ∧ (∀ t ∈ raw, isWs t.ty = false) ∧ Fits isWs ns rest

/-- `Places isWs es ts ops`: `ops` are the calls for the events `es`, with a leaf for each group of
significant tokens recorded by an event and a leaf for each whitespace token somewhere between the
calls; the leaves are in the order of the tokens `ts`. -/
inductive Places (isWs : NodeType → Bool) : List Event → List Token → List BuilderOp → Prop
  | nil : Places isWs [] [] []
  | space : isWs t.ty = true → Places isWs es ts ops →
      Places isWs es (t :: ts) (.leaf t.ty t.len :: ops)
  | start : Places isWs es ts ops → Places isWs (.start ty fp :: es) ts (.start ty :: ops)
  | fin : Places isWs es ts ops → Places isWs (.fin :: es) ts (.finish :: ops)
  | token : raw.length = n → (∀ t ∈ raw, isWs t.ty = false) → Places isWs es ts ops →
      Places isWs (.token ty n :: es) (raw ++ ts) (.leaf ty (raw.map (·.len)).sum :: ops)
  | cached : Places isWs es ts ops → Places isWs (.cached key n :: es) ts ops

/-- The binder takes at most the tokens offered. -/
def BoundedBinder (binder : NodeType → List (NodeType × List Nat) → Bool → Nat) : Prop :=
  ∀ ty spaces leading, binder ty spaces leading ≤ spaces.length

/-- No whitespace token begins inside of a place where a string of the grammar is found. -/
def PlainStrings (env : Env) (isWs : NodeType → Bool) : Prop :=
  ∀ (ty : Nat) (w : List Nat), .contextualToken ty w ∈ env.grammar.rules →
    ∀ (start k : Nat), (start, k) ∈ env.nonWs → w <+: env.text.drop start →
    ∀ (m : Nat) (t : Token), env.tokens[m]? = some t → isWs t.ty = true →
      ((env.tokens.take m).map (·.len)).sum ≤ start ∨
        start + w.length ≤ ((env.tokens.take m).map (·.len)).sum

/-- No whitespace token begins with a part of a string of the grammar, other than the whole
string. -/
def SpacelessStrings (d : Definition) : Prop :=
  ∀ (ty : Nat) (w : List Nat), .contextualToken ty w ∈ d.rules →
    ∀ (v rest : List Nat), v <:+ w → v ≠ [] → v ≠ w → d.isWs (d.lexer (v ++ rest)).ty = false

/-- Tokens that are like whitespace do not begin with a visible ASCII character, except for a slash. -/
def BlankStart (isWs : NodeType → Bool) (lexer : Lexer Nat) : Prop :=
  ∀ (b : Nat) (rest : List Nat), 33 ≤ b → b < 127 → b ≠ 47 → isWs (lexer (b :: rest)).ty = false

/-- Only ends of nodes (and marks of reusable fragments) come after the last token record. -/
def EndsWithToken : List Event → Prop
  | [] => False
  | .token _ _ :: es => EndsWithToken es ∨ ∀ e ∈ es, e = .fin ∨ ∃ k n, e = .cached k n
  | _ :: es => EndsWithToken es

/-- A call that adds whitespace. -/
def IsSpace (isWs : NodeType → Bool) : BuilderOp → Bool
  | .leaf ty _ => isWs ty
  | _ => false

/-- In all readings, the second part of an `inject` begins with a node and an operand of an
infix operator is not empty. -/
structure LinksOk (env : Env) : Prop where
  inject : ∀ pre body, .inject pre body ∈ env.grammar.rules →
    ∀ args i j I, Args.Passed env.grammar args → Derives env args (.expr body) i j I → I.HeadNode
  atom : ∀ table a, .pratt table ∈ env.grammar.rules → table.infixes ≠ [] → a ∈ table.atoms →
    ∀ args i j I, Args.Passed env.grammar args → Derives env args (.expr a) i j I → I ≠ .nil

end Fall.Spec
