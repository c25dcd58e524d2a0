import Verif.Model.Syn
import Verif.Model.Tree

/-!
Model of `fall/parse/src/syn_engine/convert.rs`, which turns parser events into calls of the tree
builder, and of the functions of `fall/parse/src/lib.rs` that connect lexer, parser and converter.
-/

namespace Fall

namespace Result

/-- Sequencing of statements: a panic (or a missing result) ends the run. -/
def bind (r : Result β) (f : β → Result γ) : Result γ :=
  match r with
  | .ok b => f b
  | .panic => .panic
  | .timeout => .timeout

instance : Monad Result where
  pure := .ok
  bind := Result.bind

/-- `none` is a panic. -/
def ofOption : Option β → Result β
  | some b => .ok b
  | none => .panic

end Result

namespace Convert

/-- The inner loop of `fall/parse/src/syn_engine/convert.rs` 44-57 from `idx` on: the indices and
types of the linked nodes, the first one first. The budget of `reshuffle` runs out only on a node
linked to itself, where the code loops forever: any other link leads to a larger index. -/
def links (events : List Event) : (fuel idx : Nat) → Result (List (Nat × NodeType))
  | 0, _ => .timeout
  | fuel + 1, idx =>
    match events[idx]? with
    | some (.start ty none) => .ok [(idx, ty)]
    | some (.start ty (some fwd)) => do
      let rest ← links events fuel (idx + fwd)
      pure ((idx, ty) :: rest)
    | _ => .panic

/-- The loop of `fall/parse/src/syn_engine/convert.rs` 37-66 from index `i` on. The last element of
`holes` is the head of the list here. Gives what is pushed to `result`. -/
def reshuffleFrom (events : List Event) : (i : Nat) → List Event → (holes : List Nat) →
    Result (List Event)
  | _, [], _ => .ok []
  | i, e :: es, holes =>
    if holes.head? = some i then reshuffleFrom events (i + 1) es holes.tail
    else
      match e with
      | .start _ (some _) => do
        let ps ← links events (events.length + 1) i
        let rest ← reshuffleFrom events (i + 1) es ((ps.map (·.1)).tail ++ holes)
        pure ((ps.reverse.map fun p => .start p.2 none) ++ rest)
      | e => do
        let rest ← reshuffleFrom events (i + 1) es holes
        pure (e :: rest)

/-- `fall/parse/src/syn_engine/convert.rs` 32-68. -/
def reshuffle (events : List Event) : Result (List Event) := reshuffleFrom events 0 events []

/-- `fall/parse/src/syn_engine/convert.rs` 71-74. -/
structure Convertor where
  isWs : NodeType → Bool
  binder : NodeType → List (NodeType × List Nat) → Bool → Nat

/-- A token and its text, as collected in `fall/parse/src/syn_engine/convert.rs` 16-21. -/
abbrev TokenText := Token × List Nat

/-- `fall/parse/src/syn_engine/convert.rs` 16-21, with the rest of the text in place of `len`.
Taking the slice of a token that does not fit into the text panics. -/
def tokenTexts : List Nat → List Token → Option (List TokenText)
  | _, [] => some []
  | text, t :: ts =>
    if t.len ≤ text.length then do
      let rest ← tokenTexts (text.drop t.len) ts
      some ((t, text.take t.len) :: rest)
    else none

/-- The leaves emitted by the loops `fall/parse/src/syn_engine/convert.rs` 96-98, 133-136,
152-155. -/
def leaves (tokens : List TokenText) : List BuilderOp :=
  tokens.map fun t => .leaf t.1.ty t.1.len

namespace Convertor

/-- The tokens of `fall/parse/src/syn_engine/convert.rs` 110 and 151. -/
def spaces (cv : Convertor) (tokens : List TokenText) : List TokenText :=
  tokens.takeWhile fun t => cv.isWs t.1.ty

/-- `fall/parse/src/syn_engine/convert.rs` 108-113. -/
def spacesForBinder (cv : Convertor) (tokens : List TokenText) : List (NodeType × List Nat) :=
  (cv.spaces tokens).map fun t => (t.1.ty, t.2)

/-- `fall/parse/src/syn_engine/convert.rs` 83-106, `fill` being the method of that name. Gives the
calls of the builder, the remaining tokens and the remaining events; the code returns the number of
tokens and events used. -/
def goWith (cv : Convertor)
    (fill : List TokenText → List Event → Option (List BuilderOp × List TokenText × List Event))
    (ty : NodeType) (tokens : List TokenText) (events : List Event) :
    Option (List BuilderOp × List TokenText × List Event) := do
  let (ops, tokens, events) ← fill tokens events
  let rightWs := cv.binder ty (cv.spacesForBinder tokens) false
  if tokens.length < rightWs then none
  else
    some (.start ty :: (ops ++ leaves (tokens.take rightWs) ++ [.finish]), tokens.drop rightWs,
      events)

/-- `fall/parse/src/syn_engine/convert.rs` 115-172. As each round takes an event and the code panics
when there is none, a budget of the number of events does not run out first. -/
def fill (cv : Convertor) : Nat → List TokenText → List Event →
    Option (List BuilderOp × List TokenText × List Event)
  | 0, _, _ => none
  | _ + 1, _, [] => none
  | _ + 1, tokens, .fin :: events => some ([], tokens, events)
  | n + 1, tokens, .cached _ _ :: events => cv.fill n tokens events
  | n + 1, tokens, .token ty nRawTokens :: events => do
    let ws := cv.spaces tokens
    let tokens := tokens.drop ws.length
    if tokens.length < nRawTokens then none
    else
      let len := ((tokens.take nRawTokens).map fun t => t.1.len).sum
      let (ops, tokens, events) ← cv.fill n (tokens.drop nRawTokens) events
      some (leaves ws ++ .leaf ty len :: ops, tokens, events)
  | n + 1, tokens, .start ty _ :: events => do
    let leadingWs := cv.spacesForBinder tokens
    let own := cv.binder ty leadingWs true
    if leadingWs.length < own then none
    else
      let leftWd := leadingWs.length - own
      let (ops, tokens', events) ← cv.goWith (cv.fill n) ty (tokens.drop leftWd) events
      let (ops', tokens', events) ← cv.fill n tokens' events
      some (leaves (tokens.take leftWd) ++ ops ++ ops', tokens', events)

/-- `fall/parse/src/syn_engine/convert.rs` 5-30, giving the calls of the builder. -/
def convert (cv : Convertor) (text : List Nat) (tokens : List Token) (events : List Event) :
    Result (List BuilderOp) := do
  let events ← reshuffle events
  match events with
  | .start ty _ :: rest =>
    let tokens ← .ofOption (tokenTexts text tokens)
    let (ops, _, _) ← .ofOption (cv.goWith (cv.fill rest.length) ty tokens rest)
    pure ops
  | _ => .panic

end Convertor

end Convert

/-- `fall/parse/src/lib.rs` 85-89 together with what a language adds to it: its lexer
(`fall/parse/src/lib.rs` 25-28) and which node types are like whitespace
(`fall/tree/src/lang.rs` 22, the field `whitespace_like`). The binder gets strings in the code. -/
structure Definition where
  nodeTypes : List NodeType
  rules : List Expr
  binder : NodeType → List (NodeType × List Nat) → Bool → Nat
  lexer : Lexer Nat
  isWs : NodeType → Bool

namespace Definition

/-- `fall/parse/src/lib.rs` 247-251. -/
def grammar (d : Definition) : Grammar := ⟨d.nodeTypes, d.rules, 0⟩

/-- `fall/parse/src/lib.rs` 252-255. -/
def fileTy (d : Definition) : Option NodeType :=
  match (d.rules[0]? : Option Expr) with
  | some (.pub ty _ _) => d.nodeTypes[ty]?
  | _ => none

/-- `fall/parse/src/lib.rs` 267-276. -/
def convertor (d : Definition) (fileTy : NodeType) : Convert.Convertor where
  isWs := d.isWs
  binder ty spaces leading := if ty = fileTy then spaces.length else d.binder ty spaces leading

/-- `fall/parse/src/lib.rs` 238-280. Gives the calls of the builder and the events. `n` is the
budget of the parser. -/
def parseTokens (d : Definition) (n : Nat) (prev : Option (CacheMap × List Event)) (text : List Nat)
    (tokens : List Token) : Result (List BuilderOp × List Event) := do
  let fileTy ← .ofOption d.fileTy
  let (events, _) ← synParse (Env.new prev d.grammar d.isWs text tokens) n
  let ops ← (d.convertor fileTy).convert text tokens events
  pure (ops, events)

/-- `fall/parse/src/lib.rs` 185-188. -/
structure IncrementalData where
  tokens : List Token
  events : List Event
deriving DecidableEq, Repr

/-- `fall/parse/src/lib.rs` 190-206 as called in `fall/tree/src/lang.rs` 35-41. -/
def parse (d : Definition) (n : Nat) (text : List Nat) : Result (File Nat × IncrementalData) := do
  let tokens ← .ofOption (lex d.lexer text)
  let (ops, events) ← d.parseTokens n none text tokens
  let file ← .ofOption (newFile text ops)
  pure (file, ⟨tokens, events⟩)

end Definition

end Fall
