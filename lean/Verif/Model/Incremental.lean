import Verif.Model.Convert

/-!
Model of parsing again after an edit: `fall/parse/src/syn_engine/mod.rs`, `fall/parse/src/lib.rs`
208-234 and `fall/tree/src/lang.rs` 43-53.
-/

namespace Fall

namespace Salvage

/-- The closure `skip_ws`, `fall/parse/src/syn_engine/mod.rs` 56-60. The index `tok` is represented
by the tokens from there on. -/
def skipWs (isWs : NodeType → Bool) : List Token → Nat → List Token × Nat
  | [], text => ([], text)
  | t :: ts, text => if isWs t.ty then skipWs isWs ts (text + t.len) else (t :: ts, text)

/-- The loop of the closure `eat_tokens` around `bump`, `fall/parse/src/syn_engine/mod.rs` 63-65 and
51-54: panics after the last token. -/
def bumpN : Nat → List Token → Nat → Option (List Token × Nat)
  | 0, ts, text => some (ts, text)
  | _ + 1, [], _ => none
  | n + 1, t :: ts, text => bumpN n ts (text + t.len)

/-- The closure `eat_tokens`, `fall/parse/src/syn_engine/mod.rs` 62-67. -/
def eatTokens (isWs : NodeType → Bool) (n : Nat) (ts : List Token) (text : Nat) :
    Option (List Token × Nat) :=
  (bumpN n ts text).map fun (ts, text) => skipWs isWs ts text

/-- The variables changed by the loop over the events of a fragment,
`fall/parse/src/syn_engine/mod.rs` 84-86. -/
structure Group where
  events : List Event
  tokens : List Token
  text : Nat
  nTokens : Nat
  hasError : Bool
deriving DecidableEq, Repr

/-- The loop over the events of a fragment, `fall/parse/src/syn_engine/mod.rs` 87-96. Simplified: the
counter does not overflow. -/
def group (isWs : NodeType → Bool) : Nat → Group → Option Group
  | 0, g => some g
  | n + 1, g =>
    match g.events with
    | [] => none
    | .token _ k :: events =>
      (eatTokens isWs k g.tokens g.text).bind fun (tokens, text) =>
        group isWs n { g with events, tokens, text, nTokens := g.nTokens + k }
    | .start ty _ :: events =>
      group isWs n { g with events, hasError := g.hasError || ty == ERROR }
    | _ :: events => group isWs n { g with events }

/-- The loop over the edit, `fall/parse/src/syn_engine/mod.rs` 105-116. The map is a list in which
later entries come first. -/
def place (range : TextRange) (key : Nat) (entry : Nat × Nat × Nat) :
    List (TextEditOp Nat) → (inserted : Nat) → CacheMap → CacheMap
  | [], _, result => result
  | .copy copy :: ops, inserted, result =>
    if range.isSubrangeOf copy then
      place range key entry ops inserted
        (((inserted + (range.start - copy.start), key), entry) :: result)
    else place range key entry ops (inserted + copy.len) result
  | .insert text :: ops, inserted, result => place range key entry ops (inserted + text.length) result

/-- The loop over the events, `fall/parse/src/syn_engine/mod.rs` 74-120. Each round takes at least one
event, so that the budget `events.length` is enough. -/
def loop (isWs : NodeType → Bool) (ops : List (TextEditOp Nat)) :
    Nat → (events : List Event) → List Token → (text startEvent : Nat) → CacheMap → Option CacheMap
  | _, [], _, _, _, result => some result
  | 0, _ :: _, _, _, _, _ => none
  | fuel + 1, .token _ n :: events, tokens, text, startEvent, result =>
    (eatTokens isWs n tokens text).bind fun (tokens, text) =>
      loop isWs ops fuel events tokens text (startEvent + 1) result
  | fuel + 1, .cached key nEvents :: events, tokens, text, startEvent, result =>
    (group isWs nEvents ⟨events, tokens, text, 0, false⟩).bind fun g =>
      if g.hasError then
        loop isWs ops fuel g.events g.tokens g.text (startEvent + 1 + nEvents) result
      else
        loop isWs ops fuel g.events g.tokens g.text (startEvent + 1 + nEvents)
          (place ⟨text, g.text⟩ key (startEvent + 1, nEvents, g.nTokens) ops 0 result)
  | fuel + 1, _ :: events, tokens, text, startEvent, result =>
    loop isWs ops fuel events tokens text (startEvent + 1) result

end Salvage

/-- `fall/parse/src/syn_engine/mod.rs` 40-123. -/
def salvageSegments (oldEvents : List Event) (oldTokens : List Token) (isWs : NodeType → Bool)
    (edit : TextEdit Nat) : Option CacheMap :=
  let (tokens, text) := Salvage.skipWs isWs oldTokens 0
  Salvage.loop isWs edit.ops oldEvents.length oldEvents tokens text 0 []

namespace Definition

/-- `fall/parse/src/lib.rs` 208-234 as called in `fall/tree/src/lang.rs` 43-53. -/
def reparse (d : Definition) (n : Nat) (oldText : List Nat) (data : IncrementalData)
    (edit : TextEdit Nat) : Result (File Nat × IncrementalData) := do
  let newText ← .ofOption (edit.apply (Text.ofBuf oldText))
  let (tokens, _) ← .ofOption (relex d.lexer data.tokens edit newText)
  let salvaged ← .ofOption (salvageSegments data.events data.tokens d.isWs edit)
  let (ops, events) ← d.parseTokens n (some (salvaged, data.events)) newText tokens
  let file ← .ofOption (newFile newText ops)
  pure (file, ⟨tokens, events⟩)

end Definition

end Fall
