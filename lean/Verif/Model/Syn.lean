import Verif.Model.Lex

/-!
Model of the grammar interpreter: `fall/parse/src/syn_engine/{mod,parser,expr,pratt}.rs` and the
grammar types of `fall/parse/src/lib.rs`.

The interpreter is a state passing function with three outcomes: a result, a panic, or no result
yet because the budget for recursion and loops was too small (`timeout`).
-/

namespace Fall

/-- `fall/parse/src/lib.rs` 169-174. `NodeTypeRef` and `ExprRef` (106-108, 116-118) are the index
they wrap. -/
structure Prefix where
  ty : Nat
  op : Nat
  priority : Nat
deriving DecidableEq, Repr

/-- `fall/parse/src/lib.rs` 176-182. -/
structure Infix where
  ty : Nat
  op : Nat
  priority : Nat
  hasRhs : Bool
deriving DecidableEq, Repr

/-- `fall/parse/src/lib.rs` 153-158. -/
structure PrattTable where
  atoms : List Nat
  prefixes : List Prefix
  infixes : List Infix
deriving DecidableEq, Repr

/-- `fall/parse/src/lib.rs` 161-166. -/
def PrattTable.infixesFrom (table : PrattTable) (minPrior : Nat) : List Infix :=
  table.infixes.filter fun ix => minPrior ≤ ix.priority

/-- `fall/parse/src/lib.rs` 120-151. The string of a contextual token is its list of bytes, bytes
being natural numbers. -/
inductive Expr where
  | pub (ty body : Nat) (replaceable : Bool)
  | pubReplace (ty body : Nat)
  | or (parts : List Nat)
  | and (parts : List Nat) (commit : Option Nat)
  | token (ty : Nat)
  | contextualToken (ty : Nat) (text : List Nat)
  | rep (body : Nat)
  | withSkip (first body : Nat)
  | opt (body : Nat)
  | not (e : Nat)
  | eof
  | any
  | layer (l e : Nat)
  | pratt (table : PrattTable)
  | enter (ctx e : Nat)
  | exit (ctx e : Nat)
  | isIn (ctx : Nat)
  | call (body : Nat) (args : List (Nat × Nat))
  | var (i : Nat)
  | prevIs (tys : List Nat)
  | inject (pre body : Nat)
  | cached (body : Nat)
deriving DecidableEq, Repr

/-- `fall/parse/src/syn_engine/mod.rs` 7-11. -/
structure Grammar where
  nodeTypes : List NodeType
  rules : List Expr
  startRule : Nat
deriving DecidableEq, Repr

/-- `fall/parse/src/syn_engine/mod.rs` 32-38. -/
inductive Event where
  | start (ty : NodeType) (forwardParent : Option Nat)
  | token (ty : NodeType) (nRawTokens : Nat)
  | fin
  | cached (key nEvents : Nat)
deriving DecidableEq, Repr

/-- The `HashMap<(TextUnit, ExprRef), (u32, u32, u32)>` of `fall/parse/src/syn_engine/parser.rs` 9:
an association list, the first entry for a key being the current one. -/
abbrev CacheMap := List ((Nat × Nat) × (Nat × Nat × Nat))

/-- The fields of `Parser` that do not change during a run:
`fall/parse/src/syn_engine/parser.rs` 8-13. -/
structure Env where
  cache : Option (CacheMap × List Event)
  grammar : Grammar
  text : List Nat
  tokens : List Token
  /-- `non_ws_indexes`: offset in the text and index in `tokens` of each significant token. -/
  nonWs : List (Nat × Nat)

/-- The fields of `Parser` that change: `fall/parse/src/syn_engine/parser.rs` 15-21. The arrays of
length 16 are lists. -/
structure PState where
  ticks : Nat
  events : List Event
  replacement : Option Nat
  predicate : Bool
  contexts : List Bool
  args : List (Option Nat)
  prev : Option NodeType
deriving DecidableEq, Repr

/-- `fall/parse/src/syn_engine/parser.rs` 24-25: the current significant token and the end of the
layer. -/
structure Pos where
  cur : Nat
  stop : Nat
deriving DecidableEq, Repr

/-- `fall/parse/src/syn_engine/parser.rs` 28-30. -/
def Pos.next (p : Pos) : Pos := ⟨p.cur + 1, p.stop⟩

/-- `fall/parse/src/syn_engine/parser.rs` 32-34. -/
def Pos.isEmpty (p : Pos) : Bool := p.cur == p.stop

/-- Outcome of running a part of the parser. Not in the code: Rust panics and loops. -/
inductive Out (β : Type) where
  | ok (b : β) (s : PState)
  | panic
  | timeout
deriving DecidableEq, Repr

/-- A function with access to `&mut Parser`. -/
def P (β : Type) := PState → Out β

namespace P

/-- Sequencing of statements: a panic (or a missing result) ends the run. -/
def bind (m : P β) (f : β → P γ) : P γ := fun s =>
  match m s with
  | .ok b s => f b s
  | .panic => .panic
  | .timeout => .timeout

instance : Monad P where
  pure b := fun s => .ok b s
  bind := P.bind

/-- `panic!`, `unreachable!`, a failed `assert!`. -/
def panic : P β := fun _ => .panic

/-- The budget is used up. -/
def timeout : P β := fun _ => .timeout

/-- `unwrap` or an index expression: `none` is a panic. -/
def lift : Option β → P β
  | some b => pure b
  | none => panic

/-- `if c { m }`. -/
def cond (c : Bool) (m : P Unit) : P Unit := if c then m else pure ()

/-- Reads the state of the parser. -/
def get : P PState := fun s => .ok s s

/-- Assigns fields of the parser. -/
def modify (f : PState → PState) : P Unit := fun s => .ok () (f s)

end P

/-- The loop of `fall/parse/src/syn_engine/parser.rs` 50-55, `len` and `i` being the variables of
the same name. -/
def nonWsIndexes (isWs : NodeType → Bool) : (len i : Nat) → List Token → List (Nat × Nat)
  | _, _, [] => []
  | len, i, t :: ts =>
    if isWs t.ty then nonWsIndexes isWs (len + t.len) (i + 1) ts
    else (len, i) :: nonWsIndexes isWs (len + t.len) (i + 1) ts

/-- `fall/parse/src/syn_engine/parser.rs` 40-66: the fixed part of the parser. -/
def Env.new (cache : Option (CacheMap × List Event)) (grammar : Grammar) (isWs : NodeType → Bool)
    (text : List Nat) (tokens : List Token) : Env :=
  ⟨cache, grammar, text, tokens, nonWsIndexes isWs 0 0 tokens⟩

/-- `fall/parse/src/syn_engine/parser.rs` 68-74: the initial state. -/
def PState.new : PState :=
  ⟨0, [], none, false, List.replicate 16 false, List.replicate 16 none, none⟩

/-- `fall/parse/src/syn_engine/parser.rs` 59: the initial position. -/
def Env.startPos (env : Env) : Pos := ⟨0, env.nonWs.length⟩

namespace Parser

/-- `fall/parse/src/syn_engine/parser.rs` 84-86. -/
def tick : P Unit := P.modify fun s => { s with ticks := s.ticks + 1 }

/-- `fall/parse/src/syn_engine/parser.rs` 224-228. -/
def event (e : Event) : P Unit := P.modify fun s =>
  if s.predicate then s else { s with events := s.events ++ [e] }

/-- `fall/parse/src/syn_engine/parser.rs` 139-141. -/
def mark : P Nat := do
  let s ← P.get
  pure s.events.length

/-- `fall/parse/src/syn_engine/parser.rs` 239-245. -/
def nodeType (env : Env) (tyIdx : Nat) : P NodeType := P.lift env.grammar.nodeTypes[tyIdx]?

/-- `fall/parse/src/syn_engine/parser.rs` 231-237. -/
def tokenAt (env : Env) (pos : Pos) : P Token := P.lift do
  let (_, i) ← env.nonWs[pos.cur]?
  env.tokens[i]?

/-- `fall/parse/src/syn_engine/parser.rs` 214-218. -/
def startTy (ty : NodeType) : P Nat := do
  let m ← mark
  event (.start ty none)
  pure m

/-- `fall/parse/src/syn_engine/parser.rs` 89-92. -/
def start (env : Env) (tyIdx : Nat) : P Nat := do
  let ty ← nodeType env tyIdx
  startTy ty

/-- `fall/parse/src/syn_engine/parser.rs` 94-96. -/
def startError : P Unit := do
  let _ ← startTy ERROR
  pure ()

/-- `fall/parse/src/syn_engine/parser.rs` 98-100. -/
def finish : P Unit := event .fin

/-- `fall/parse/src/syn_engine/parser.rs` 220-222. -/
def token (ty : NodeType) (nRawTokens : Nat) : P Unit := event (.token ty nRawTokens)

/-- `fall/parse/src/syn_engine/parser.rs` 102-112. -/
def getFromCache (env : Env) (expr : Nat) (pos : Pos) : P (Option Pos) :=
  match env.cache with
  | none => pure none
  | some (cache, events) => do
    let (textPos, _) ← P.lift env.nonWs[pos.cur]?
    match cache.lookup (textPos, expr) with
    | none => pure none
    | some (startEvent, nEvents, nTokens) =>
      if startEvent + nEvents ≤ events.length then do
        P.modify fun s => { s with events := s.events ++ (events.drop startEvent).take nEvents }
        pure (some ⟨pos.cur + nTokens, pos.stop⟩)
      else P.panic

/-- `fall/parse/src/syn_engine/parser.rs` 114-118. -/
def startCached (expr : Nat) : P Nat := do
  let m ← mark
  event (.cached expr 0)
  pure m

/-- `fall/parse/src/syn_engine/parser.rs` 120-128. The subtraction underflows only where the index
on the next line would be out of bounds. -/
def finishCached (m : Nat) : P Unit := fun s =>
  if s.predicate then .ok () s
  else match s.events[m]? with
    | some (.cached key _) =>
      .ok () { s with events := s.events.set m (.cached key (s.events.length - (m + 1))) }
    | _ => .panic

/-- `fall/parse/src/syn_engine/parser.rs` 130-137. -/
def reopen : P Unit := fun s =>
  if s.predicate then .ok () s
  else match s.events.getLast? with
    | some .fin => .ok () { s with events := s.events.dropLast }
    | _ => .panic

/-- `fall/parse/src/syn_engine/parser.rs` 143-150. -/
def rollback (m : Nat) : P Unit := fun s =>
  if m ≤ s.events.length then .ok () { s with events := s.events.take m } else .panic

/-- `fall/parse/src/syn_engine/parser.rs` 152-158. -/
def replace (env : Env) (m tyIdx : Nat) : P Unit := do
  let ty ← nodeType env tyIdx
  fun s => match s.events[m]? with
    | some (.start _ fp) => .ok () { s with events := s.events.set m (.start ty fp) }
    | _ => .panic

/-- `fall/parse/src/syn_engine/parser.rs` 160-166. -/
def forwardParent (child parent : Nat) : P Unit := fun s =>
  match s.events[child]? with
  | some (.start ty _) =>
    if child ≤ parent then
      .ok () { s with events := s.events.set child (.start ty (some (parent - child))) }
    else .panic
  | _ => .panic

/-- `fall/parse/src/syn_engine/parser.rs` 168-175. -/
def bump (env : Env) (pos : Pos) : P (Option (NodeType × Pos)) :=
  if pos.isEmpty then pure none
  else do
    let t ← tokenAt env pos
    token t.ty 1
    pure (some (t.ty, pos.next))

/-- The loop of `fall/parse/src/syn_engine/parser.rs` 191-202; the list holds the entries of
`non_ws_indexes` from the current position on. Gives `n_tokens` and `pos`. -/
def byTextLoop (env : Env) : List (Nat × Nat) → (leftover nTokens : Nat) → Pos →
    P (Option (Nat × Pos))
  | rest, leftover, nTokens, pos =>
    if leftover = 0 then pure (some (nTokens, pos))
    else if pos.isEmpty then pure none
    else match rest with
      | [] => P.panic
      | (_, i) :: rest => do
        let t ← P.lift env.tokens[i]?
        if leftover < t.len then pure none
        else byTextLoop env rest (leftover - t.len) (nTokens + 1) pos.next

/-- `fall/parse/src/syn_engine/parser.rs` 177-208. -/
def bumpByText (env : Env) (pos : Pos) (text : List Nat) (tyIdx : Nat) : P (Option Pos) :=
  if pos.isEmpty then pure none
  else do
    let (start, _) ← P.lift env.nonWs[pos.cur]?
    if env.text.length < start then P.panic
    else if !(text.isPrefixOf (env.text.drop start)) then pure none
    else do
      match ← byTextLoop env (env.nonWs.drop pos.cur) text.length 0 pos with
      | none => pure none
      | some (nTokens, pos) => do
        let ty ← nodeType env tyIdx
        token ty nTokens
        pure (some pos)

/-- `fall/parse/src/syn_engine/parser.rs` 210-212. -/
def cutSuffix (pos suffix : Pos) : Pos := ⟨pos.cur, suffix.cur⟩

/-- The loop `while let Some((_, ts)) = p.bump(leftovers)` of
`fall/parse/src/syn_engine/expr.rs` 27-29 and 239-241 with a number of rounds. Each round moves by
one significant token and panics behind the last one, so `bumpAll` gives it enough rounds. -/
def bumpAllN (env : Env) : Nat → Pos → P Unit
  | 0, _ => P.panic
  | n + 1, pos => do
    match ← bump env pos with
    | none => pure ()
    | some (_, ts) => bumpAllN env n ts

/-- `fall/parse/src/syn_engine/expr.rs` 27-29, 239-241. -/
def bumpAll (env : Env) (pos : Pos) : P Unit := bumpAllN env (env.nonWs.length + 1 - pos.cur) pos

/-! The functions of `expr.rs` and `pratt.rs`. `rec` is `parse_expr`; `n` is the number of rounds
a loop may take. -/

/-- Type of `parse_expr`. -/
abbrev Rec := Nat → Pos → P (Option Pos)

/-- `fall/parse/src/syn_engine/expr.rs` 48-54. -/
def parseExprPred (rec : Rec) (expr : Nat) (pos : Pos) : P (Option Pos) := do
  let oldMode := (← P.get).predicate
  P.modify fun s => { s with predicate := true }
  let result ← rec expr pos
  P.modify fun s => { s with predicate := oldMode }
  pure result

/-- `fall/parse/src/syn_engine/expr.rs` 137-140. -/
def applyReplacement (env : Env) (m : Nat) (replaceable : Bool) : P Unit := do
  match replaceable, (← P.get).replacement with
  | true, some ty => do
    P.modify fun s => { s with replacement := none }
    replace env m ty
  | _, _ => pure ()

/-- `fall/parse/src/syn_engine/expr.rs` 128-144. -/
def parsePub (env : Env) (rec : Rec) (pos : Pos) (tyIdx body : Nat) (replaceable : Bool) :
    P (Option Pos) := do
  P.modify fun s => if replaceable then { s with replacement := none } else s
  let m ← start env tyIdx
  match ← rec body pos with
  | none => pure none
  | some ts => do
    applyReplacement env m replaceable
    finish
    let ty ← nodeType env tyIdx
    P.modify fun s => { s with prev := some ty }
    pure (some ts)

/-- `fall/parse/src/syn_engine/expr.rs` 146-153. -/
def parsePubReplace (rec : Rec) (pos : Pos) (tyIdx body : Nat) : P (Option Pos) := do
  match ← rec body pos with
  | none => pure none
  | some ts => do
    P.modify fun s => { s with replacement := some tyIdx }
    pure (some ts)

/-- `fall/parse/src/syn_engine/expr.rs` 155-161. -/
def parseOr (rec : Rec) (pos : Pos) : List Nat → P (Option Pos)
  | [] => pure none
  | o :: os => do
    match ← rec o pos with
    | some ts => pure (some ts)
    | none => parseOr rec pos os

/-- The loop of `fall/parse/src/syn_engine/expr.rs` 170-177. Gives `consumed` and `tokens`. -/
def andLoop (rec : Rec) : List Nat → Nat → Pos → P (Nat × Pos)
  | [], consumed, pos => pure (consumed, pos)
  | part :: parts, consumed, pos => do
    match ← rec part pos with
    | some ts => andLoop rec parts (consumed + 1) ts
    | none => pure (consumed, pos)

/-- `fall/parse/src/syn_engine/expr.rs` 163-186. -/
def parseAnd (rec : Rec) (pos : Pos) (parts : List Nat) (commit : Option Nat) :
    P (Option Pos) := do
  let (consumed, pos) ← andLoop rec parts 0 pos
  if consumed < commit.getD parts.length then pure none
  else do
    P.cond (consumed < parts.length) do
      startError
      finish
    pure (some pos)

/-- `fall/parse/src/syn_engine/expr.rs` 188-197. -/
def parseToken (env : Env) (pos : Pos) (tyIdx : Nat) : P (Option Pos) := do
  match ← bump env pos with
  | none => pure none
  | some (ty, ts) => do
    let ty' ← nodeType env tyIdx
    if ty' ≠ ty then pure none else pure (some ts)

/-- `fall/parse/src/syn_engine/expr.rs` 206-211. -/
def parseOpt (rec : Rec) (pos : Pos) (body : Nat) : P (Option Pos) := do
  let r ← rec body pos
  pure (some (r.getD pos))

/-- `fall/parse/src/syn_engine/expr.rs` 213-221. -/
def parseNot (rec : Rec) (pos : Pos) (e : Nat) : P (Option Pos) := do
  match ← parseExprPred rec e pos with
  | none => pure (some pos)
  | some _ => pure none

/-- `fall/parse/src/syn_engine/expr.rs` 229-246. -/
def parseLayer (env : Env) (rec : Rec) (pos : Pos) (l e : Nat) : P (Option Pos) := do
  match ← parseExprPred rec l pos with
  | none => pure none
  | some rest => do
    let layer := cutSuffix pos rest
    let r ← rec e layer
    let leftovers := r.getD layer
    P.cond (!leftovers.isEmpty) do
      startError
      bumpAll env leftovers
      finish
    pure (some rest)

/-- `fall/parse/src/syn_engine/expr.rs` 248-257. -/
def repLoop (rec : Rec) (body : Nat) : Nat → Pos → P (Option Pos)
  | 0, _ => P.timeout
  | n + 1, pos => do
    match ← rec body pos with
    | some ts => repLoop rec body n ts
    | none => pure (some pos)

/-- `fall/parse/src/syn_engine/expr.rs` 265-285. The body of the loop is cut in two at the
parsing attempt (269-274); this is the attempt. -/
def withSkipTry (rec : Rec) (pos : Pos) (first body : Nat) : P (Option Pos) := do
  match ← parseExprPred rec first pos with
  | some _ => rec body pos
  | none => pure none

/-- `fall/parse/src/syn_engine/expr.rs` 275-279. -/
def skipOpen (skipped : Bool) : P Unit := if skipped then reopen else startError

/-- `fall/parse/src/syn_engine/expr.rs` 259-286. -/
def withSkipLoop (env : Env) (rec : Rec) (first body : Nat) : Nat → Bool → Pos → P (Option Pos)
  | 0, _, _ => P.timeout
  | n + 1, skipped, pos => do
    P.cond skipped finish
    match ← withSkipTry rec pos first body with
    | some ts => pure (some ts)
    | none => do
      skipOpen skipped
      match ← bump env pos with
      | none => pure none
      | some (_, ts) => withSkipLoop env rec first body n true ts

/-- `fall/parse/src/syn_engine/expr.rs` 288-298 (`value = true`) and 300-310 (`false`). -/
def parseWithContext (rec : Rec) (pos : Pos) (ctx e : Nat) (value : Bool) : P (Option Pos) := do
  let old ← P.lift (← P.get).contexts[ctx]?
  P.modify fun s => { s with contexts := s.contexts.set ctx value }
  let result ← rec e pos
  P.modify fun s => { s with contexts := s.contexts.set ctx old }
  pure result

/-- `fall/parse/src/syn_engine/expr.rs` 312-317. -/
def parseIsIn (pos : Pos) (ctx : Nat) : P (Option Pos) := do
  let b ← P.lift (← P.get).contexts[ctx]?
  if b then pure (some pos) else pure none

/-- `fall/parse/src/syn_engine/expr.rs` 325-328. -/
def resolveArg (env : Env) (arg : Nat) : P Nat := do
  let s ← P.get
  match ← P.lift env.grammar.rules[arg]? with
  | .var i => P.lift s.args[i]?.join
  | _ => pure arg

/-- The loop of `fall/parse/src/syn_engine/expr.rs` 324-331. -/
def setArgs (env : Env) : List (Nat × Nat) → P Unit
  | [] => pure ()
  | (argPos, arg) :: args => do
    let arg ← resolveArg env arg
    if argPos < (← P.get).args.length then do
      P.modify fun s => { s with args := s.args.set argPos (some arg) }
      setArgs env args
    else P.panic

/-- `fall/parse/src/syn_engine/expr.rs` 319-335. -/
def parseCall (env : Env) (rec : Rec) (pos : Pos) (body : Nat) (args : List (Nat × Nat)) :
    P (Option Pos) := do
  let old := (← P.get).args
  setArgs env args
  let result ← rec body pos
  P.modify fun s => { s with args := old }
  pure result

/-- `fall/parse/src/syn_engine/expr.rs` 337-343. -/
def parseVar (rec : Rec) (pos : Pos) (i : Nat) : P (Option Pos) := do
  let expr ← P.lift ((← P.get).args[i]?.join)
  rec expr pos

/-- The loop of `fall/parse/src/syn_engine/expr.rs` 350-355. -/
def prevIsLoop (env : Env) (prev : NodeType) (pos : Pos) : List Nat → P (Option Pos)
  | [] => pure none
  | tyIdx :: tys => do
    let t ← nodeType env tyIdx
    if t = prev then pure (some pos) else prevIsLoop env prev pos tys

/-- `fall/parse/src/syn_engine/expr.rs` 345-358. -/
def parsePrevIs (env : Env) (pos : Pos) (tys : List Nat) : P (Option Pos) := do
  match (← P.get).prev with
  | some prev => prevIsLoop env prev pos tys
  | none => pure none

/-- `fall/parse/src/syn_engine/expr.rs` 360-372. -/
def parseInject (rec : Rec) (pos : Pos) (pre body : Nat) : P (Option Pos) := do
  let prefixMark ← mark
  match ← rec pre pos with
  | none => pure none
  | some afterPrefix => do
    let bodyMark ← mark
    match ← rec body afterPrefix with
    | none => pure none
    | some result => do
      P.cond (afterPrefix ≠ pos) (forwardParent prefixMark bodyMark)
      pure (some result)

/-- `fall/parse/src/syn_engine/expr.rs` 377, without the `?`. -/
def cachedOrParse (env : Env) (rec : Rec) (pos : Pos) (expr : Nat) : P (Option Pos) := do
  match ← getFromCache env expr pos with
  | some ts => pure (some ts)
  | none => rec expr pos

/-- `fall/parse/src/syn_engine/expr.rs` 374-381. -/
def parseCached (env : Env) (rec : Rec) (pos : Pos) (expr : Nat) : P (Option Pos) := do
  let m ← startCached expr
  match ← cachedOrParse env rec pos expr with
  | none => pure none
  | some result => do
    finishCached m
    pure (some result)

/-- `fall/parse/src/syn_engine/pratt.rs` 32-39. -/
def prattRhs (go : Pos → Nat → P (Option Pos)) (ix : Infix) (pos : Pos) : P Pos :=
  if ix.hasRhs then do
    match ← go pos (ix.priority + 1) with
    | some rest => pure rest
    | none => do
      startError
      finish
      pure pos
  else pure pos

/-- The `for` loop of `fall/parse/src/syn_engine/pratt.rs` 26-47; `go` is `pratt_go`. Gives the new
`lhs` and `tokens` if an operator was found (`continue 'l`, line 44). -/
def prattInfixes (env : Env) (rec : Rec) (go : Pos → Nat → P (Option Pos)) (lhs : Nat) (pos : Pos) :
    List Infix → P (Option (Nat × Pos))
  | [] => pure none
  | ix :: ixs => do
    let newLhs ← mark
    let m ← start env ix.ty
    match ← rec ix.op pos with
    | some rest => do
      forwardParent lhs m
      let pos ← prattRhs go ix rest
      let ty ← nodeType env ix.ty
      P.modify fun s => { s with prev := some ty }
      finish
      pure (some (newLhs, pos))
    | none => do
      rollback m
      prattInfixes env rec go lhs pos ixs

/-- The loop `'l` of `fall/parse/src/syn_engine/pratt.rs` 25-49. -/
def prattLoop (env : Env) (rec : Rec) (go : Pos → Nat → P (Option Pos)) (table : PrattTable)
    (minPrior : Nat) : Nat → Nat → Pos → P (Option Pos)
  | 0, _, _ => P.timeout
  | n + 1, lhs, pos => do
    match ← prattInfixes env rec go lhs pos (table.infixesFrom minPrior) with
    | some (lhs, pos) => prattLoop env rec go table minPrior n lhs pos
    | none => pure (some pos)

/-- `fall/parse/src/syn_engine/pratt.rs` 64-65. -/
def prattOperand (rec : Rec) (go : Pos → Nat → P (Option Pos)) (pf : Prefix) (pos : Pos) :
    P (Option Pos) := do
  match ← rec pf.op pos with
  | some ts => go ts pf.priority
  | none => pure none

/-- The loop of `fall/parse/src/syn_engine/pratt.rs` 62-73. -/
def prattPrefixes (env : Env) (rec : Rec) (go : Pos → Nat → P (Option Pos)) (pos : Pos) :
    List Prefix → P (Option Pos)
  | [] => pure none
  | pf :: pfs => do
    let m ← start env pf.ty
    match ← prattOperand rec go pf pos with
    | some rest => do
      let ty ← nodeType env pf.ty
      P.modify fun s => { s with prev := some ty }
      finish
      pure (some rest)
    | none => do
      rollback m
      prattPrefixes env rec go pos pfs

/-- `fall/parse/src/syn_engine/pratt.rs` 54-74. -/
def prattPrefix (env : Env) (rec : Rec) (go : Pos → Nat → P (Option Pos)) (table : PrattTable)
    (pos : Pos) : P (Option Pos) := do
  match ← parseOr rec pos table.atoms with
  | some result => pure (some result)
  | none => prattPrefixes env rec go pos table.prefixes

/-- `fall/parse/src/syn_engine/pratt.rs` 13-52. -/
def prattGo (env : Env) (rec : Rec) (table : PrattTable) : Nat → Pos → Nat → P (Option Pos)
  | 0, _, _ => P.timeout
  | n + 1, pos, minPrior => do
    let lhs ← mark
    match ← prattPrefix env rec (prattGo env rec table n) table pos with
    | some ts => prattLoop env rec (prattGo env rec table n) table minPrior n lhs ts
    | none => pure none

/-- `fall/parse/src/syn_engine/expr.rs` 56-125. -/
def parseExprInner (env : Env) (rec : Rec) (n : Nat) (expr : Nat) (pos : Pos) :
    P (Option Pos) := do
  match ← P.lift env.grammar.rules[expr]? with
  | .pub ty body replaceable => parsePub env rec pos ty body replaceable
  | .pubReplace ty body => parsePubReplace rec pos ty body
  | .or parts => parseOr rec pos parts
  | .and parts commit => parseAnd rec pos parts commit
  | .token ty => parseToken env pos ty
  | .contextualToken ty text => bumpByText env pos text ty
  | .opt body => parseOpt rec pos body
  | .not e => parseNot rec pos e
  | .eof => pure (if pos.isEmpty then some pos else none)
  | .any => do
    match ← bump env pos with
    | some (_, ts) => pure (some ts)
    | none => pure none
  | .layer l e => parseLayer env rec pos l e
  | .rep body => repLoop rec body n pos
  | .withSkip first body => withSkipLoop env rec first body n false pos
  | .pratt table => prattGo env rec table n pos 0
  | .enter ctx e => parseWithContext rec pos ctx e true
  | .exit ctx e => parseWithContext rec pos ctx e false
  | .isIn ctx => parseIsIn pos ctx
  | .call body args => parseCall env rec pos body args
  | .var i => parseVar rec pos i
  | .prevIs tys => parsePrevIs env pos tys
  | .inject pre body => parseInject rec pos pre body
  | .cached body => parseCached env rec pos body

/-- `fall/parse/src/syn_engine/expr.rs` 38-46, with a budget for the depth of the recursion and the
rounds of each loop. -/
def parseExpr (env : Env) : Nat → Rec
  | 0, _, _ => P.timeout
  | n + 1, expr, pos => do
    tick
    let m ← mark
    let result ← parseExprInner env (parseExpr env n) n expr pos
    P.cond result.isNone (rollback m)
    pure result

/-- `fall/parse/src/syn_engine/expr.rs` 22-32. -/
def parseMain (env : Env) (n : Nat) : P Unit := do
  let leftover ← P.lift (← parseExpr env n env.grammar.startRule env.startPos)
  P.cond (!leftover.isEmpty) do
    reopen
    startError
    bumpAll env leftover
    finish
    finish

end Parser

/-- Result of a whole parse: `none` is a panic, `timeout` that the budget was too small. -/
inductive Result (β : Type) where
  | ok (b : β)
  | panic
  | timeout
deriving DecidableEq, Repr

/-- `fall/parse/src/syn_engine/expr.rs` 12-35: the events and the number of ticks. -/
def synParse (env : Env) (n : Nat) : Result (List Event × Nat) :=
  match Parser.parseMain env n .new with
  | .ok _ s => .ok (s.events, s.ticks)
  | .panic => .panic
  | .timeout => .timeout

end Fall
