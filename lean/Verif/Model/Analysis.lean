import Verif.Model.Db
import Verif.Model.Editor

/-!
Model of the analysis of Fall grammars: `lang/fall/src/analysis` and the parts of `lang/fall/syntax/src` it uses.

A typed node, e.g. `SynRule`, is the node it wraps. Accessors are functions into `Option`; `none` is a panic.
A string in a diagnostic is the text; texts of the file are lists of bytes.
-/

namespace Fall

/-! ## Accessors -/

namespace Ty

/-- `lang/fall/syntax/src/fall.rs` 12. -/
def pub : NodeType := 109

/-- `lang/fall/syntax/src/fall.rs` 16. -/
def star : NodeType := 113

/-- `lang/fall/syntax/src/fall.rs` 17. -/
def question : NodeType := 114

/-- `lang/fall/syntax/src/fall.rs` 18. -/
def dot : NodeType := 115

/-- `lang/fall/syntax/src/fall.rs` 20. -/
def colon : NodeType := 117

/-- `lang/fall/syntax/src/fall.rs` 31. -/
def simpleString : NodeType := 128

/-- `lang/fall/syntax/src/fall.rs` 33. -/
def ident : NodeType := 130

/-- `lang/fall/syntax/src/fall.rs` 35. -/
def synRule : NodeType := 132

/-- `lang/fall/syntax/src/fall.rs` 36. -/
def parameters : NodeType := 133

/-- `lang/fall/syntax/src/fall.rs` 37. -/
def parameter : NodeType := 134

/-- `lang/fall/syntax/src/fall.rs` 38. -/
def refExpr : NodeType := 135

/-- `lang/fall/syntax/src/fall.rs` 39. -/
def seqExpr : NodeType := 136

/-- `lang/fall/syntax/src/fall.rs` 40. -/
def blockExpr : NodeType := 137

/-- `lang/fall/syntax/src/fall.rs` 43. -/
def callExpr : NodeType := 140

/-- `lang/fall/syntax/src/fall.rs` 44. -/
def tokenizerDef : NodeType := 141

/-- `lang/fall/syntax/src/fall.rs` 45. -/
def lexRule : NodeType := 142

/-- `lang/fall/syntax/src/fall.rs` 47. -/
def attributes : NodeType := 144

/-- `lang/fall/syntax/src/fall.rs` 48. -/
def attr : NodeType := 145

/-- `lang/fall/syntax/src/fall.rs` 49. -/
def attributeValue : NodeType := 146

/-- `lang/fall/syntax/src/fall.rs` 50. -/
def string : NodeType := 147

/-- `lang/fall/syntax/src/fall.rs` 52. -/
def astDef : NodeType := 149

/-- `lang/fall/syntax/src/fall.rs` 53. -/
def astNodeDef : NodeType := 150

/-- `lang/fall/syntax/src/fall.rs` 54. -/
def astClassDef : NodeType := 151

/-- `lang/fall/syntax/src/fall.rs` 55. -/
def astTraitDef : NodeType := 152

/-- `lang/fall/syntax/src/fall.rs` 56. -/
def methodDef : NodeType := 153

/-- `lang/fall/syntax/src/fall.rs` 57. -/
def astSelector : NodeType := 154

end Ty

/-- The bytes of a string literal of the source, compared with texts by `fall/text/src/text.rs` 120-124. All of
them are ASCII. -/
def ascii (s : String) : List UInt8 := s.toList.map fun c => UInt8.ofNat c.toNat

/-- `fall/text/src/text.rs` 33-35, for a prefix of one byte. -/
def startsWithByte (b : UInt8) (s : List UInt8) : Bool := s.head? == some b

/-- `lang/fall/syntax/src/ast_ext.rs` 175-180: the text between the first and the last quote. -/
def litBody (lit : List UInt8) : Option (List UInt8) := do
  let q : UInt8 := if startsWithByte 39 lit then 39 else 34
  let s ← lit.findIdx? (· == q)
  let e ← lit.reverse.findIdx? (· == q)
  let range ← TextRange.fromTo (s + 1) (lit.length - 1 - e)
  return lit.extract range.start range.stop

/-- `core::str::parse::<u32>`, called in `lang/fall/syntax/src/ast_ext.rs` 165-168. -/
def parseU32 (s : List UInt8) : Option Nat :=
  let digits := if startsWithByte 43 s then s.drop 1 else s
  if digits.isEmpty || !digits.all (fun b => 48 ≤ b && b ≤ 57) then none
  else
    let n := digits.foldl (fun n b => 10 * n + (b.toNat - 48)) 0
    if n < 2 ^ 32 then some n else none

namespace File

variable (f : File UInt8)

/-- The first child that a type of typed nodes wraps: `AstChildren::new(..).next()` in
`lang/fall/syntax/src/fall.rs`, e.g. 212. -/
def firstChild (wrap : NodeType → Bool) (n : NodeId) : Option (Option NodeId) := do
  let cs ← f.astChildren wrap n
  return cs.head?

/-- The text of a child that must be there: `child_of_type_exn(..).text()` in `lang/fall/syntax/src/fall.rs`,
e.g. 275. -/
def childText (n : NodeId) (ty : NodeType) : Option (List UInt8) := do
  let c ← f.childOfTypeExn n ty
  f.textOf c

/-- `lang/fall/syntax/src/fall.rs` 214-216. -/
def synRules : Option (List NodeId) := f.astChildren (· == Ty.synRule) f.root

/-- `lang/fall/syntax/src/fall.rs` 211-213 and 247-249. -/
def lexRules : Option (List NodeId) := do
  match ← f.firstChild (· == Ty.tokenizerDef) f.root with
  | none => return []
  | some t => f.astChildren (· == Ty.lexRule) t

/-- `lang/fall/syntax/src/fall.rs` 274-276. -/
def lexNodeType (rule : NodeId) : Option (List UInt8) := f.childText rule Ty.ident

/-- `lang/fall/syntax/src/ast_ext.rs` 42-49 and 65-67. -/
def tokenName (rule : NodeId) : Option (List UInt8) := do
  match ← f.childOfType rule Ty.string with
  | none => f.lexNodeType rule
  | some s =>
    let r ← f.textOf s
    if startsWithByte 39 r then return r else f.lexNodeType rule

/-- `lang/fall/syntax/src/fall.rs` 301-303. -/
def ruleIdent (rule : NodeId) : Option (Option NodeId) := f.childOfType rule Ty.ident

/-- `lang/fall/syntax/src/fall.rs` 310-312 and 334-336; `none` inside if the rule has no parameter list. -/
def ruleParams (rule : NodeId) : Option (Option (List NodeId)) := do
  match ← f.firstChild (· == Ty.parameters) rule with
  | none => return none
  | some ps => some <$> f.astChildren (· == Ty.parameter) ps

/-- `lang/fall/syntax/src/fall.rs` 358-360. -/
def paramName (p : NodeId) : Option (List UInt8) := f.childText p Ty.ident

/-- `lang/fall/syntax/src/ast_ext.rs` 136-140. -/
def referenceName (r : NodeId) : Option (List UInt8) := do
  match ← f.childOfType r Ty.ident with
  | some c => f.textOf c
  | none => f.childText r Ty.simpleString

/-- `lang/fall/syntax/src/fall.rs` 697-699. -/
def fnName (call : NodeId) : Option (List UInt8) := f.childText call Ty.ident

/-- `lang/fall/syntax/src/fall.rs` 700-702. -/
def callArgs (call : NodeId) : Option (List NodeId) := f.astChildren isFallExpr call

/-- `lang/fall/syntax/src/ast_ext.rs` 144-151. -/
def contextName (call : NodeId) : Option (Option (List UInt8)) := do
  let name ← f.fnName call
  if !(name == ascii "is_in" || name == ascii "enter" || name == ascii "exit") then return none
  else
    match (← f.callArgs call).head? with
    | none => return none
    | some arg =>
      match ← f.childOfType arg Ty.simpleString with
      | none => return none
      | some ctx => some <$> (f.textOf ctx >>= litBody)

/-- `lang/fall/src/analysis/query/resolve_ref_expr.rs` 29-34: whether the reference is the name of a context. -/
def isContextArg (ref : NodeId) : Option Bool := do
  match ← f.parent ref with
  | none => none
  | some parent =>
    let ty ← f.ty parent
    if ty == Ty.callExpr then
      let ctx ← f.contextName parent
      if ctx.isSome then
        let args ← f.callArgs parent
        return args.head? == some ref
      else return false
    else return false

/-- `lang/fall/syntax/src/fall.rs` 298-300 and 382-384, for rules and tokens. -/
def attributesOf (rule : NodeId) : Option (Option (List NodeId)) := do
  match ← f.firstChild (· == Ty.attributes) rule with
  | none => return none
  | some as => some <$> f.astChildren (· == Ty.attr) as

/-- `lang/fall/syntax/src/ast_ext.rs` 159-161 and `lang/fall/syntax/src/fall.rs` 406-408. -/
def findAttr (name : List UInt8) : List NodeId → Option (Option NodeId)
  | [] => some none
  | a :: as => do
    let s ← f.childText a Ty.ident
    if s == name then return some a else findAttr name as

/-- `lang/fall/syntax/src/ast_ext.rs` 170-172 and `lang/fall/syntax/src/fall.rs` 409-411. -/
def attrText (a : NodeId) : Option (Option (List UInt8)) := do
  match ← f.firstChild (· == Ty.attributeValue) a with
  | none => return none
  | some v => some <$> f.textOf v

/-- `lang/fall/syntax/src/ast_ext.rs` 89-95. -/
def hasAttr (rule : NodeId) (name : List UInt8) : Option Bool := do
  match ← f.attributesOf rule with
  | none => return false
  | some as => return (← f.findAttr name as).isSome

/-- `lang/fall/syntax/src/ast_ext.rs` 97-99. -/
def typeAttr (rule : NodeId) : Option (Option NodeId) := do
  match ← f.attributesOf rule with
  | none => return none
  | some as => f.findAttr (ascii "type") as

/-- `lang/fall/syntax/src/fall.rs` 304-306. -/
def ruleName (rule : NodeId) : Option (Option (List UInt8)) := do
  match ← f.childOfType rule Ty.ident with
  | none => return none
  | some c => some <$> f.textOf c

/-- `lang/fall/syntax/src/ast_ext.rs` 101-110, with 71-77. -/
def tyName (rule : NodeId) : Option (Option (List UInt8)) := do
  if (← f.childOfType rule Ty.pub).isNone then return none
  else if ← f.hasAttr rule (ascii "pratt") then return none
  else
    match ← f.typeAttr rule with
    | some a => f.attrText a
    | none => f.ruleName rule

/-- `lang/fall/syntax/src/fall.rs` 307-309. -/
def ruleBody (rule : NodeId) : Option NodeId := do
  let b ← f.firstChild isFallExpr rule
  b

/-- The first node of a list whose text, given by an accessor that can panic, is `name`, which can panic too; the rest
is not looked at: `find` in `lang/fall/src/analysis/query/resolve_ref_expr.rs` 18 and
`lang/fall/src/analysis/query/resolve_method.rs` 32-38. -/
def findNamed (get : NodeId → Option (List UInt8)) (name : Option (List UInt8)) :
    List NodeId → Option (Option NodeId)
  | [] => some none
  | n :: ns => do
    let s ← get n
    let name' ← name
    if s == name' then return some n else findNamed get name ns

end File

/-! ## Queries -/

/-- `fall/editor/src/lib.rs` 23-31. -/
structure Diagnostic where
  range : TextRange
  error : Bool
  message : String
deriving DecidableEq, Repr

/-- The cached queries: `lang/fall/src/analysis/query/mod.rs` 9-152. -/
inductive Query where
  | allLexRules
  | allSynRules
  | allContexts
  | resolveRef (ref : NodeId)
  | resolveCall (call : NodeId)
  | unusedRules
  | prattVariant (rule : NodeId)
  | resolveMethod (method : NodeId)
  | astNodeTraits (node : NodeId)
deriving DecidableEq, Repr

/-- `lang/fall/src/analysis/query/mod.rs` 53-58. -/
inductive RefKind where
  | token (rule : NodeId)
  | rule (rule : NodeId)
  | param (p : NodeId)
deriving DecidableEq, Repr

/-- `lang/fall/src/analysis/query/mod.rs` 69-86. -/
inductive CallKind where
  | eof
  | any
  | commit
  | not (e : NodeId)
  | layer (e1 e2 : NodeId)
  | withSkip (e1 e2 : NodeId)
  | enter (ctx : Nat) (e : NodeId)
  | exit (ctx : Nat) (e : NodeId)
  | isIn (ctx : Nat)
  | ruleCall (rule : NodeId) (args : List (NodeId × NodeId))
  | prevIs (rules : List NodeId)
  | inject (e1 e2 : NodeId)
deriving DecidableEq, Repr

/-- `lang/fall/src/analysis/query/mod.rs` 97-109. -/
inductive PrattVariant where
  | atom (body : NodeId)
  | bin (op : NodeId) (priority : Nat)
  | postfix (op : NodeId) (priority : Nat)
  | prefix (op : NodeId) (priority : Nat)
deriving DecidableEq, Repr

/-- `lang/fall/src/analysis/query/mod.rs` 120-125. -/
inductive ChildArity where
  | single
  | optional
  | many
deriving DecidableEq, Repr

/-- `lang/fall/src/analysis/query/mod.rs` 127-138. -/
inductive MethodKind where
  | astNode (n : NodeId) (arity : ChildArity)
  | astClass (n : NodeId) (arity : ChildArity)
  | token (rule : NodeId) (arity : ChildArity)
  | text (rule : NodeId) (arity : ChildArity)
deriving DecidableEq, Repr

/-- The types of the results: `lang/fall/src/analysis/query/mod.rs` 9-152. A `HashMap` is the list of its entries,
in no order that matters: only `get` is used. An `Arc` is its contents. -/
def Value : Query → Type
  | .allLexRules => List (List UInt8 × NodeId)
  | .allSynRules => List (List UInt8 × NodeId)
  | .allContexts => List (List UInt8)
  | .resolveRef _ => Option RefKind
  | .resolveCall _ => Option CallKind
  | .unusedRules => Unit
  | .prattVariant _ => Option PrattVariant
  | .resolveMethod _ => Option MethodKind
  | .astNodeTraits _ => List NodeId

/-- The body of a query of the analysis, `lang/fall/src/analysis/db.rs` 87-91. -/
abbrev AProg := Prog Query Value Diagnostic

namespace AProg

/-- A call of an accessor, which may panic (`lang/fall/syntax/src/fall.rs`). -/
def lift : Option α → AProg α
  | none => .panic
  | some v => .ret v

/-- `db.get`, `lang/fall/src/analysis/db.rs` 55-74 and 105-126, for a cached query. -/
def get (q : Query) : AProg (Value q) := .ask q .ret

/-- `lang/fall/src/analysis/diagnostics.rs` 14-20. -/
def error (f : File UInt8) (n : NodeId) (message : String) : AProg Unit := do
  let r ← lift (f.range n)
  .emit ⟨r, true, message⟩ (.ret ())

/-- `lang/fall/src/analysis/diagnostics.rs` 22-28. -/
def warning (f : File UInt8) (n : NodeId) (message : String) : AProg Unit := do
  let r ← lift (f.range n)
  .emit ⟨r, false, message⟩ (.ret ())

end AProg

open AProg

section
variable (f : File UInt8)

/-- `lang/fall/src/analysis/query/all_lex_rules.rs` 16-21: the loop; `tys` are the node types seen so far. -/
def allLexRulesGo : List NodeId → List (List UInt8 × NodeId) → List (List UInt8) →
    AProg (List (List UInt8 × NodeId))
  | [], result, _ => pure result
  | rule :: rules, result, tys => do
    let name ← lift (f.tokenName rule)
    let ty ← lift (f.lexNodeType rule)
    if tys.contains ty then
      error f rule "Duplicate token"
      allLexRulesGo rules ((name, rule) :: result) tys
    else allLexRulesGo rules ((name, rule) :: result) (ty :: tys)

/-- `lang/fall/src/analysis/query/all_lex_rules.rs` 10-25. -/
def allLexRules : AProg (List (List UInt8 × NodeId)) := do
  let rules ← lift f.lexRules
  allLexRulesGo f rules [] []

/-- `lang/fall/src/analysis/query/all_syn_rules.rs` 14-25. -/
def allSynRulesGo : List NodeId → List (List UInt8 × NodeId) → AProg (List (List UInt8 × NodeId))
  | [], result => pure result
  | rule :: rules, result => do
    match ← lift (f.ruleIdent rule) with
    | none => allSynRulesGo rules result
    | some ident =>
      let name ← lift (f.textOf ident)
      if (result.lookup name).isSome then
        error f ident "Duplicate rule"
        allSynRulesGo rules result
      else allSynRulesGo rules ((name, rule) :: result)

/-- `lang/fall/src/analysis/query/all_syn_rules.rs` 10-28. -/
def allSynRules : AProg (List (List UInt8 × NodeId)) := do
  let rules ← lift f.synRules
  allSynRulesGo f rules []

/-- `lang/fall/src/analysis/query/find_syn_rule.rs` 7-10. -/
def findSynRule (name : List UInt8) : AProg (Option NodeId) := do
  let all ← get .allSynRules
  return List.lookup name (all : List (List UInt8 × NodeId))

/-- `lang/fall/src/analysis/query/find_lex_rule.rs` 7-10. -/
def findLexRule (name : List UInt8) : AProg (Option NodeId) := do
  let all ← get .allLexRules
  return List.lookup name (all : List (List UInt8 × NodeId))

/-- `BTreeMap::entry` in `lang/fall/src/analysis/query/all_context_ids.rs` 17-24: the entries sorted by the bytes
of the key; a key seen before gets the value `none`. -/
def contextEntry (ctx : List UInt8) (call : NodeId) :
    List (List UInt8 × Option NodeId) → List (List UInt8 × Option NodeId)
  | [] => [(ctx, some call)]
  | (k, v) :: rest =>
    if ctx < k then (ctx, some call) :: (k, v) :: rest
    else if ctx = k then (k, none) :: rest
    else (k, v) :: contextEntry ctx call rest

/-- `lang/fall/src/analysis/query/all_context_ids.rs` 12-27. -/
def contextMap : Option (List (List UInt8 × Option NodeId)) :=
  f.bottomUp (fun contexts n => do
    if (← f.ty n) == Ty.callExpr then
      match ← f.contextName n with
      | none => return contexts
      | some ctx => return contextEntry ctx n contexts
    else return contexts) [] f.root

/-- The text of a message, `lang/fall/src/analysis/query/all_context_ids.rs` 31. The text of the context is not
decoded from UTF-8, each byte is one character. -/
def showBytes (s : List UInt8) : String := String.ofList (s.map fun b => Char.ofNat b.toNat)

/-- `lang/fall/src/analysis/query/all_context_ids.rs` 29-33. -/
def contextWarnings : List (List UInt8 × Option NodeId) → AProg Unit
  | [] => pure ()
  | (k, some call) :: rest => do
    warning f call s!"Context `{showBytes k}` is used only once"
    contextWarnings rest
  | (_, none) :: rest => contextWarnings rest

/-- `lang/fall/src/analysis/query/all_context_ids.rs` 11-36. -/
def allContexts : AProg (List (List UInt8)) := do
  let result ← lift (contextMap f)
  contextWarnings f result
  return result.map (·.1)

/-- `lang/fall/src/analysis/query/resolve_ref_expr.rs` 12-38. -/
def resolveRef (ref : NodeId) : AProg (Option RefKind) := do
  let name ← lift (f.referenceName ref)
  let rule ← lift (f.astAncestor (· == Ty.synRule) ref)
  let rule ← lift rule
  let params ← lift (f.ruleParams rule)
  let param ← lift (File.findNamed f.paramName (some name) (params.getD []))
  match param with
  | some p => return some (.param p)
  | none =>
    match ← findSynRule name with
    | some r => return some (.rule r)
    | none =>
      match ← findLexRule name with
      | some r => return some (.token r)
      | none =>
        let isContext ← lift (f.isContextArg ref)
        if isContext then return none
        else
          error f ref "Unresolved reference"
          return none

/-- `lang/fall/src/analysis/query/resolve_call.rs` 20-27. -/
def expectArgs (call : NodeId) (expected got : Nat) : AProg Unit :=
  if expected ≠ got then error f call s!"Wrong number of arguments, expected {expected}, got {got}" else pure ()

/-- `lang/fall/src/analysis/query/resolve_call.rs` 128-138. The index is not truncated to 32 bits, so a file has fewer
than 2^32 contexts. -/
def resolveContext (call : NodeId) : AProg (Option Nat) := do
  match ← lift (f.contextName call) with
  | some name =>
    let all ← get .allContexts
    return List.findIdx? (· == name) (all : List (List UInt8))
  | none =>
    let args ← lift (f.callArgs call)
    let arg ← lift args.head?
    error f arg "Context should be a single quoted string"
    return none

/-- `lang/fall/src/analysis/query/resolve_call.rs` 67-75: the rule that an argument of `prev_is` stands for. -/
def prevIsRule (arg : NodeId) : AProg (Option NodeId) := do
  let ty ← lift (f.ty arg)
  if ty == Ty.refExpr then
    let r ← get (.resolveRef arg)
    match (r : Option RefKind) with
    | some (.rule rule) =>
      let name ← lift (f.tyName rule)
      return (if name.isSome then some rule else none)
    | _ => return none
  else return none

/-- `lang/fall/src/analysis/query/resolve_call.rs` 64-81. -/
def prevIsArgs (call : NodeId) : List NodeId → AProg (List NodeId)
  | [] => pure []
  | arg :: args => do
    match ← prevIsRule f arg with
    | some rule => do
      let rest ← prevIsArgs call args
      return rule :: rest
    | none => do
      error f call "<prev_is> arguments must be public rules"
      prevIsArgs call args

/-- `lang/fall/src/analysis/query/resolve_call.rs` 29-95: the built-in functions by their names. -/
def builtIn (call : NodeId) (args : List NodeId) : List (String × AProg (Option CallKind)) :=
  let n := args.length
  let zero (kind : CallKind) : AProg (Option CallKind) := do
    expectArgs f call 0 n
    return some kind
  let one (kind : NodeId → AProg (Option CallKind)) : AProg (Option CallKind) := do
    expectArgs f call 1 n
    match args with
    | arg :: _ => kind arg
    | [] => return none
  let two (kind : NodeId → NodeId → AProg (Option CallKind)) : AProg (Option CallKind) := do
    expectArgs f call 2 n
    match args with
    | arg1 :: arg2 :: _ => kind arg1 arg2
    | _ => return none
  [("any", zero .any),
   ("commit", zero .commit),
   ("eof", zero .eof),
   ("not", one fun arg => return some (.not arg)),
   ("is_in", one fun _ => do return (← resolveContext f call).map .isIn),
   ("layer", two fun arg1 arg2 => return some (.layer arg1 arg2)),
   ("with_skip", two fun arg1 arg2 => return some (.withSkip arg1 arg2)),
   ("inject", two fun arg1 arg2 => return some (.inject arg1 arg2)),
   ("enter", two fun _ arg2 => do return (← resolveContext f call).map fun ctx => .enter ctx arg2),
   ("exit", two fun _ arg2 => do return (← resolveContext f call).map fun ctx => .exit ctx arg2),
   ("prev_is", do return some (.prevIs (← prevIsArgs f call args)))]

/-- `lang/fall/src/analysis/query/resolve_call.rs` 17-125. -/
def resolveCall (call : NodeId) : AProg (Option CallKind) := do
  let args ← lift (f.callArgs call)
  let name ← lift (f.fnName call)
  match (builtIn f call args).find? fun b => ascii b.1 == name with
  | some b => b.2
  | none =>
    let unresolved : AProg (Option CallKind) := do
      let ident ← lift (f.childOfTypeExn call Ty.ident)
      error f ident "Unresolved reference"
      return none
    match ← findSynRule name with
    | none => unresolved
    | some rule =>
      match ← lift (f.ruleParams rule) with
      | none => unresolved
      | some params =>
        if params.length ≠ args.length then
          error f call s!"Expected {params.length} arguments, got {args.length}"
          return some (.ruleCall rule (params.zip args))
        else return some (.ruleCall rule (params.zip args))

/-- The rules that references resolve to, `lang/fall/src/analysis/query/unused_rules.rs` 14-20. -/
def usedByRefs : List NodeId → AProg (List NodeId)
  | [] => pure []
  | r :: rs => do
    let k ← get (.resolveRef r)
    let rest ← usedByRefs rs
    match (k : Option RefKind) with
    | some (.rule rule) => return rule :: rest
    | _ => return rest

/-- The rules that are called, `lang/fall/src/analysis/query/unused_rules.rs` 22-28. -/
def usedByCalls : List NodeId → AProg (List NodeId)
  | [] => pure []
  | c :: cs => do
    let k ← get (.resolveCall c)
    let rest ← usedByCalls cs
    match (k : Option CallKind) with
    | some (.ruleCall rule _) => return rule :: rest
    | _ => return rest

/-- `lang/fall/src/analysis/query/unused_rules.rs` 33-39. -/
def warnUnused (used : List NodeId) : List NodeId → AProg Unit
  | [] => pure ()
  | rule :: rules => do
    if used.contains rule then warnUnused used rules
    else
      match ← lift (f.ruleIdent rule) with
      | none => warnUnused used rules
      | some ident =>
        warning f ident "Unused rule"
        warnUnused used rules

/-- `lang/fall/src/analysis/query/unused_rules.rs` 12-40. -/
def unusedRules : AProg Unit := do
  let refs ← lift (f.astDescendants (· == Ty.refExpr) f.root)
  let used1 ← usedByRefs refs
  let calls ← lift (f.astDescendants (· == Ty.callExpr) f.root)
  let used2 ← usedByCalls calls
  let rules ← lift f.synRules
  warnUnused f (used1 ++ used2 ++ rules.head?.toList) rules

/-- `lang/fall/src/analysis/query/resolve_pratt_variant.rs` 17-29: the first of the four attributes, with its
value. -/
def prattAttr (attrs : List NodeId) : List String → Option (Option (String × Option Nat))
  | [] => some none
  | k :: ks => do
    match ← f.findAttr (ascii k) attrs with
    | some a =>
      let v ← f.attrText a
      return some (k, v.bind parseU32)
    | none => prattAttr attrs ks

/-- `lang/fall/src/analysis/query/resolve_pratt_variant.rs` 55-108, for the parts of the only alternative. -/
def prattOperator (rule ident : NodeId) (kind : String) (priority : Option Nat) (parts : List NodeId) :
    AProg (Option PrattVariant) := do
  let body ← lift (f.ruleBody rule)
  if kind == "postfix" then
    match parts with
    | [_, op] => return some (.postfix op (priority.getD 999))
    | _ =>
      error f body "Postfix rule requires a single expression and an operation"
      return none
  else if kind == "prefix" then
    match parts with
    | [op, _] => return some (.prefix op (priority.getD 999))
    | _ =>
      error f body "Prefix rule requires an operation and a single expression"
      return none
  else
    match parts, priority with
    | [_, op, _], some priority => return some (.bin op priority)
    | [_, _, _], none =>
      error f ident "Binary expression requires explicit priority"
      return none
    | _, _ =>
      error f body ("Binary expression requires a left hand side expression, an operator " ++
        "and a right hand side expression")
      return none

/-- `lang/fall/src/analysis/query/resolve_pratt_variant.rs` 9-109. -/
def prattVariant (rule : NodeId) : AProg (Option PrattVariant) := do
  match ← lift (f.ruleIdent rule) with
  | none => return none
  | some ident =>
    match ← lift (f.attributesOf rule) with
    | none => return none
    | some attrs =>
      match ← lift (prattAttr f attrs ["atom", "postfix", "prefix", "bin"]) with
      | none => return none
      | some (kind, priority) =>
        if kind == "atom" then
          if priority.isSome then
            error f ident "Atom rules don't have priority"
            let body ← lift (f.ruleBody rule)
            return some (.atom body)
          else
            let body ← lift (f.ruleBody rule)
            return some (.atom body)
        else
          let body ← lift (f.ruleBody rule)
          if (← lift (f.ty body)) == Ty.blockExpr then
            match ← lift (f.astChildren isFallExpr body) with
            | [alt] =>
              if (← lift (f.ty alt)) == Ty.seqExpr then
                let parts ← lift (f.astChildren isFallExpr alt)
                prattOperator f rule ident kind priority parts
              else return none
            | _ =>
              error f body "Expression rule requires a single alternative"
              return none
          else return none

/-- `lang/fall/src/analysis/query/resolve_method.rs` 30-42, with the arity of line 7-17 in its place. -/
def childKind (name : Option (List UInt8)) (arity : ChildArity) : Option (Option MethodKind) := do
  match ← f.firstChild (· == Ty.astDef) f.root with
  | none => return none
  | some ast =>
    let nodes ← f.astChildren (· == Ty.astNodeDef) ast
    match ← File.findNamed (fun n => f.childText n Ty.ident) name nodes with
    | some n => return some (.astNode n arity)
    | none =>
      let classes ← f.astChildren (· == Ty.astClassDef) ast
      match ← File.findNamed (fun n => f.childText n Ty.ident) name classes with
      | some n => return some (.astClass n arity)
      | none =>
        let rules ← f.lexRules
        match ← File.findNamed f.lexNodeType name rules with
        | some n => return some (.token n arity)
        | none => return none

/-- `lang/fall/src/analysis/query/resolve_method.rs` 7-27. -/
def resolveMethod (method : NodeId) : AProg (Option MethodKind) := do
  let selector ← lift (f.firstChild (· == Ty.astSelector) method)
  let selector ← lift selector
  let optional ← lift (f.childOfType selector Ty.question)
  let many ← lift (f.childOfType selector Ty.star)
  let arity := if optional.isSome then ChildArity.optional else if many.isSome then .many else .single
  match ← lift (childKind f (f.childText selector Ty.ident) arity) with
  | none => return none
  | some kind =>
    if (← lift (f.childOfType selector Ty.dot)).isSome then
      match kind with
      | .token rule arity => return some (.text rule arity)
      | _ => return none
    else return some kind

/-- `lang/fall/src/analysis/query/ast_node_traits.rs` 19-25. -/
def traitRefs (traits : List (List UInt8 × NodeId)) : List NodeId → AProg (List NodeId)
  | [] => pure []
  | r :: rs => do
    let name ← lift (f.textOf r)
    match traits.lookup name with
    | some t => do
      let rest ← traitRefs traits rs
      return t :: rest
    | none => do
      error f r "Unresolved trait"
      traitRefs traits rs

/-- The names of nodes, `lang/fall/src/analysis/query/ast_node_traits.rs` 12. Collecting into a `HashMap` keeps
the last of several entries with the same key, so the list is reversed. -/
def namedNodes : List NodeId → Option (List (List UInt8 × NodeId))
  | [] => some []
  | n :: ns => do
    let name ← f.childText n Ty.ident
    let rest ← namedNodes ns
    return (rest ++ [(name, n)])

/-- `lang/fall/src/analysis/query/ast_node_traits.rs` 11-13. -/
def allTraits : Option (List (List UInt8 × NodeId)) := do
  match ← f.firstChild (· == Ty.astDef) f.root with
  | none => return []
  | some ast =>
    let ts ← f.astChildren (· == Ty.astTraitDef) ast
    namedNodes f ts

/-- `lang/fall/src/analysis/query/ast_node_traits.rs` 15-17. -/
def traitIdents (node : NodeId) : Option (List NodeId) := do
  let cs ← f.children node
  let tys ← cs.mapM f.ty
  let after := (cs.zip tys).dropWhile fun c => c.2 != Ty.colon
  return ((after.filter fun c => c.2 == Ty.ident).map (·.1))

/-- `lang/fall/src/analysis/query/ast_node_traits.rs` 10-28. -/
def astNodeTraits (node : NodeId) : AProg (List NodeId) := do
  let traits ← lift (allTraits f)
  let refs ← lift (traitIdents f node)
  traitRefs f traits refs

/-- The bodies of all queries: the implementations of `OnceQExecutor` in `lang/fall/src/analysis/query`. -/
def analysisBody : (q : Query) → AProg (Value q)
  | .allLexRules => allLexRules f
  | .allSynRules => allSynRules f
  | .allContexts => allContexts f
  | .resolveRef ref => resolveRef f ref
  | .resolveCall call => resolveCall f call
  | .unusedRules => unusedRules f
  | .prattVariant rule => prattVariant f rule
  | .resolveMethod method => resolveMethod f method
  | .astNodeTraits node => astNodeTraits f node

/-- The queries for the nodes of a file, `lang/fall/src/analysis/mod.rs` 59-66. -/
def collectNodes : List NodeId → AProg Unit
  | [] => pure ()
  | n :: ns => do
    let ty ← lift (f.ty n)
    if ty == Ty.refExpr then do
      let _ ← get (.resolveRef n)
      collectNodes ns
    else if ty == Ty.callExpr then do
      let _ ← get (.resolveCall n)
      collectNodes ns
    else if ty == Ty.synRule then do
      let _ ← get (.prattVariant n)
      collectNodes ns
    else if ty == Ty.astNodeDef then do
      let _ ← get (.astNodeTraits n)
      collectNodes ns
    else collectNodes ns

/-- `lang/fall/src/analysis/mod.rs` 58-68: the requests of `collect_all_diagnostics`. -/
def collectRequests : AProg Unit := do
  let nodes ← lift (f.bottomUp (fun acc n => some (acc ++ [n])) [] f.root)
  collectNodes f nodes
  let _ ← get .unusedRules
  let _ ← get .allLexRules
  return ()

end

/-- The key of `lang/fall/src/analysis/mod.rs` 71-77: errors come before warnings, then by range. -/
def Diagnostic.le (a b : Diagnostic) : Bool :=
  let pa := if a.error then 0 else 1
  let pb := if b.error then 0 else 1
  decide (pa < pb ∨ (pa = pb ∧ (a.range.start < b.range.start ∨
    (a.range.start = b.range.start ∧ a.range.stop ≤ b.range.stop))))

/-- `lang/fall/src/analysis/mod.rs` 70-78. `sort_by_key` is a stable sort. -/
def sortDiagnostics (ds : List Diagnostic) : List Diagnostic := ds.mergeSort Diagnostic.le

end Fall
