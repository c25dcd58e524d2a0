import Verif.Model.Analysis
import Verif.Model.Syn

/-!
Model of the parser generator: `fall/gen/src/generate/codegen.rs`, the part that makes the node types and the
rules of the parser, lines 16-62 and 121-347.

A generator asks queries of the analysis, can panic, can return an error, and pushes expressions. The texts of
errors are left out. Numbers are not truncated to 32 bits.
-/

namespace Fall

open AProg

/-- A method of `Codegen` with `&mut self` that returns a `Result` (`fall/gen/src/generate/codegen.rs` 14 and 16-21):
from the expressions pushed so far to the result and the expressions then. `none` is `Err`. -/
def Gen (α : Type) := List Expr → AProg (Option (α × List Expr))

namespace Gen

/-- `Ok(v)`, e.g. `fall/gen/src/generate/codegen.rs` 190. -/
def ok (v : α) : Gen α := fun es => pure (some (v, es))

/-- The operator `?`, e.g. `fall/gen/src/generate/codegen.rs` 154. -/
def bind (m : Gen α) (k : α → Gen β) : Gen β := fun es => do
  match ← m es with
  | none => return none
  | some (v, es) => k v es

instance : Monad Gen where
  pure := ok
  bind := bind

/-- `Err`, e.g. `fall/gen/src/generate/codegen.rs` 295. -/
def err : Gen α := fun _ => pure none

/-- `ok_or(..)?`, e.g. `fall/gen/src/generate/codegen.rs` 311-312. -/
def okOr : Option α → Gen α
  | none => err
  | some v => ok v

/-- A call of an accessor or an `unwrap`, which can panic, e.g. `fall/gen/src/generate/codegen.rs` 277. -/
def lift (x : Option α) : Gen α := fun es => do
  let v ← AProg.lift x
  return some (v, es)

/-- A query of the analysis, e.g. `fall/gen/src/generate/codegen.rs` 217. -/
def get (q : Query) : Gen (Value q) := fun es => do
  let v ← AProg.get q
  return some (v, es)

/-- `fall/gen/src/generate/codegen.rs` 193-197. -/
def push (e : Expr) : Gen Nat := fun es => pure (some (es.length, es ++ [e]))

/-- `map(..).collect::<Result<Vec<_>>>()?`, e.g. `fall/gen/src/generate/codegen.rs` 209-212. -/
def each (g : α → Gen β) : List α → Gen (List β)
  | [] => pure []
  | a :: as => do
    let b ← g a
    let bs ← each g as
    return b :: bs

end Gen

namespace Ty

/-- `lang/fall/syntax/src/fall.rs` 41. -/
def optExpr : NodeType := 138

/-- `lang/fall/syntax/src/fall.rs` 42. -/
def repExpr : NodeType := 139

end Ty

/-- `filter` with a property that can panic, e.g. `fall/gen/src/generate/codegen.rs` 36. -/
def filterOpt (p : α → Option Bool) : List α → Option (List α)
  | [] => some []
  | a :: as => do
    let b ← p a
    let rest ← filterOpt p as
    return (if b then a :: rest else rest)

/-- `position` with a property that can panic; the rest is not looked at, e.g. `fall/gen/src/generate/codegen.rs`
208. -/
def positionOpt (p : α → Option Bool) : List α → Option (Option Nat)
  | [] => some none
  | a :: as => do
    if ← p a then return some 0
    else return (← positionOpt p as).map (· + 1)

namespace File

variable (f : File UInt8)

/-- `lang/fall/syntax/src/ast_ext.rs` 23-34 and 65-67. -/
def tokenText (rule : NodeId) : Option (Option (List UInt8)) := do
  match ← f.childOfType rule Ty.string with
  | none => return none
  | some s =>
    let raw ← f.textOf s
    if startsWithByte 114 raw then return none else some <$> litBody raw

/-- `fall/gen/src/generate/codegen.rs` 205-207. -/
def isCommit (part : NodeId) : Option Bool := do
  let s ← f.textOf part
  return s == ascii "<commit>"

/-- The rules whose names are node types, `fall/gen/src/generate/codegen.rs` 36 and
`lang/fall/syntax/src/ast_ext.rs` 71-73. -/
def namesType (rule : NodeId) : Option Bool := do
  if (← f.childOfType rule Ty.pub).isSome then return (← f.typeAttr rule).isNone else return false

/-- `fall/gen/src/generate/codegen.rs` 24-41: the names of the node types, and whether they are skipped. -/
def genTypes : Option (List (List UInt8 × Bool)) := do
  let tokens ← (← f.lexRules).mapM fun r => do return ((← f.lexNodeType r), (← f.hasAttr r (ascii "skip")))
  let rules ← filterOpt f.namesType (← f.synRules)
  let names ← rules.mapM f.ruleName
  return tokens ++ (names.filterMap id).map fun n => (n, false)

end File

section
variable (f : File UInt8) (types : List (List UInt8 × Bool))

/-- The position of a name, `fall/gen/src/generate/codegen.rs` 123-125. The number of a type is one more than its
position: the first one of the generated parser is `ERROR`. -/
def typeNumber (name : List UInt8) : Option Nat := (types.findIdx? (·.1 == name)).map (· + 1)

/-- `fall/gen/src/generate/codegen.rs` 121-126. -/
def synRuleTy (rule : NodeId) : Gen (Option Nat) := do
  let name ← Gen.lift (f.tyName rule)
  return name.bind (typeNumber types)

/-- `fall/gen/src/generate/codegen.rs` 128-131. -/
def synRuleRef (rule : NodeId) : Gen Nat := Gen.lift do (← f.synRules).findIdx? (· == rule)

/-- `fall/gen/src/generate/codegen.rs` 133-139. -/
def lexRuleTy (rule : NodeId) : Gen Nat := Gen.lift do typeNumber types (← f.lexNodeType rule)

/-- `fall/gen/src/generate/codegen.rs` 141-149: the parameters of all rules are counted. -/
def paramRef (param : NodeId) : Gen Nat := Gen.lift do
  let params ← (← f.synRules).mapM f.ruleParams
  (params.filterMap id).flatten.findIdx? (· == param)

/-- `fall/gen/src/generate/codegen.rs` 221-233. -/
def genToken (rule : NodeId) : Gen Expr := do
  let ty ← lexRuleTy f types rule
  if ← Gen.lift (f.hasAttr rule (ascii "contextual")) then
    let text ← Gen.okOr (← Gen.lift (f.tokenText rule))
    return .contextualToken ty (text.map (·.toNat))
  else return .token ty

/-- `fall/gen/src/generate/codegen.rs` 243-280; `rec` is `gen_expr`. -/
def genCall (rec : NodeId → Gen Nat) : CallKind → Gen Expr
  | .eof => return .eof
  | .any => return .any
  | .enter ctx e => return .enter ctx (← rec e)
  | .exit ctx e => return .exit ctx (← rec e)
  | .isIn ctx => return .isIn ctx
  | .not e => return .not (← rec e)
  | .layer e1 e2 => do
    let r1 ← rec e1
    let r2 ← rec e2
    return .layer r1 r2
  | .withSkip e1 e2 => do
    let r1 ← rec e1
    let r2 ← rec e2
    return .withSkip r1 r2
  | .inject e1 e2 => do
    let r1 ← rec e1
    let r2 ← rec e2
    return .inject r1 r2
  | .ruleCall rule args => do
    let body ← synRuleRef f rule
    let args ← Gen.each (fun (pe : NodeId × NodeId) => do
      let p ← paramRef f pe.1
      let e ← rec pe.2
      return (p, e)) args
    return .call body args
  | .prevIs rules => do
    let tys ← Gen.each (fun r => do
      let ty ← synRuleTy f types r
      Gen.lift ty) rules
    return .prevIs tys
  | .commit => Gen.lift none

/-- `fall/gen/src/generate/codegen.rs` 199-287. The first argument bounds the depth of the recursion; a node of another
type is no `Expr`. -/
def genExpr : Nat → NodeId → Gen Nat
  | 0, _ => Gen.lift none
  | fuel + 1, n => do
    let ty ← Gen.lift (f.ty n)
    if ty == Ty.blockExpr then
      let alts ← Gen.lift (f.astChildren isFallExpr n)
      let rs ← Gen.each (genExpr fuel) alts
      Gen.push (.or rs)
    else if ty == Ty.seqExpr then
      let parts ← Gen.lift (f.astChildren isFallExpr n)
      let commit ← Gen.lift (positionOpt f.isCommit parts)
      let parts ← Gen.lift (filterOpt (fun p => (f.isCommit p).map (!·)) parts)
      let rs ← Gen.each (genExpr fuel) parts
      Gen.push (.and rs commit)
    else if ty == Ty.refExpr then
      let r ← Gen.get (.resolveRef n)
      match (r : Option RefKind) with
      | none => Gen.err
      | some (.token rule) =>
        let e ← genToken f types rule
        Gen.push e
      | some (.rule rule) => synRuleRef f rule
      | some (.param p) =>
        let i ← paramRef f p
        Gen.push (.var i)
    else if ty == Ty.callExpr then
      let k ← Gen.get (.resolveCall n)
      let k ← Gen.okOr (k : Option CallKind)
      let e ← genCall f types (genExpr fuel) k
      Gen.push e
    else if ty == Ty.optExpr then
      let b ← Gen.lift (f.ruleBody n)
      let r ← genExpr fuel b
      Gen.push (.opt r)
    else if ty == Ty.repExpr then
      let b ← Gen.lift (f.ruleBody n)
      let r ← genExpr fuel b
      Gen.push (.rep r)
    else Gen.lift none

/-- `fall/gen/src/generate/codegen.rs` 290-301. -/
def altToRule (alt : NodeId) : Gen NodeId := do
  if (← Gen.lift (f.ty alt)) == Ty.seqExpr then
    let parts ← Gen.lift (f.astChildren isFallExpr alt)
    match parts with
    | [] => Gen.err
    | part :: _ =>
      if (← Gen.lift (f.ty part)) == Ty.refExpr then
        let r ← Gen.get (.resolveRef part)
        match (r : Option RefKind) with
        | some (.rule rule) => return rule
        | _ => Gen.err
      else Gen.err
  else Gen.err

/-- `fall/gen/src/generate/codegen.rs` 308-344: the loop. -/
def genPratt (rec : NodeId → Gen Nat) : List NodeId → PrattTable → Gen PrattTable
  | [], result => return result
  | alt :: alts, result => do
    let rule ← altToRule f alt
    let ty ← Gen.okOr (← synRuleTy f types rule)
    let k ← Gen.get (.prattVariant rule)
    let k ← Gen.okOr (k : Option PrattVariant)
    match k with
    | .atom _ =>
      let r ← synRuleRef f rule
      genPratt rec alts { result with atoms := result.atoms ++ [r] }
    | .postfix op priority =>
      let r ← rec op
      genPratt rec alts { result with infixes := result.infixes ++ [⟨ty, r, priority, false⟩] }
    | .prefix op priority =>
      let r ← rec op
      genPratt rec alts { result with prefixes := result.prefixes ++ [⟨ty, r, priority⟩] }
    | .bin op priority =>
      let r ← rec op
      genPratt rec alts { result with infixes := result.infixes ++ [⟨ty, r, priority, true⟩] }

/-- `fall/gen/src/generate/codegen.rs` 152-159. -/
def genBody (fuel : Nat) (rule : NodeId) : Gen Nat := do
  let pratt ← Gen.lift (f.hasAttr rule (ascii "pratt"))
  let body ← Gen.lift (f.ruleBody rule)
  if pratt then
    if (← Gen.lift (f.ty body)) == Ty.blockExpr then
      let alts ← Gen.lift (f.astChildren isFallExpr body)
      let table ← genPratt f types (genExpr f types fuel) alts ⟨[], [], []⟩
      Gen.push (.pratt table)
    else Gen.lift none
  else genExpr f types fuel body

/-- `fall/gen/src/generate/codegen.rs` 180 and 184: the assertion that the body is the last expression. -/
def assertLast (body : Nat) : Gen Unit := fun es => Gen.lift (if es.length = body + 1 then some () else none) es

/-- `self.expressions.pop().unwrap()`, `fall/gen/src/generate/codegen.rs` 185. -/
def popExpr : Gen Expr := fun es => do
  let e ← AProg.lift es.getLast?
  return some (e, es.dropLast)

/-- `fall/gen/src/generate/codegen.rs` 151-191. -/
def genRule (fuel : Nat) (rule : NodeId) : Gen Expr := do
  let body ← genBody f types fuel rule
  let ty ← synRuleTy f types rule
  let replaces ← Gen.lift (f.hasAttr rule (ascii "replaces"))
  let cached ← Gen.lift (f.hasAttr rule (ascii "cached"))
  match ty, replaces, cached with
  | some ty, true, _ => return .pubReplace ty body
  | some ty, false, false =>
    let replaceable ← Gen.lift (f.hasAttr rule (ascii "replaceable"))
    return .pub ty body replaceable
  | some ty, false, true =>
    let body ← Gen.push (.cached body)
    let replaceable ← Gen.lift (f.hasAttr rule (ascii "replaceable"))
    return .pub ty body replaceable
  | none, false, true =>
    assertLast body
    return .cached body
  | none, false, false =>
    assertLast body
    popExpr
  | none, true, _ => Gen.lift none

/-- `self.expressions[i] = e`, `fall/gen/src/generate/codegen.rs` 59. -/
def setExpr (i : Nat) (e : Expr) : Gen Unit := fun es =>
  Gen.lift (if i < es.length then some () else none) (es.set i e)

/-- `fall/gen/src/generate/codegen.rs` 57-60: the loop; the first number is the index of the first rule. -/
def genRules (fuel : Nat) : Nat → List NodeId → Gen Unit
  | _, [] => return ()
  | i, rule :: rules => do
    let e ← genRule f types fuel rule
    setExpr i e
    genRules fuel (i + 1) rules

end

/-- The node types and the rules of the generated parser: `fall/gen/src/generate/codegen.rs` 23-62. -/
def genParser (f : File UInt8) : AProg (Option (List (List UInt8 × Bool) × List Expr)) := do
  let types ← AProg.lift f.genTypes
  let rules ← AProg.lift f.synRules
  match ← genRules f types f.nodes.length 0 rules (List.replicate rules.length .any) with
  | none => return none
  | some (_, es) => return some (types, es)

end Fall
