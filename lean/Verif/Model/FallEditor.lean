import Verif.Model.Analysis

/-!
Model of the editor features for Fall grammars: `lang/fall/src/editor`, with `fall/editor/src/hl.rs`.

Swapping of alternatives is in `Verif/Model/Editor.lean`, the analysis in `Verif/Model/Analysis.lean`. Functions that ask
the analysis are programs (`AProg`), the others are functions into `Option`, where the outer `none` is a panic. A string
that is shown to the user is its bytes. `lang.node_type_info(ty).whitespace_like` is a parameter `isWs`.
-/

namespace Fall

open AProg

namespace Ty

/-- `lang/fall/syntax/src/fall.rs` 3. -/
def whitespace : NodeType := 100

/-- `lang/fall/syntax/src/fall.rs` 26. -/
def lAngle : NodeType := 123

/-- `lang/fall/syntax/src/fall.rs` 27. -/
def rAngle : NodeType := 124

/-- `lang/fall/syntax/src/fall.rs` 46. -/
def testDef : NodeType := 143

end Ty

/-! ## References and declarations: `lang/fall/src/editor/references` -/

/-- `lang/fall/src/editor/references/refdec.rs` 5-9. -/
structure Declaration where
  node : NodeId
  nameIdent : Option NodeId
deriving DecidableEq, Repr

/-- The three functions that a reference is resolved by: the closures in
`lang/fall/src/editor/references/mod.rs` 34-46, 49-60 and 66-72. -/
inductive ResolveFn where
  | refExpr
  | method
  | call
deriving DecidableEq, Repr

/-- `lang/fall/src/editor/references/refdec.rs` 25-28. -/
structure Reference where
  node : NodeId
  resolve : ResolveFn
deriving DecidableEq, Repr

section
variable (f : File UInt8)

/-- `lang/fall/src/editor/references/refdec.rs` 20-22. -/
def navigationRange (d : Declaration) : Option TextRange := f.range (d.nameIdent.getD d.node)

/-- `lang/fall/src/editor/references/mod.rs` 93-97. -/
def ruleDeclaration (rule : NodeId) : Option Declaration := do
  let i ← f.ruleIdent rule
  return ⟨rule, i⟩

/-- `lang/fall/src/editor/references/mod.rs` 99-109: tokens and parameters. -/
def plainDeclaration (n : NodeId) : Declaration := ⟨n, none⟩

/-- `lang/fall/src/editor/references/mod.rs` 111-121 with `lang/fall/syntax/src/fall.rs` 508-510 and 568-570: panics if
there is no name. -/
def itemDeclaration (n : NodeId) : Option Declaration := do
  let i ← f.childOfTypeExn n Ty.ident
  return ⟨n, some i⟩

/-- `lang/fall/src/editor/references/mod.rs` 81-91. -/
def defProvider (n : NodeId) : Option (Option Declaration) := do
  let ty ← f.ty n
  if ty == Ty.synRule then
    let d ← ruleDeclaration f n
    return some d
  else if ty == Ty.lexRule || ty == Ty.parameter then return some (plainDeclaration n)
  else if ty == Ty.astNodeDef || ty == Ty.astClassDef then
    let d ← itemDeclaration f n
    return some d
  else return none

/-- `lang/fall/src/editor/references/mod.rs` 41-45. -/
def refKindDeclaration : RefKind → Option Declaration
  | .rule r => ruleDeclaration f r
  | .param p => some (plainDeclaration p)
  | .token t => some (plainDeclaration t)

/-- `lang/fall/src/editor/references/mod.rs` 52-59: a text accessor has no target. -/
def methodDeclaration : MethodKind → Option (Option Declaration)
  | .astNode n _ => do
    let d ← itemDeclaration f n
    return some d
  | .astClass n _ => do
    let d ← itemDeclaration f n
    return some d
  | .token t _ => some (some (plainDeclaration t))
  | .text _ _ => some none

/-- `lang/fall/src/editor/references/mod.rs` 29-79. -/
def refProvider (n : NodeId) : AProg (Option Reference) := do
  let ty ← lift (f.ty n)
  if ty == Ty.refExpr then return some ⟨n, .refExpr⟩
  else if ty == Ty.methodDef then
    match ← lift (f.firstChild (· == Ty.astSelector) n) with
    | none => .panic
    | some sel => return some ⟨sel, .method⟩
  else if ty == Ty.ident then
    match ← lift (f.parent n) with
    | none => return none
    | some p =>
      let pty ← lift (f.ty p)
      if pty == Ty.callExpr then
        match ← get (.resolveCall p) with
        | some (.ruleCall _ _) => return some ⟨n, .call⟩
        | _ => return none
      else return none
  else return none

/-- `lang/fall/src/editor/references/refdec.rs` 35-37 with the closures in
`lang/fall/src/editor/references/mod.rs` 34-46, 49-60 and 66-72. That `wrap` in lines 35 and 67 succeeds is left out:
references are only made of nodes for which it does. -/
def resolveDeclaration (r : Reference) : AProg (Option Declaration) :=
  match r.resolve with
  | .refExpr => do
    match ← get (.resolveRef r.node) with
    | none => return none
    | some k =>
      let d ← lift (refKindDeclaration f k)
      return some d
  | .method => do
    match ← lift (f.astAncestor (· == Ty.methodDef) r.node) with
    | none => .panic
    | some m =>
      match ← get (.resolveMethod m) with
      | none => return none
      | some k => lift (methodDeclaration f k)
  | .call => do
    match ← lift (f.parent r.node) with
    | none => .panic
    | some p =>
      match ← get (.resolveCall p) with
      | some (.ruleCall rule _) =>
        let d ← lift (ruleDeclaration f rule)
        return some d
      | _ => .panic

/-- `lang/fall/src/editor/references/refdec.rs` 83-92. -/
def nonWsNodeAtOffset (isWs : NodeType → Bool) (offset : Nat) : Option (Option NodeId) := do
  let leaves ← f.findLeafAtOffset f.root offset
  match leaves.leftBiased with
  | none => return none
  | some leaf =>
    let ty ← f.ty leaf
    return if isWs ty then leaves.rightBiased else some leaf

/-- `filter_map(..).next()`, `lang/fall/src/editor/references/refdec.rs` 104. -/
def firstOver (g : NodeId → AProg (Option τ)) : List NodeId → AProg (Option τ)
  | [] => return none
  | n :: ns => do
    match ← g n with
    | some v => return some v
    | none => firstOver g ns

/-- `lang/fall/src/editor/references/refdec.rs` 94-105. -/
def tryFindAtOffset (isWs : NodeType → Bool) (offset : Nat) (g : NodeId → AProg (Option τ)) : AProg (Option τ) := do
  match ← lift (nonWsNodeAtOffset f isWs offset) with
  | none => return none
  | some n =>
    let as ← lift (f.ancestors n)
    firstOver g as

/-- `lang/fall/src/editor/references/mod.rs` 12-18 and `lang/fall/src/editor/references/refdec.rs` 44-55. -/
def resolveReferenceAt (isWs : NodeType → Bool) (offset : Nat) : AProg (Option TextRange) := do
  match ← tryFindAtOffset f isWs offset (refProvider f) with
  | none => return none
  | some r =>
    match ← resolveDeclaration f r with
    | none => return none
    | some d =>
      let range ← lift (navigationRange f d)
      return some range

/-- `reference_provider(node).and_then(|ref_| ref_.resolve(analysis))`,
`lang/fall/src/editor/references/refdec.rs` 69. -/
def providedTarget (n : NodeId) : AProg (Option Declaration) := do
  match ← refProvider f n with
  | none => return none
  | some r => resolveDeclaration f r

/-- `lang/fall/src/editor/references/refdec.rs` 64-70. -/
def declarationAt (offset : Nat) (n : NodeId) : AProg (Option Declaration) := do
  match ← lift (defProvider f n) with
  | some d =>
    let r ← lift (navigationRange f d)
    if r.containsOffsetNonstrict offset then return some d else providedTarget f n
  | none => providedTarget f n

/-- `lang/fall/src/editor/references/refdec.rs` 76-80. -/
def usagesOf (d : Declaration) : List NodeId → AProg (List TextRange)
  | [] => return []
  | n :: ns => do
    match ← refProvider f n with
    | none => usagesOf d ns
    | some r =>
      let t ← resolveDeclaration f r
      if t == some d then
        let range ← lift (f.range r.node)
        let rest ← usagesOf d ns
        return range :: rest
      else usagesOf d ns

/-- `lang/fall/src/editor/references/mod.rs` 20-27 and `lang/fall/src/editor/references/refdec.rs` 57-81. -/
def findUsages (isWs : NodeType → Bool) (offset : Nat) : AProg (List TextRange) := do
  match ← tryFindAtOffset f isWs offset (declarationAt f offset) with
  | none => return []
  | some d =>
    let nodes ← lift (f.subtree f.root)
    usagesOf f d nodes

/-! ## Tests: `lang/fall/src/editor/mod.rs` -/

/-- `lang/fall/src/editor/mod.rs` 84-96 with `lang/fall/syntax/src/fall.rs` 223-225. Panics if the test is not a child of
the root. -/
def testAtOffset (offset : Nat) : Option (Option Nat) := do
  let leaves ← f.findLeafAtOffset f.root offset
  match leaves.rightBiased with
  | none => return none
  | some leaf =>
    match ← f.astAncestor (· == Ty.testDef) leaf with
    | none => return none
    | some test =>
      let tests ← f.astChildren (· == Ty.testDef) f.root
      let i ← tests.findIdx? (· == test)
      return some i

/-! ## Structure: `lang/fall/src/editor/structure.rs` -/

/-- `fall/editor/src/lib.rs` 16-21. The children are left out: they are always empty here. -/
structure StructureNode where
  name : List UInt8
  range : TextRange
deriving DecidableEq, Repr

/-- The three handlers in `lang/fall/src/editor/structure.rs` 12-34. -/
def structureNode (acc : List StructureNode) (n : NodeId) : Option (List StructureNode) := do
  let ty ← f.ty n
  let range ← f.range n
  if ty == Ty.synRule then
    match ← f.ruleName n with
    | some name => return acc ++ [⟨name, range⟩]
    | none => return acc
  else if ty == Ty.tokenizerDef then return acc ++ [⟨ascii "tokenizer", range⟩]
  else if ty == Ty.astDef then return acc ++ [⟨ascii "ast", range⟩]
  else return acc

/-- `lang/fall/src/editor/structure.rs` 8-36. -/
def fileStructure : Option (List StructureNode) := f.bottomUp (structureNode f) [] f.root

/-! ## Highlighting: `lang/fall/src/editor/highlighting.rs` and `fall/editor/src/hl.rs` -/

/-- `fall/editor/src/hl.rs` 8-16: the tags used for Fall. -/
inductive HlTag where
  | error
  | comment
  | string
  | keyword
  | function
  | parameter
  | builtin
  | attr
  | literal
deriving DecidableEq, Repr

/-- `lang/fall/src/editor/highlighting.rs` 12-18. -/
def hlMap : List (HlTag × List NodeType) :=
  [(.comment, [101]), (.string, [129, 128]), (.keyword, [106, 107, 105, 108, 102, 103, 109, 110, 104]),
   (.parameter, [134]), (.attr, [144])]

/-- `fall/editor/src/hl.rs` 31-54. -/
def hlVisit (n : NodeId) : Option (List (TextRange × HlTag)) := do
  let ty ← f.ty n
  let range ← f.range n
  if ty == ERROR then
    let range ← if range.isEmpty then TextRange.fromLen range.start 1 else some range
    return [(range, .error)]
  else
    match hlMap.find? (fun e => e.2.contains ty) with
    | some e => return [(range, e.1)]
    | none => return []

/-- `lang/fall/src/editor/highlighting.rs` 56-64. -/
def colorizeChild (n : NodeId) (ty : NodeType) (tag : HlTag) : Option (List (TextRange × HlTag)) := do
  match ← f.childOfType n ty with
  | none => return []
  | some c =>
    let range ← f.range c
    return [(range, tag)]

/-- `lang/fall/src/editor/highlighting.rs` 25-30. -/
def refTag : Option RefKind → Option HlTag
  | some (.token _) => some .literal
  | some (.rule _) => some .function
  | some (.param _) => some .parameter
  | none => none

/-- `lang/fall/src/editor/highlighting.rs` 34-40. -/
def methodTag : Option MethodKind → Option HlTag
  | some (.token _ _) => some .literal
  | some (.astClass _ _) => some .function
  | some (.astNode _ _) => some .function
  | some (.text _ _) => none
  | none => none

/-- `lang/fall/src/editor/highlighting.rs` 44-47. -/
def callTag : Option CallKind → HlTag
  | none => .function
  | some (.ruleCall _ _) => .function
  | some _ => .builtin

/-- The handlers in `lang/fall/src/editor/highlighting.rs` 19-52. -/
def hlSemantic (n : NodeId) : AProg (List (TextRange × HlTag)) := do
  let ty ← lift (f.ty n)
  if ty == Ty.lexRule then lift (colorizeChild f n Ty.ident .literal)
  else if ty == Ty.synRule || ty == Ty.astNodeDef || ty == Ty.astTraitDef || ty == Ty.astClassDef then
    lift (colorizeChild f n Ty.ident .function)
  else if ty == Ty.refExpr then
    let k ← get (.resolveRef n)
    match refTag k with
    | none => return []
    | some tag =>
      let range ← lift (f.range n)
      return [(range, tag)]
  else if ty == Ty.methodDef then
    let k ← get (.resolveMethod n)
    match methodTag k with
    | none => return []
    | some tag =>
      match ← lift (f.firstChild (· == Ty.astSelector) n) with
      | none => .panic
      | some sel => lift (colorizeChild f sel Ty.ident tag)
  else if ty == Ty.callExpr then
    let k ← get (.resolveCall n)
    let a ← lift (colorizeChild f n Ty.ident (callTag k))
    let b ← lift (colorizeChild f n Ty.lAngle (callTag k))
    let c ← lift (colorizeChild f n Ty.rAngle (callTag k))
    return a ++ b ++ c
  else return []

/-- `fall/tree/src/visitor.rs` 81-101: the spans of a node are those of `hl::visitor`, then those of the handlers. -/
def hlNodes : List NodeId → AProg (List (TextRange × HlTag))
  | [] => return []
  | n :: ns => do
    let a ← lift (hlVisit f n)
    let b ← hlSemantic f n
    let rest ← hlNodes ns
    return a ++ b ++ rest

/-- `lang/fall/src/editor/highlighting.rs` 9-54. -/
def highlight : AProg (List (TextRange × HlTag)) := do
  let nodes ← lift (f.bottomUp (fun acc n => some (acc ++ [n])) [] f.root)
  hlNodes f nodes

/-! ## Extracting a rule: `lang/fall/src/editor/actions/extract_rule.rs` -/

/-- `lang/fall/src/editor/actions/extract_rule.rs` 34-52. -/
def rangeToExtract (parent : NodeId) (range : TextRange) : Option TextRange := do
  let ty ← f.ty parent
  if ty == Ty.seqExpr then
    let cs ← f.children parent
    let cs ← f.filterNodes (fun d => d.range.intersects range) cs
    match cs with
    | [] => f.range parent
    | first :: rest =>
      match rest.getLast? with
      | none => f.range parent
      | some last =>
        let fty ← f.ty first
        let lty ← f.ty last
        if isFallExpr fty && isFallExpr lty then
          let a ← f.range first
          let b ← f.range last
          TextRange.fromTo a.start b.stop
        else f.range parent
  else f.range parent

/-- `lang/fall/src/editor/actions/extract_rule.rs` 25: the text of the new rule. -/
def newRule (body : List UInt8) : List UInt8 := ascii "\n\nrule new_rule {\n  " ++ body ++ ascii "\n}"

/-- `lang/fall/src/editor/actions/extract_rule.rs` 22-30. -/
def extractEdit (expr : NodeId) (range : TextRange) : Option (TextEdit UInt8) := do
  match ← f.astAncestor (· == Ty.synRule) expr with
  | none => none
  | some rule =>
    let range ← rangeToExtract f expr range
    let body ← (Text.ofBuf f.text).slice range
    let body ← body.asStr
    let e ← FileEdit.new.replaceSubstring f range (ascii "new_rule")
    (e.insertTextAfter rule (newRule body)).intoTextEdit f

/-- `lang/fall/src/editor/actions/extract_rule.rs` 7-31. -/
def extractRule (range : TextRange) (apply : Bool) : Option (Option (ActionResult UInt8)) := do
  if range.isEmpty then return none
  else
    let node ← f.findCoveringNode f.root range
    let as ← f.ancestors node
    match ← f.findNode (fun d => isFallExpr d.ty) as with
    | none => return none
    | some expr =>
      let ty ← f.ty expr
      if ty == Ty.refExpr then return none
      else if !apply then return some .available
      else
        let edit ← extractEdit f expr range
        return some (.applied edit)

/-! ## Context actions: `lang/fall/src/editor/mod.rs` -/

/-- `lang/fall/src/editor/actions/mod.rs` 7-10. -/
def fallActions : List (String × (TextRange → Bool → Option (Option (ActionResult UInt8)))) :=
  [("Swap alternatives", fun range apply => f.swapAlternatives range.start apply),
   ("Extract rule", extractRule f)]

/-- `lang/fall/src/editor/mod.rs` 50-59. -/
def contextActions (isWs : NodeType → Bool) (range : TextRange) : Option (List String) := do
  let result ← f.defaultContextActions isWs range []
  (fallActions f).foldlM (fun result a => do
    let r ← a.2 range false
    return if r.isSome then result ++ [a.1] else result) result

/-- `lang/fall/src/editor/mod.rs` 61-68. -/
def applyContextAction (isWs : NodeType → Bool) (range : TextRange) (id : String) :
    Option (Option (TextEdit UInt8)) := do
  match ← f.applyDefaultContextAction isWs range id with
  | some result => return result
  | none =>
    match (fallActions f).find? (fun a => a.1 == id) with
    | none => return none
    | some a =>
      match ← a.2 range true with
      | none => return none
      | some r =>
        let edit ← r.intoEdit
        return some edit

end

/-! ## Formatting: `lang/fall/src/editor/formatter.rs` -/

/-- `lang/fall/src/editor/formatter.rs` 23-27. -/
inductive Spaces where
  | none
  | single
deriving DecidableEq, Repr

/-- `lang/fall/src/editor/formatter.rs` 17-21. -/
inductive SpacingRule where
  | after (ty : NodeType) (spaces : Spaces)
  | before (ty : NodeType) (spaces : Spaces)
deriving DecidableEq, Repr

/-- `lang/fall/src/editor/formatter.rs` 9-14. -/
def fallSpacing : List SpacingRule :=
  [.after fallPipe .single, .before fallPipe .single, .after Ty.lAngle .none, .before Ty.rAngle .none]

section
variable (f : File UInt8)

/-- `lang/fall/src/editor/formatter.rs` 46-55: the number of spaces, the node for them and the node before. -/
def SpacingRule.place (rule : SpacingRule) (n : NodeId) (ty : NodeType) (right left : Option NodeId) :
    Option (Spaces × NodeId × NodeId) :=
  match rule with
  | .after rty spaces =>
    match right with
    | some next => if rty == ty then some (spaces, next, n) else none
    | none => none
  | .before rty spaces =>
    match left with
    | some prev => if rty == ty then some (spaces, prev, prev) else none
    | none => none

/-- `lang/fall/src/editor/formatter.rs` 45-69: one round of the loop. -/
def spacerRule (wsType : NodeType) (n : NodeId) (e : FileEdit UInt8) (rule : SpacingRule) :
    Option (FileEdit UInt8) := do
  let ty ← f.ty n
  let right ← f.sibling n .right
  let left ← f.sibling n .left
  match rule.place n ty right left with
  | none => return e
  | some (spaces, ws, beforeWs) =>
    let text ← f.textOf ws
    if text.contains newlineByte then return e
    else
      let wty ← f.ty ws
      match spaces, wty == wsType with
      | .none, true => return e.delete ws
      | .single, false => return e.insertTextAfter beforeWs [32]
      | .single, true => return if text.length != 1 then e.replaceWithText ws [32] else e
      | .none, false => return e

/-- `lang/fall/src/editor/formatter.rs` 44-70. -/
def spacerApply (rules : List SpacingRule) (wsType : NodeType) (e : FileEdit UInt8) (n : NodeId) :
    Option (FileEdit UInt8) :=
  rules.foldlM (spacerRule f wsType n) e

/-- `lang/fall/src/editor/formatter.rs` 30-35 and 74-79; `reformat_node` is the same recursion as `walk_tree`. -/
def reformatFile (rules : List SpacingRule) (wsType : NodeType) : Option (TextEdit UInt8) := do
  let e ← f.walkTree (spacerApply f rules wsType) FileEdit.new f.root
  e.intoTextEdit f

/-- `lang/fall/src/editor/formatter.rs` 5-7. -/
def reformat : Option (TextEdit UInt8) := reformatFile f fallSpacing Ty.whitespace

end

end Fall
