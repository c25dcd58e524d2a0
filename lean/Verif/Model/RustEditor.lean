import Verif.Model.FallEditor
import Verif.Model.Symbols
import Verif.Model.Languages

/-!
Model of the editor features for Rust files: `lang/rust/src/editor/{mod,actions,file_symbols,symbol_index}.rs`.

The search in the index of symbols is in `Verif/Model/Symbols.lean`. Functions are functions into `Option`, where the
outer `none` is a panic. Text consists of bytes; the panic on cutting a character of several bytes is not modelled.
-/

namespace Fall

namespace RTy

/-- `lang/rust/syntax/src/rust.rs` 11. -/
def «let» : NodeType := 108

/-- `lang/rust/syntax/src/rust.rs` 55. -/
def eq : NodeType := 152

/-- `lang/rust/syntax/src/rust.rs` 60. -/
def semi : NodeType := 157

/-- `lang/rust/syntax/src/rust.rs` 89. -/
def lifetime : NodeType := 186

/-- `lang/rust/syntax/src/rust.rs` 94. -/
def ident : NodeType := 191

/-- `lang/rust/syntax/src/rust.rs` 96. -/
def useDecl : NodeType := 193

/-- `lang/rust/syntax/src/rust.rs` 97. -/
def useSpec : NodeType := 194

/-- `lang/rust/syntax/src/rust.rs` 100. -/
def fnDef : NodeType := 197

/-- `lang/rust/syntax/src/rust.rs` 105. -/
def structDef : NodeType := 202

/-- `lang/rust/syntax/src/rust.rs` 108. -/
def enumDef : NodeType := 205

/-- `lang/rust/syntax/src/rust.rs` 110. -/
def modDef : NodeType := 207

/-- `lang/rust/syntax/src/rust.rs` 111. -/
def implDef : NodeType := 208

/-- `lang/rust/syntax/src/rust.rs` 112. -/
def traitDef : NodeType := 209

/-- `lang/rust/syntax/src/rust.rs` 114. -/
def typeDef : NodeType := 211

/-- `lang/rust/syntax/src/rust.rs` 118. -/
def typeParameters : NodeType := 215

/-- `lang/rust/syntax/src/rust.rs` 119. -/
def typeParameter : NodeType := 216

/-- `lang/rust/syntax/src/rust.rs` 121. -/
def lifetimeParameter : NodeType := 218

/-- `lang/rust/syntax/src/rust.rs` 124. -/
def path : NodeType := 221

/-- `lang/rust/syntax/src/rust.rs` 126. -/
def pathSegment : NodeType := 223

/-- `lang/rust/syntax/src/rust.rs` 130. -/
def typeReference : NodeType := 227

/-- `lang/rust/syntax/src/rust.rs` 166. -/
def letStmt : NodeType := 263

/-- `lang/rust/syntax/src/rust.rs` 169. -/
def exprStmt : NodeType := 266

end RTy

/-- `fall/text/src/text_unit.rs` 57-62: panics if the difference is negative. (In a build without overflow checks it wraps
around; the users below then panic because the offset is not in the file.) -/
def unitSub (a b : Nat) : Option Nat := if b ≤ a then some (a - b) else none

section
variable (f : File UInt8)

/-- `lang/rust/syntax/src/rust.rs` 987-989: the text of the first identifier. -/
def rustName (n : NodeId) : Option (Option (List UInt8)) := do
  match ← f.childOfType n RTy.ident with
  | none => return none
  | some c =>
    let s ← f.textOf c
    return some s

/-- The leaf in `lang/rust/src/editor/mod.rs` 32, 47-48 and 66, `back` bytes before the offset. -/
def leafBefore (offset back : Nat) : Option (Option NodeId) := do
  let at_ ← unitSub offset back
  let leaves ← f.findLeafAtOffset f.root at_
  return leaves.leftBiased

/-! ## Typing: `lang/rust/src/editor/mod.rs` -/

/-- `lang/rust/src/editor/mod.rs` 31-44. -/
def afterSpaceTyped (offset : Nat) : Option (Option (List UInt8)) := do
  match ← leafBefore f offset 1 with
  | none => return none
  | some kw =>
    let ty ← f.ty kw
    if ty != RTy.let then return none
    else
      match ← f.astAncestor (· == RTy.letStmt) kw with
      | none => return none
      | some stmt =>
        let cs ← f.children stmt
        let cs ← f.filterNodes (fun d => d.ty == RTy.semi || d.ty == RTy.eq) cs
        if !cs.isEmpty then return none
        else
          let range ← f.range stmt
          let rest ← (Text.ofBuf f.text).sliceFrom range.stop
          let rest ← rest.asStr
          if rest.head? == some 59 then return none else return some [59]

/-- `lang/rust/src/editor/mod.rs` 59: the text that is inserted. -/
def debugPrint (text : List UInt8) : List UInt8 :=
  ascii "eprintln!(\"" ++ text ++ ascii " = {:?}\", " ++ text ++ ascii ");"

/-- `lang/rust/src/editor/mod.rs` 46-63. -/
def expandDebug (offset : Nat) : Option (Option (TextEdit UInt8)) := do
  match ← leafBefore f offset 2 with
  | none => return none
  | some leaf =>
    match ← f.astAncestor (· == RTy.exprStmt) leaf with
    | none => return none
    | some stmt =>
      let range ← f.range stmt
      let stop ← unitSub range.stop 3
      let part ← TextRange.fromTo range.start stop
      let text ← (Text.ofBuf f.text).slice part
      let target ← TextRange.fromTo range.start offset
      let text ← text.asStr
      let e ← FileEdit.new.replaceSubstring f target (debugPrint text)
      let edit ← e.intoTextEdit f
      return some edit

/-! ## Breadcrumbs: `lang/rust/src/editor/mod.rs` -/

/-- `lang/rust/src/editor/mod.rs` 72-76. -/
def declCrumb (tag : List UInt8) (n : NodeId) : Option (Option (List UInt8)) := do
  match ← rustName f n with
  | none => return none
  | some name => return some (tag ++ [32] ++ name)

/-- `lang/rust/src/editor/mod.rs` 84-93. -/
def implCrumb (n : NodeId) : Option (Option (List UInt8)) := do
  match ← f.astChildren (· == RTy.typeReference) n with
  | t1 :: t2 :: _ =>
    let a ← f.textOf t1
    let b ← f.textOf t2
    return some (ascii "impl " ++ a ++ ascii " for " ++ b)
  | [t1] =>
    let a ← f.textOf t1
    return some (ascii "impl " ++ a)
  | [] => return none

/-- The handlers in `lang/rust/src/editor/mod.rs` 80-93. They are for different types of nodes, so at most one is
called for a node. -/
def crumb (n : NodeId) : Option (Option (List UInt8)) := do
  let ty ← f.ty n
  if ty == RTy.structDef then declCrumb f (ascii "struct") n
  else if ty == RTy.enumDef then declCrumb f (ascii "enum") n
  else if ty == RTy.traitDef then declCrumb f (ascii "trait") n
  else if ty == RTy.fnDef then declCrumb f (ascii "fn") n
  else if ty == RTy.implDef then implCrumb f n
  else return none

/-- The loop in `lang/rust/src/editor/mod.rs` 71-95. -/
def crumbs : List NodeId → Option (List (List UInt8))
  | [] => return []
  | n :: ns => do
    let a ← crumb f n
    let rest ← crumbs ns
    return a.toList ++ rest

/-- `lang/rust/src/editor/mod.rs` 65-98. -/
def breadcrumbs (offset : Nat) : Option (List (List UInt8)) := do
  match ← leafBefore f offset 1 with
  | none => return []
  | some leaf =>
    let as ← f.ancestors leaf
    let acc ← crumbs f as
    return acc.reverse

/-! ## Symbols: `lang/rust/src/editor/file_symbols.rs` -/

/-- The types in `lang/rust/src/editor/file_symbols.rs` 14-19. -/
def symbolTypes : List NodeType :=
  [RTy.fnDef, RTy.structDef, RTy.enumDef, RTy.typeDef, RTy.traitDef, RTy.modDef]

/-- The handlers in `lang/rust/src/editor/file_symbols.rs` 6-19, which do the same for nodes of six types. The closure
`f` there is `add` here. -/
def symbolNode {τ : Type} (add : List UInt8 → NodeId → Option τ) (acc : List τ) (n : NodeId) : Option (List τ) := do
  let ty ← f.ty n
  if symbolTypes.contains ty then
    match ← rustName f n with
    | none => return acc
    | some name =>
      let s ← add name n
      return acc ++ [s]
  else return acc

/-- `lang/rust/src/editor/file_symbols.rs` 5-21. -/
def processSymbols {τ : Type} (add : List UInt8 → NodeId → Option τ) : Option (List τ) :=
  f.bottomUp (symbolNode f add) [] f.root

/-- `lang/rust/src/editor/mod.rs` 128-138. -/
def rustStructure : Option (List StructureNode) :=
  processSymbols f fun name n => do
    let range ← f.range n
    return ⟨name, range⟩

/-! ## Actions: `lang/rust/src/editor/actions.rs` -/

/-- `lang/rust/src/editor/actions.rs` 12-19 with `lang/rust/syntax/src/rust.rs` 840-842 and 885-890: the last segment of
the path of a use declaration without a list. -/
def bracesTarget (offset : Nat) : Option (Option NodeId) := do
  match ← f.astNodeAtOffset (· == RTy.useDecl) f.root offset with
  | none => return none
  | some decl =>
    let paths ← f.astChildren (· == RTy.path) decl
    match paths.head? with
    | none => return none
    | some path =>
      let segments ← f.astChildren (· == RTy.pathSegment) path
      match segments.head? with
      | none => return none
      | some last =>
        let specs ← f.astChildren (· == RTy.useSpec) decl
        if !specs.isEmpty then return none else return some last

/-- `lang/rust/src/editor/actions.rs` 12-25. -/
def addUseBraces (offset : Nat) (apply : Bool) : Option (Option (ActionResult UInt8)) := do
  match ← bracesTarget f offset with
  | none => return none
  | some last =>
    if !apply then return some .available
    else
      let text ← f.textOf last
      let edit ← (FileEdit.new.replaceWithText last ([123] ++ text ++ [125])).intoTextEdit f
      return some (.applied edit)

/-- `lang/rust/src/editor/actions.rs` 72-75 with `lang/rust/syntax/src/rust.rs` 813-815: panics if there is no
lifetime. -/
def lifetimeNames : List NodeId → Option (List (List UInt8))
  | [] => return []
  | n :: ns => do
    let c ← f.childOfTypeExn n RTy.lifetime
    let s ← f.textOf c
    let rest ← lifetimeNames ns
    return s :: rest

/-- `lang/rust/src/editor/actions.rs` 76-79: panics if there is no name. -/
def typeNames : List NodeId → Option (List (List UInt8))
  | [] => return []
  | n :: ns => do
    match ← rustName f n with
    | none => none
    | some s =>
      let rest ← typeNames ns
      return s :: rest

/-- `lang/rust/src/editor/actions.rs` 66-71: the names with `", "` between them. -/
def commaSeparated : List (List UInt8) → List UInt8
  | [] => []
  | [s] => s
  | s :: rest => s ++ [44, 32] ++ commaSeparated rest

/-- `lang/rust/src/editor/actions.rs` 64-81 with `lang/rust/syntax/src/rust.rs` 765-771. -/
def implArguments (params : NodeId) : Option (List UInt8) := do
  let ls ← f.astChildren (· == RTy.lifetimeParameter) params
  let ls ← lifetimeNames f ls
  let ts ← f.astChildren (· == RTy.typeParameter) params
  let ts ← typeNames f ts
  return [60] ++ commaSeparated (ls ++ ts) ++ [62]

/-- `lang/rust/src/editor/actions.rs` 55-82 with `lang/rust/syntax/src/rust.rs` 999-1002: the text that is inserted. -/
def implText (decl : NodeId) (name : List UInt8) : Option (List UInt8) := do
  let params ← f.astChildren (· == RTy.typeParameters) decl
  match params.head? with
  | none => return ascii "\n\nimpl " ++ name ++ ascii " {\n\n}"
  | some params =>
    let text ← f.textOf params
    let args ← implArguments f params
    return ascii "\n\nimpl" ++ text ++ [32] ++ name ++ args ++ ascii " {\n\n}"

/-- `lang/rust/src/editor/actions.rs` 45-87. -/
def addImplFor (ty : NodeType) (offset : Nat) (apply : Bool) : Option (Option (ActionResult UInt8)) := do
  match ← f.astNodeAtOffset (· == ty) f.root offset with
  | none => return none
  | some decl =>
    match ← rustName f decl with
    | none => return none
    | some name =>
      if !apply then return some .available
      else
        let text ← implText f decl name
        let edit ← (FileEdit.new.insertTextAfter decl text).intoTextEdit f
        return some (.applied edit)

/-- `lang/rust/src/editor/actions.rs` 39-43. -/
def addImpl (offset : Nat) (apply : Bool) : Option (Option (ActionResult UInt8)) := do
  match ← addImplFor f RTy.structDef offset apply with
  | some r => return some r
  | none => addImplFor f RTy.enumDef offset apply

/-- `lang/rust/src/editor/actions.rs` 7-10. -/
def rustActions : List (String × (Nat → Bool → Option (Option (ActionResult UInt8)))) :=
  [("Add braces", addUseBraces f), ("Add impl", addImpl f)]

/-- `lang/rust/src/editor/mod.rs` 140-153. -/
def rustContextActions (isWs : NodeType → Bool) (range : TextRange) : Option (List String) := do
  let result ← f.defaultContextActions isWs range []
  (rustActions f).foldlM (fun result a => do
    let r ← a.2 range.start false
    return if r.isSome then result ++ [a.1] else result) result

/-- `lang/rust/src/editor/mod.rs` 155-166. -/
def rustApplyContextAction (isWs : NodeType → Bool) (range : TextRange) (id : String) :
    Option (Option (TextEdit UInt8)) := do
  match ← f.applyDefaultContextAction isWs range id with
  | some result => return result
  | none =>
    match (rustActions f).find? (fun a => a.1 == id) with
    | none => return none
    | some a =>
      match ← a.2 range.start true with
      | none => return none
      | some r =>
        let edit ← r.intoEdit
        return some edit

end

end Fall
