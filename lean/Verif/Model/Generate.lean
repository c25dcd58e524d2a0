import Verif.Model.Codegen

/-!
Model of the rest of the code generator: the lexer, the verbatim part and the typed tree,
`fall/gen/src/generate/codegen.rs` 51-115 and 349-407, `fall/gen/src/util.rs`, and the meaning of the template
`fall/gen/src/generate/mod.rs` 15-178.

Names and texts are bytes. Texts of Rust that the generator writes are represented by what they say: a body of a
method is one of the three forms of `GenBody`, not a string.
-/

namespace Fall

open AProg

/-- `to_ascii_uppercase` of one byte, `fall/gen/src/util.rs` 4 and 10. Other bytes of a character are not ASCII
letters, so that it makes no difference that characters are bytes here. -/
def upperByte (b : UInt8) : UInt8 := if 97 ≤ b ∧ b ≤ 122 then b - 32 else b

/-- `fall/gen/src/util.rs` 3-5. -/
def scream (word : List UInt8) : List UInt8 := word.map upperByte

/-- `split(..)` at a byte, `fall/gen/src/util.rs` 9. -/
def splitAtByte (sep : UInt8) : List UInt8 → List (List UInt8)
  | [] => [[]]
  | b :: bs =>
    if b = sep then [] :: splitAtByte sep bs
    else match splitAtByte sep bs with
      | w :: ws => (b :: w) :: ws
      | [] => [[b]]

/-- `w[..1].to_ascii_uppercase() + &w[1..]`, `fall/gen/src/util.rs` 10. It panics if there is no first byte, or if
the first byte is only a part of a character. -/
def capital : List UInt8 → Option (List UInt8)
  | [] => none
  | b :: bs => if b < 128 then some (upperByte b :: bs) else none

/-- `fall/gen/src/util.rs` 7-12. -/
def camel (word : List UInt8) : Option (List UInt8) := do
  let parts ← (splitAtByte 95 word).mapM capital
  return parts.flatten

/-- `char::is_whitespace` for ASCII, `fall/text/src/text.rs` 55. White space outside of ASCII is not modelled. -/
def isSpaceByte (b : UInt8) : Bool := (9 ≤ b && b ≤ 13) || b == 32

/-- `fall/text/src/text.rs` 53-70. -/
def trimText (s : List UInt8) : List UInt8 :=
  ((s.dropWhile isSpaceByte).reverse.dropWhile isSpaceByte).reverse

/-- `fall/text/src/text.rs` 41-43. -/
def containsText (needle : List UInt8) : List UInt8 → Bool
  | [] => needle.isEmpty
  | b :: bs => needle.isPrefixOf (b :: bs) || containsText needle bs

namespace Ty

/-- `lang/fall/syntax/src/fall.rs` 32. -/
def hashString : NodeType := 129

/-- `lang/fall/syntax/src/fall.rs` 51. -/
def verbatimDef : NodeType := 148

end Ty

namespace File

variable (f : File UInt8)

/-- `lang/fall/syntax/src/ast_ext.rs` 10-21 and 65-67. `escape` is `regex::escape`. -/
def tokenRe (escape : List UInt8 → List UInt8) (rule : NodeId) : Option (Option (List UInt8)) := do
  match ← f.childOfType rule Ty.string with
  | none => return none
  | some s =>
    let raw ← f.textOf s
    let body ← litBody raw
    return some (if startsWithByte 114 raw then body else escape body)

/-- `lang/fall/syntax/src/ast_ext.rs` 36-40. -/
def externFn (rule : NodeId) : Option (Option (List UInt8)) := do
  let strings ← f.childrenOfType rule Ty.string
  match strings[1]? with
  | none => return none
  | some s => return some (← litBody (← f.textOf s))

/-- `lang/fall/syntax/src/ast_ext.rs` 109-113. -/
def verbatimContents (verbatim : NodeId) : Option (List UInt8) := do
  let body ← litBody (← f.childText verbatim Ty.hashString)
  return trimText body

/-- `lang/fall/syntax/src/ast_ext.rs` 126-128. -/
def classVariants (cls : NodeId) : Option (List (List UInt8)) := do
  let ids ← f.childrenOfType cls Ty.ident
  (ids.drop 1).mapM f.textOf

end File

/-- `fall/gen/src/generate/codegen.rs` 411-416. The expression is the text that `format!("{:?}", re)` denotes. -/
structure GenLexRule where
  ty : List UInt8
  re : List UInt8
  ext : Option (List UInt8)
  deriving DecidableEq, Repr

/-- The result type and the body of a method, `fall/gen/src/generate/codegen.rs` 353-403. -/
inductive GenBody where
  /-- Lines 356-364: the text of the first child of the type with this constant; `Option` of it if `optional`. -/
  | text (optional : Bool) (ty : List UInt8)
  /-- Lines 390-399: the first child of the type with this constant; `Option` of it if `optional`. -/
  | token (optional : Bool) (ty : List UInt8)
  /-- Lines 370-388: the first child that the type of this name wraps, `Option` of it, or all of them. -/
  | nodes (arity : ChildArity) (struct : List UInt8)
  deriving DecidableEq, Repr

/-- `fall/gen/src/generate/codegen.rs` 438-443. -/
structure GenMethod where
  name : List UInt8
  body : GenBody
  deriving DecidableEq, Repr

/-- `fall/gen/src/generate/codegen.rs` 418-423. -/
structure GenNode where
  structName : List UInt8
  typeName : List UInt8
  methods : List GenMethod
  deriving DecidableEq, Repr

/-- `fall/gen/src/generate/codegen.rs` 425-429. -/
structure GenClass where
  enumName : List UInt8
  variants : List (List UInt8 × List UInt8)
  deriving DecidableEq, Repr

/-- `fall/gen/src/generate/codegen.rs` 431-436. -/
structure GenTrait where
  traitName : List UInt8
  methods : List GenMethod
  implFor : List (List UInt8)
  deriving DecidableEq, Repr

/-- The entries `ast_nodes`, `ast_classes` and `ast_traits` of the context, `fall/gen/src/generate/codegen.rs`
80-112. -/
structure GenAst where
  nodes : List GenNode
  classes : List GenClass
  traits : List GenTrait
  deriving DecidableEq, Repr

/-- The context without node types and parser, `fall/gen/src/generate/codegen.rs` 64-112. -/
structure GenRest where
  lexRules : List GenLexRule
  verbatim : Option (List UInt8)
  binder : Bool
  ast : Option GenAst
  deriving DecidableEq, Repr

section
variable (f : File UInt8)

/-- `fall/gen/src/generate/codegen.rs` 67-71, for one rule. -/
def genLexRule (escape : List UInt8 → List UInt8) (rule : NodeId) : Gen (Option GenLexRule) := do
  if ← Gen.lift (f.hasAttr rule (ascii "contextual")) then return none
  else
    let re ← Gen.okOr (← Gen.lift (f.tokenRe escape rule))
    let ty ← Gen.lift (f.lexNodeType rule)
    let ext ← Gen.lift (f.externFn rule)
    return some ⟨ty, re, ext⟩

/-- `fall/gen/src/generate/codegen.rs` 64-71. -/
def genLexRules (escape : List UInt8 → List UInt8) : Gen (List GenLexRule) := do
  let _ ← Gen.okOr (← Gen.lift (f.firstChild (· == Ty.tokenizerDef) f.root))
  let rules ← Gen.lift f.lexRules
  let out ← Gen.each (genLexRule f escape) rules
  return out.filterMap id

/-- `fall/gen/src/generate/codegen.rs` 75-77. -/
def genVerbatim : Gen (Option (List UInt8) × Bool) := do
  match ← Gen.lift (f.firstChild (· == Ty.verbatimDef) f.root) with
  | none => return (none, false)
  | some v =>
    let text ← Gen.lift (f.verbatimContents v)
    return (some text, containsText (ascii "whitespace_binder") text)

/-- `camel(n.name())`, e.g. `fall/gen/src/generate/codegen.rs` 371. -/
def camelName (n : NodeId) : Gen (List UInt8) := Gen.lift do camel (← f.childText n Ty.ident)

/-- `fall/gen/src/generate/codegen.rs` 353-403. -/
def genBodyOf : MethodKind → Gen GenBody
  | .text rule arity => do
    let ty ← Gen.lift (f.lexNodeType rule)
    match arity with
    | .single => return .text false (scream ty)
    | .optional => return .text true (scream ty)
    | .many => Gen.lift none
  | .astNode n arity => return .nodes arity (← camelName f n)
  | .astClass n arity => return .nodes arity (← camelName f n)
  | .token rule arity => do
    let ty ← Gen.lift (f.lexNodeType rule)
    match arity with
    | .single => return .token false (scream ty)
    | .optional => return .token true (scream ty)
    | .many => Gen.lift none

/-- `fall/gen/src/generate/codegen.rs` 349-407. -/
def genMethod (method : NodeId) : Gen GenMethod := do
  let description ← Gen.okOr (← Gen.get (.resolveMethod method))
  let body ← genBodyOf f description
  let name ← Gen.lift (f.childText method Ty.ident)
  return ⟨name, body⟩

/-- `fall/gen/src/generate/codegen.rs` 85-87 and 102-104. -/
def genMethods (item : NodeId) : Gen (List GenMethod) := do
  Gen.each (genMethod f) (← Gen.lift (f.astChildren (· == Ty.methodDef) item))

/-- `fall/gen/src/generate/codegen.rs` 81-89. -/
def genNode (node : NodeId) : Gen GenNode := do
  let structName ← camelName f node
  let name ← Gen.lift (f.childText node Ty.ident)
  let methods ← genMethods f node
  return ⟨structName, scream name, methods⟩

/-- `fall/gen/src/generate/codegen.rs` 91-96. -/
def genClass (cls : NodeId) : Gen GenClass := do
  let enumName ← camelName f cls
  let names ← Gen.lift (f.classVariants cls)
  let variants ← Gen.each (fun v => do return (scream v, ← Gen.lift (camel v))) names
  return ⟨enumName, variants⟩

/-- `fall/gen/src/generate/codegen.rs` 106-108, for one node. -/
def genImpl (trait node : NodeId) : Gen (Option (List UInt8)) := do
  let traits : List NodeId ← Gen.get (.astNodeTraits node)
  if trait ∈ traits then return some (← camelName f node) else return none

/-- `fall/gen/src/generate/codegen.rs` 98-111. -/
def genTrait (nodes : List NodeId) (trait : NodeId) : Gen GenTrait := do
  let traitName ← camelName f trait
  let methods ← genMethods f trait
  let impls ← Gen.each (genImpl f trait) nodes
  return ⟨traitName, methods, impls.filterMap id⟩

/-- `fall/gen/src/generate/codegen.rs` 80-112. -/
def genAst : Gen (Option GenAst) := do
  match ← Gen.lift (f.firstChild (· == Ty.astDef) f.root) with
  | none => return none
  | some ast =>
    let nodes ← Gen.lift (f.astChildren (· == Ty.astNodeDef) ast)
    let classes ← Gen.lift (f.astChildren (· == Ty.astClassDef) ast)
    let traits ← Gen.lift (f.astChildren (· == Ty.astTraitDef) ast)
    let ns ← Gen.each (genNode f) nodes
    let cs ← Gen.each (genClass f) classes
    let ts ← Gen.each (genTrait f nodes) traits
    return some ⟨ns, cs, ts⟩

/-- `fall/gen/src/generate/codegen.rs` 64-112. -/
def genRest (escape : List UInt8 → List UInt8) : Gen GenRest := do
  let lexRules ← genLexRules f escape
  let v ← genVerbatim f
  let ast ← genAst f
  return ⟨lexRules, v.1, v.2, ast⟩

end

/-- The whole context, `fall/gen/src/generate/codegen.rs` 18-21 and 51-115. -/
structure GenFile where
  types : List (List UInt8 × Bool)
  rules : List Expr
  rest : GenRest
  deriving DecidableEq, Repr

/-- `fall/gen/src/generate/codegen.rs` 51-115. -/
def generate (escape : List UInt8 → List UInt8) (f : File UInt8) : AProg (Option GenFile) := do
  match ← genParser f with
  | none => return none
  | some (types, rules) =>
    match ← genRest f escape rules with
    | none => return none
    | some (rest, _) => return some ⟨types, rules, rest⟩

/-! ## The generated module -/

namespace GenFile

variable (g : GenFile) (upper : List UInt8 → List UInt8)

/-- The constants of the node types, `fall/gen/src/generate/mod.rs` 19-21. `upper` is the filter of Tera, which
replaces all lower case letters, also those outside of ASCII. -/
def constants : List (List UInt8 × NodeType) := g.types.zipIdx.map fun t => (upper t.1.1, 100 + t.2)

/-- The value of a constant. If several ones have the same name, the generated code does not compile. -/
def const (name : List UInt8) : Option NodeType := (g.constants upper).lookup name

/-- `node_types` of the parser definition, `fall/gen/src/generate/mod.rs` 36-39. -/
def nodeTypes : Option (List NodeType) := do
  let tys ← g.types.mapM fun t => g.const upper (upper t.1)
  return 0 :: tys

/-- The arms of `node_type_info`, `fall/gen/src/generate/mod.rs` 72-80: the first one of the type. -/
def typeInfo (ty : NodeType) : Option (List UInt8 × Bool) :=
  if ty = 0 then some (ascii "ERROR", false)
  else (g.types.find? fun t => g.const upper (upper t.1) == some ty).map fun t => (upper t.1, t.2)

/-- The types of the rules of the lexer, `fall/gen/src/generate/mod.rs` 25-29. -/
def lexTypes : Option (List NodeType) := g.rest.lexRules.mapM fun r => g.const upper (upper r.ty)

/-- `AstNode::wrap` of the type of this name gives a value for nodes of type `ty`: for a node,
`fall/gen/src/generate/mod.rs` 106-112; for a class, lines 142-149. -/
inductive Wraps : List UInt8 → NodeType → Prop where
  | node : g.rest.ast = some ast → n ∈ ast.nodes → g.const upper n.typeName = some ty → Wraps n.structName ty
  | variant : g.rest.ast = some ast → c ∈ ast.classes → v ∈ c.variants → Wraps v.2 ty → Wraps c.enumName ty

/-- A value of the type `a` contains a value of the type `b`, `fall/gen/src/generate/mod.rs` 135-139. -/
def Contains (a b : List UInt8) : Prop :=
  ∃ ast c v, g.rest.ast = some ast ∧ c ∈ ast.classes ∧ v ∈ c.variants ∧ a = c.enumName ∧ b = v.2

/-- The generated names are defined, and defined once, as the Rust compiler demands for the template
`fall/gen/src/generate/mod.rs` 15-178: the constants (lines 17 and 19-21), the types and traits (lines 98-187), the
variants, and the methods of one type. An enumeration does not contain itself (lines 135-139). Names in the verbatim
part and key words are not considered. -/
structure Resolves : Prop where
  constants : (ascii "ERROR" :: (g.constants upper).map (·.1)).Nodup
  types : ∀ ast, g.rest.ast = some ast → (ascii "AstNode" ::
    (ast.nodes.map (·.structName) ++ ast.classes.map (·.enumName) ++ ast.traits.map (·.traitName))).Nodup
  nodes : ∀ ast, g.rest.ast = some ast → ∀ n ∈ ast.nodes, ∃ ty, g.const upper n.typeName = some ty
  variants : ∀ ast, g.rest.ast = some ast → ∀ c ∈ ast.classes, (c.variants.map (·.2)).Nodup ∧
    ∀ v ∈ c.variants, v.2 ∈ ast.nodes.map (·.structName) ++ ast.classes.map (·.enumName)
  finite : ∀ a, ¬ Relation.TransGen g.Contains a a
  nodeMethods : ∀ ast, g.rest.ast = some ast → ∀ n ∈ ast.nodes, (n.methods.map (·.name)).Nodup
  traitMethods : ∀ ast, g.rest.ast = some ast → ∀ t ∈ ast.traits, (t.methods.map (·.name)).Nodup

end GenFile

/-- The value of a generated method: a node, a text, or several nodes. -/
inductive MethodValue (α : Type) where
  | node (n : Option NodeId)
  | text (s : Option (List α))
  | nodes (ns : List NodeId)

/-- Runs a generated method, `fall/gen/src/generate/codegen.rs` 353-403 with `fall/tree/src/search.rs` 4-6 and 24-31
and `fall/tree/src/ast.rs` 27-38. `none` is a panic. A method without `Option` gives `some`. -/
inductive MethodRuns (g : GenFile) (upper : List UInt8 → List UInt8) (t : File α) (n : NodeId) :
    GenBody → Option (MethodValue α) → Prop where
  | text : g.const upper c = some ty → t.childOfType n ty = some (some x) → t.textOf x = some s →
      MethodRuns g upper t n (.text o c) (some (.text (some s)))
  | noText : g.const upper c = some ty → t.childOfType n ty = some none →
      MethodRuns g upper t n (.text true c) (some (.text none))
  | textPanic : g.const upper c = some ty → t.childOfType n ty = some none → MethodRuns g upper t n (.text false c) none
  | token : g.const upper c = some ty → t.childOfType n ty = some (some x) →
      MethodRuns g upper t n (.token o c) (some (.node (some x)))
  | noToken : g.const upper c = some ty → t.childOfType n ty = some none →
      MethodRuns g upper t n (.token true c) (some (.node none))
  | tokenPanic : g.const upper c = some ty → t.childOfType n ty = some none →
      MethodRuns g upper t n (.token false c) none
  | nodes : (∀ ty, wrap ty = true ↔ g.Wraps upper s ty) → t.astChildren wrap n = some xs →
      MethodRuns g upper t n (.nodes .many s) (some (.nodes xs))
  | optional : (∀ ty, wrap ty = true ↔ g.Wraps upper s ty) → t.astChildren wrap n = some xs →
      MethodRuns g upper t n (.nodes .optional s) (some (.node xs.head?))
  | single : (∀ ty, wrap ty = true ↔ g.Wraps upper s ty) → t.astChildren wrap n = some (x :: xs) →
      MethodRuns g upper t n (.nodes .single s) (some (.node (some x)))
  | singlePanic : (∀ ty, wrap ty = true ↔ g.Wraps upper s ty) → t.astChildren wrap n = some [] →
      MethodRuns g upper t n (.nodes .single s) none

end Fall
