import Verif.Model.Lex

/-!
Model of `fall/tree/src`: the tree builder, the flat node table, navigation and search,
traversals, structural edits.

A node handle (`NodeImpl`, `fall/tree/src/node/imp.rs` 29-33) is a pair of a file reference and an
index; all handles used together belong to one file, so here a node is the index. Dereferencing
an index out of bounds panics (`none`).

Recursion over the tree takes a fuel argument (the number of nodes of the file, when called from
outside); running out of it is `none`, which the theorems exclude.
-/

namespace Fall

/-- `fall/tree/src/node/tree_builder.rs` 85-86: an index into the node table. -/
abbrev NodeId := Nat

/-- `fall/tree/src/node/tree_builder.rs` 89-94. -/
structure NodeData where
  ty : NodeType
  parent : Option NodeId
  children : List NodeId
  range : TextRange
deriving DecidableEq, Repr

/-- `fall/tree/src/node/tree_builder.rs` 3-7. The last element of `in_progress` is the head of
the list here. -/
structure TreeBuilder where
  nodes : List NodeData
  inProgress : List NodeId
  pos : Nat
deriving DecidableEq, Repr

/-- `fall/tree/src/node/tree_builder.rs` 96-101. -/
def grow (left right : TextRange) : Option TextRange :=
  if left.stop = right.start then TextRange.fromTo left.start right.stop else none

namespace TreeBuilder

/-- `fall/tree/src/node/tree_builder.rs` 44-50. -/
def new : TreeBuilder := ⟨[], [], 0⟩

/-- `fall/tree/src/node/tree_builder.rs` 75-77. -/
def currentId (b : TreeBuilder) : Option NodeId := b.inProgress.head?

/-- `fall/tree/src/node/tree_builder.rs` 57-61. -/
def newNode (b : TreeBuilder) (data : NodeData) : TreeBuilder × NodeId :=
  ({ b with nodes := b.nodes ++ [data] }, b.nodes.length)

/-- Writing through `fall/tree/src/node/tree_builder.rs` 79-82 (`current`). -/
def updateCurrent (b : TreeBuilder) (g : NodeData → Option NodeData) : Option TreeBuilder := do
  let id ← b.currentId
  let d ← b.nodes[id]?
  let d ← g d
  return { b with nodes := b.nodes.set id d }

/-- `fall/tree/src/node/tree_builder.rs` 63-68. -/
def pushChild (b : TreeBuilder) (child : NodeData) : Option (TreeBuilder × NodeId) := do
  let cur ← b.currentId
  let (b, id) := b.newNode { child with parent := some cur }
  let b ← b.updateCurrent fun d => some { d with children := d.children ++ [id] }
  return (b, id)

/-- `fall/tree/src/node/tree_builder.rs` 70-73. -/
def addLen (b : TreeBuilder) (child : NodeId) : Option TreeBuilder := do
  let c ← b.nodes[child]?
  b.updateCurrent fun d => (grow d.range c.range).map fun r => { d with range := r }

/-- `fall/tree/src/node/tree_builder.rs` 10-20. -/
def leaf (b : TreeBuilder) (ty : NodeType) (len : Nat) : Option TreeBuilder := do
  let range ← TextRange.fromLen b.pos len
  let b' := { b with pos := b.pos + len }
  let (b', id) ← b'.pushChild { ty := ty, parent := none, children := [], range := range }
  b'.addLen id

/-- `fall/tree/src/node/tree_builder.rs` 22-35. -/
def startInternal (b : TreeBuilder) (ty : NodeType) : Option TreeBuilder := do
  let range ← TextRange.fromLen b.pos 0
  let node : NodeData := { ty := ty, parent := none, children := [], range := range }
  let (b, id) ← if b.inProgress.isEmpty then some (b.newNode node) else b.pushChild node
  return { b with inProgress := id :: b.inProgress }

/-- `fall/tree/src/node/tree_builder.rs` 37-42. -/
def finishInternal (b : TreeBuilder) : Option TreeBuilder :=
  match b.inProgress with
  | [] => none
  | id :: rest =>
    let b := { b with inProgress := rest }
    if !rest.isEmpty then b.addLen id else some b

/-- `fall/tree/src/node/tree_builder.rs` 52-55. -/
def finish (b : TreeBuilder) : Option (List NodeData) :=
  if b.inProgress.isEmpty then some b.nodes else none

end TreeBuilder

/-- One call of a client of the builder (`fall/tree/src/node/tree_builder.rs` 10, 22, 37). -/
inductive BuilderOp where
  | leaf (ty : NodeType) (len : Nat)
  | start (ty : NodeType)
  | finish
deriving DecidableEq, Repr

/-- Performs one call (`fall/tree/src/node/tree_builder.rs` 10-42). -/
def BuilderOp.run (b : TreeBuilder) : BuilderOp → Option TreeBuilder
  | .leaf ty len => b.leaf ty len
  | .start ty => b.startInternal ty
  | .finish => b.finishInternal

/-- A client session: `new`, calls, `finish` (as in `fall/tree/src/lang.rs` 35-41 with
`fall/tree/src/node/imp.rs` 107-115). -/
def buildNodes (ops : List BuilderOp) : Option (List NodeData) := do
  let b ← ops.foldlM BuilderOp.run TreeBuilder.new
  b.finish

/-- `fall/tree/src/node/mod.rs` 12-15 with `fall/tree/src/node/imp.rs` 7-13, without language,
metrics and incremental data. The root is always node 0 (`imp.rs` 112). -/
structure File (α : Type u) where
  text : List α
  nodes : List NodeData
deriving DecidableEq, Repr

/-- `fall/tree/src/node/imp.rs` 107-115. -/
def newFile (text : List α) (ops : List BuilderOp) : Option (File α) :=
  (buildNodes ops).map fun nodes => ⟨text, nodes⟩

namespace File

/-- `fall/tree/src/node/imp.rs` 16-18, 112. -/
def root (_ : File α) : NodeId := 0

/-- `fall/tree/src/node/imp.rs` 76-78, 99-104. -/
def data (f : File α) (n : NodeId) : Option NodeData := f.nodes[n]?

/-- `fall/tree/src/node/imp.rs` 50-52. -/
def ty (f : File α) (n : NodeId) : Option NodeType := (f.data n).map (·.ty)

/-- `fall/tree/src/node/imp.rs` 54-56. -/
def range (f : File α) (n : NodeId) : Option TextRange := (f.data n).map (·.range)

/-- `fall/tree/src/node/imp.rs` 58-60; the view is represented by its bytes. -/
def textOf (f : File α) (n : NodeId) : Option (List α) := do
  let r ← f.range n
  let t ← (Text.ofBuf f.text).slice r
  t.asStr

/-- `fall/tree/src/node/imp.rs` 64-66. -/
def parent (f : File α) (n : NodeId) : Option (Option NodeId) := (f.data n).map (·.parent)

/-- `fall/tree/src/node/imp.rs` 68-70, 91-97. -/
def children (f : File α) (n : NodeId) : Option (List NodeId) := (f.data n).map (·.children)

/-! ## Search: `fall/tree/src/search.rs` -/

/-- Filters nodes by a property of their data (iterator adapters with a closure that
dereferences the node: `fall/tree/src/search.rs` 9, 66-67). -/
def filterNodes (f : File α) (p : NodeData → Bool) : List NodeId → Option (List NodeId)
  | [] => some []
  | n :: ns => do
    let d ← f.data n
    let rest ← f.filterNodes p ns
    return if p d then n :: rest else rest

/-- The first node with a property of its data (`find`). -/
def findNode (f : File α) (p : NodeData → Bool) : List NodeId → Option (Option NodeId)
  | [] => some none
  | n :: ns => do
    let d ← f.data n
    if p d then return some n else f.findNode p ns

/-- `fall/tree/src/search.rs` 4-6. -/
def childOfType (f : File α) (n : NodeId) (ty : NodeType) : Option (Option NodeId) := do
  let cs ← f.children n
  f.findNode (fun d => d.ty == ty) cs

/-- `fall/tree/src/search.rs` 8-10. -/
def childrenOfType (f : File α) (n : NodeId) (ty : NodeType) : Option (List NodeId) := do
  let cs ← f.children n
  f.filterNodes (fun d => d.ty == ty) cs

/-- `fall/tree/src/search.rs` 24-31. -/
def childOfTypeExn (f : File α) (n : NodeId) (ty : NodeType) : Option NodeId := do
  let c ← f.childOfType n ty
  c

/-- `fall/tree/src/search.rs` 12-14: children's subtrees, then the node. -/
def subtreeN (f : File α) : Nat → NodeId → Option (List NodeId)
  | 0, _ => none
  | fuel + 1, n => do
    let cs ← f.children n
    let ls ← cs.mapM (f.subtreeN fuel)
    return ls.flatten ++ [n]

/-- `fall/tree/src/search.rs` 12-14. -/
def subtree (f : File α) (n : NodeId) : Option (List NodeId) := f.subtreeN f.nodes.length n

/-- `fall/tree/src/search.rs` 191-196 (`go` of `traversal::bottom_up`): the callback is a state
transformer that may panic. -/
def bottomUpN (f : File α) (g : σ → NodeId → Option σ) : Nat → σ → NodeId → Option σ
  | 0, _, _ => none
  | fuel + 1, s, n => do
    let cs ← f.children n
    let s ← cs.foldlM (f.bottomUpN g fuel) s
    g s n

/-- `fall/tree/src/search.rs` 187-197. -/
def bottomUp (f : File α) (g : σ → NodeId → Option σ) (s : σ) (n : NodeId) : Option σ :=
  f.bottomUpN g f.nodes.length s n

/-- `fall/tree/src/visitor.rs` 104-123 (`TyVisitor`) and 72-78 (`EmptyVisitor`): the handlers of a
visitor built with `visit_nodes`, in the order of the calls; each one that lists the type of the
node is called. -/
def visitTy (f : File α) (handlers : List (List NodeType × (σ → NodeId → Option σ)))
    (s : σ) (n : NodeId) : Option σ := do
  let ty ← f.ty n
  handlers.foldlM (fun s h => if h.1.contains ty then h.2 s n else some s) s

/-- `fall/tree/src/visitor.rs` 9-14 for a visitor built with `visit_nodes`. -/
def processSubtreeBottomUp (f : File α)
    (handlers : List (List NodeType × (σ → NodeId → Option σ))) (s : σ) (n : NodeId) : Option σ :=
  f.bottomUp (f.visitTy handlers) s n

/-- `fall/tree/src/search.rs` 16-22. -/
def descendantsOfType (f : File α) (n : NodeId) (ty : NodeType) : Option (List NodeId) :=
  f.processSubtreeBottomUp [([ty], fun nodes n => some (nodes ++ [n]))] [] n

/-- `fall/tree/src/search.rs` 34-48: all items of the iterator. -/
def ancestorsN (f : File α) : Nat → NodeId → Option (List NodeId)
  | 0, _ => none
  | fuel + 1, n => do
    let p ← f.parent n
    match p with
    | none => return [n]
    | some p => do
      let rest ← f.ancestorsN fuel p
      return n :: rest

/-- `fall/tree/src/search.rs` 34-36. -/
def ancestors (f : File α) (n : NodeId) : Option (List NodeId) := f.ancestorsN f.nodes.length n

/-- `fall/tree/src/search.rs` 50-52. -/
def isLeaf (d : NodeData) : Bool := d.children.isEmpty && !d.range.isEmpty

end File

/-- `fall/tree/src/search.rs` 83-88. -/
inductive LeafAtOffset where
  | none
  | single (n : NodeId)
  | between (left right : NodeId)
deriving DecidableEq, Repr

namespace LeafAtOffset

/-- `fall/tree/src/search.rs` 91-97. -/
def rightBiased : LeafAtOffset → Option NodeId
  | .none => Option.none
  | .single n => some n
  | .between _ right => some right

/-- `fall/tree/src/search.rs` 99-105. -/
def leftBiased : LeafAtOffset → Option NodeId
  | .none => Option.none
  | .single n => some n
  | .between left _ => some left

/-- `fall/tree/src/search.rs` 108-118: all items of the iterator. -/
def toList : LeafAtOffset → List NodeId
  | .none => []
  | .single n => [n]
  | .between left right => [left, right]

end LeafAtOffset

namespace File

/-- `fall/tree/src/search.rs` 54-81. -/
def findLeafAtOffsetN (f : File α) : Nat → NodeId → Nat → Option LeafAtOffset
  | 0, _, _ => none
  | fuel + 1, n, offset => do
    let d ← f.data n
    if !d.range.containsOffsetNonstrict offset then none
    else if d.range.isEmpty then return .none
    else if isLeaf d then return .single n
    else
      let cs ← f.filterNodes
        (fun c => !c.range.isEmpty && c.range.containsOffsetNonstrict offset) d.children
      match cs with
      | [] => none
      | [left] => f.findLeafAtOffsetN fuel left offset
      | [left, right] =>
        let l ← f.findLeafAtOffsetN fuel left offset
        let r ← f.findLeafAtOffsetN fuel right offset
        match l, r with
        | .single l, .single r => return .between l r
        | _, _ => none
      | _ => none

/-- `fall/tree/src/search.rs` 54-81. -/
def findLeafAtOffset (f : File α) (n : NodeId) (offset : Nat) : Option LeafAtOffset :=
  f.findLeafAtOffsetN f.nodes.length n offset

/-- `fall/tree/src/search.rs` 207-214. -/
def commonAncestor (f : File α) (n1 n2 : NodeId) : Option NodeId := do
  let as1 ← f.ancestors n1
  let as2 ← f.ancestors n2
  as1.find? fun p => as2.any (· == p)

/-- `fall/tree/src/search.rs` 120-131. -/
def findCoveringNode (f : File α) (root : NodeId) (range : TextRange) : Option NodeId := do
  let r ← f.range root
  if !range.isSubrangeOf r then none
  else
    let l ← f.findLeafAtOffset root range.start
    let r ← f.findLeafAtOffset root range.stop
    match l.rightBiased, r.leftBiased with
    | some l, some r => f.commonAncestor l r
    | _, _ => return root

/-- `fall/tree/src/search.rs` 200-205. -/
def childPosition (f : File α) (child : NodeId) : Option (Option (NodeId × Nat)) := do
  let p ← f.parent child
  match p with
  | none => return none
  | some parent => do
    let cs ← f.children parent
    let idx ← cs.findIdx? (· == child)
    return some (parent, idx)

end File

/-- `fall/tree/src/search.rs` 134-137. -/
inductive Direction where
  | left
  | right
deriving DecidableEq, Repr

namespace File

/-- `fall/tree/src/search.rs` 139-146. -/
def sibling (f : File α) (n : NodeId) (dir : Direction) : Option (Option NodeId) := do
  let pos ← f.childPosition n
  match pos with
  | none => return none
  | some (parent, idx) => do
    let cs ← f.children parent
    match dir with
    | .left => if idx = 0 then return none else return cs[idx - 1]?
    | .right => return cs[idx + 1]?

/-- `fall/tree/src/util.rs` 15-20 (`go` of `walk_tree`). -/
def walkTreeN (f : File α) (g : σ → NodeId → Option σ) : Nat → σ → NodeId → Option σ
  | 0, _, _ => none
  | fuel + 1, s, n => do
    let s ← g s n
    let cs ← f.children n
    cs.foldlM (f.walkTreeN g fuel) s

/-- `fall/tree/src/util.rs` 12-21. -/
def walkTree (f : File α) (g : σ → NodeId → Option σ) (s : σ) (n : NodeId) : Option σ :=
  f.walkTreeN g f.nodes.length s n

end File

/-! ## Typed access: `fall/tree/src/ast.rs` and `fall/tree/src/search.rs` 148-182

An `AstNode` type is a wrapper around nodes of certain types: `wrap` succeeds exactly for these
types (as in the generated code, e.g. `lang/fall/src/syntax.rs`), so it is represented by the
predicate on types, and its values by the nodes. -/

namespace File

/-- `fall/tree/src/ast.rs` 27-38 and `fall/tree/src/search.rs` 163-165. -/
def astChildren (f : File α) (wrap : NodeType → Bool) (n : NodeId) : Option (List NodeId) := do
  let cs ← f.children n
  f.filterNodes (fun d => wrap d.ty) cs

/-- `fall/tree/src/search.rs` 153-157. -/
def astAncestor (f : File α) (wrap : NodeType → Bool) (n : NodeId) : Option (Option NodeId) := do
  let as ← f.ancestors n
  f.findNode (fun d => wrap d.ty) as

/-- `fall/tree/src/search.rs` 175-181. -/
def astNodeAtOffset (f : File α) (wrap : NodeType → Bool) (n : NodeId) (offset : Nat) :
    Option (Option NodeId) := do
  let l ← f.findLeafAtOffset n offset
  match l with
  | .none => return none
  | .single n => f.astAncestor wrap n
  | .between left right => do
    match ← f.astAncestor wrap left with
    | some n => return some n
    | none => f.astAncestor wrap right

/-- `fall/tree/src/search.rs` 167-173 with `fall/tree/src/visitor.rs` 81-101 (`AstVisitor`). -/
def astDescendants (f : File α) (wrap : NodeType → Bool) (n : NodeId) : Option (List NodeId) :=
  f.bottomUp (fun acc n => do
    let ty ← f.ty n
    return if wrap ty then acc ++ [n] else acc) [] n

end File

/-! ## Structural edits: `fall/tree/src/edit.rs` -/

/-- `fall/tree/src/edit.rs` 4-9. -/
structure FileEdit (α : Type u) where
  inserted : List (NodeId × List α)
  replaced : List (NodeId × List α)
  deleted : List NodeId
deriving DecidableEq, Repr

namespace FileEdit

/-- `fall/tree/src/edit.rs` 12-19. -/
def new : FileEdit α := ⟨[], [], []⟩

/-- `fall/tree/src/edit.rs` 25-27. -/
def replaceWithText (e : FileEdit α) (n : NodeId) (replacement : List α) : FileEdit α :=
  { e with replaced := e.replaced ++ [(n, replacement)] }

/-- `fall/tree/src/edit.rs` 21-23; `replacement` may be a node of another file. -/
def replace (e : FileEdit α) (n : NodeId) (other : File α) (replacement : NodeId) :
    Option (FileEdit α) :=
  (other.textOf replacement).map (e.replaceWithText n)

/-- `fall/tree/src/edit.rs` 42-44. -/
def delete (e : FileEdit α) (n : NodeId) : FileEdit α := { e with deleted := e.deleted ++ [n] }

/-- `fall/tree/src/edit.rs` 46-48. -/
def insertTextAfter (e : FileEdit α) (anchor : NodeId) (text : List α) : FileEdit α :=
  { e with inserted := e.inserted ++ [(anchor, text)] }

/-- `fall/tree/src/edit.rs` 29-40. -/
def replaceSubstring (e : FileEdit α) (f : File α) (range : TextRange) (replacement : List α) :
    Option (FileEdit α) := do
  let rootRange ← f.range f.root
  if !range.isSubrangeOf rootRange then none
  else
    let node ← f.findCoveringNode f.root range
    let nodeRange ← f.range node
    let pre ← TextRange.fromTo nodeRange.start range.start
    let pre ← (Text.ofBuf f.text).slice pre
    let suf ← TextRange.fromTo range.stop nodeRange.stop
    let suf ← (Text.ofBuf f.text).slice suf
    let pre ← pre.asStr
    let suf ← suf.asStr
    return e.replaceWithText node (pre ++ replacement ++ suf)

/-- `fall/tree/src/edit.rs` 62-80. -/
def textEditForNode (e : FileEdit α) (f : File α) :
    Nat → TextEditBuilder α → NodeId → Option (TextEditBuilder α)
  | 0, _, _ => none
  | fuel + 1, b, n => do
    let d ← f.data n
    if e.deleted.any (· == n) then b.delete d.range
    else match e.replaced.find? (fun r => r.1 == n) with
      | some r => b.replace d.range r.2
      | none => do
        let b ← d.children.foldlM (e.textEditForNode f fuel) b
        match e.inserted.find? (fun r => r.1 == n) with
        | some r => b.insert d.range.stop r.2
        | none => return b

/-- `fall/tree/src/edit.rs` 50-60. -/
def intoTextEdit (e : FileEdit α) (f : File α) : Option (TextEdit α) := do
  let b ← e.textEditForNode f f.nodes.length (TextEditBuilder.new (Text.ofBuf f.text)) f.root
  let edit ← b.build
  let r ← TextRange.fromLen f.text.length 0
  return { edit with ops := edit.ops ++ [.copy r] }

end FileEdit

end Fall
