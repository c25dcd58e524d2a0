import Verif.Model.Tree
import Verif.Spec.Text

/-! Specification vocabulary for trees. -/

namespace Fall.Spec

/-! ## Which call sequences are well-bracketed -/

/-- The nesting depth after a sequence of calls, starting from depth `d`; `none` if some call is
made outside of a node where it must be inside one. -/
def depth : Nat → List BuilderOp → Option Nat
  | d, [] => some d
  | d, .start _ :: ops => depth (d + 1) ops
  | 0, .leaf _ _ :: _ => none
  | d + 1, .leaf _ _ :: ops => depth (d + 1) ops
  | 0, .finish :: _ => none
  | d + 1, .finish :: ops => depth d ops

/-- Every `finish` and `leaf` is inside of a node, and every node is finished. -/
def Balanced (ops : List BuilderOp) : Prop := depth 0 ops = some 0

/-- Balanced, and one node encloses everything. -/
def SingleRoot (ops : List BuilderOp) : Prop :=
  ∃ ty body, ops = .start ty :: (body ++ [.finish]) ∧ depth 1 body = some 1 ∧
    ∀ pre, pre <+: body → (depth 1 pre) ≠ some 0

/-- Total length of the leaves of a call sequence. -/
def leafLen : List BuilderOp → Nat
  | [] => 0
  | .leaf _ len :: ops => len + leafLen ops
  | _ :: ops => leafLen ops

/-! ## Consistent node tables -/

/-- `rs` are consecutive ranges from `a` to `b`. -/
def Tiles : List TextRange → Nat → Nat → Prop
  | [], a, b => a = b
  | r :: rs, a, b => r.start = a ∧ r.start ≤ r.stop ∧ Tiles rs r.stop b

/-- A consistent node table. -/
structure Consistent (nodes : List NodeData) : Prop where
  /-- There is a root, without a parent; everything else has a parent. -/
  root : ∃ d : NodeData, nodes[0]? = some d ∧ d.parent = none
  nonroot : ∀ (n : Nat) (d : NodeData), nodes[n]? = some d → n ≠ 0 → d.parent ≠ none
  /-- Parent and child pointers agree; a child is stored after its parent and listed once. -/
  child : ∀ (n : Nat) (d : NodeData) (c : Nat), nodes[n]? = some d → c ∈ d.children →
    n < c ∧ ∃ e : NodeData, nodes[c]? = some e ∧ e.parent = some n
  parent : ∀ (c : Nat) (e : NodeData) (n : Nat), nodes[c]? = some e → e.parent = some n →
    ∃ d : NodeData, nodes[n]? = some d ∧ c ∈ d.children
  once : ∀ (n : Nat) (d : NodeData), nodes[n]? = some d → d.children.Nodup
  /-- Children lie one after another and fill the node. -/
  valid : ∀ (n : Nat) (d : NodeData), nodes[n]? = some d → d.range.start ≤ d.range.stop
  tiles : ∀ (n : Nat) (d : NodeData), nodes[n]? = some d → d.children ≠ [] →
    ∃ rs, d.children.mapM (fun c => nodes[c]?.map (·.range)) = some rs ∧
      Tiles rs d.range.start d.range.stop

/-- A consistent file: the tree is consistent and the root covers the text. -/
structure ConsistentFile (f : File α) : Prop where
  nodes : Consistent f.nodes
  covers : f.range 0 = some ⟨0, f.text.length⟩

/-- `c` is a child of `n`. -/
def Child (f : File α) (n c : NodeId) : Prop := ∃ cs, f.children n = some cs ∧ c ∈ cs

/-- `m` is `n` or a descendant of it. -/
inductive Desc (f : File α) : NodeId → NodeId → Prop
  | refl (n : NodeId) : Desc f n n
  | step {n c m : NodeId} : Child f n c → Desc f c m → Desc f n m

/-- `R` holds between consecutive elements. -/
def Chain (R : α → α → Prop) : List α → Prop
  | [] => True
  | [_] => True
  | x :: y :: l => R x y ∧ Chain R (y :: l)

/-- A node of the file. -/
def IsNode (f : File α) (n : NodeId) : Prop := n < f.nodes.length

/-- A non-empty node without children. -/
def NonEmptyLeaf (f : File α) (n : NodeId) : Prop :=
  ∃ r, f.children n = some [] ∧ f.range n = some r ∧ r.start < r.stop

/-- The offset is inside the node or at one of its ends. -/
def Touches (f : File α) (n : NodeId) (offset : Nat) : Prop :=
  ∃ r, f.range n = some r ∧ r.start ≤ offset ∧ offset ≤ r.stop

/-- `x` is before `y` in the document: below two different children of one node, in this order. -/
def Before (f : File α) (x y : NodeId) : Prop :=
  ∃ n cs c d, f.children n = some cs ∧ [c, d].Sublist cs ∧ Desc f c x ∧ Desc f d y

/-! ## The calls that produce a given tree -/

mutual

/-- Building the subtree of the node takes these calls. -/
inductive Replays (f : File α) : NodeId → List BuilderOp → Prop
  | leaf {n : NodeId} {ty : NodeType} {r : TextRange} : f.ty n = some ty → f.children n = some [] →
      f.range n = some r → Replays f n [.leaf ty (r.stop - r.start)]
  | node {n : NodeId} {ty : NodeType} {cs : List NodeId} {ops : List BuilderOp} :
      f.ty n = some ty → f.children n = some cs → ReplaysAll f cs ops →
      Replays f n (.start ty :: (ops ++ [.finish]))

/-- Building the subtrees of the nodes takes these calls. -/
inductive ReplaysAll (f : File α) : List NodeId → List BuilderOp → Prop
  | nil : ReplaysAll f [] []
  | cons {n : NodeId} {ns : List NodeId} {xs ys : List BuilderOp} : Replays f n xs →
      ReplaysAll f ns ys → ReplaysAll f (n :: ns) (xs ++ ys)

end

/-! ## Structural edits -/

/-- The text inserted after a node: the first one requested for it. -/
def insertedAfter (e : FileEdit α) (n : NodeId) : List α := (e.inserted.lookup n).getD []

mutual

/-- What becomes of the text of a node. -/
inductive Rendered (f : File α) (e : FileEdit α) : NodeId → List α → Prop
  /-- A deleted node is cut out. -/
  | deleted {n : NodeId} : n ∈ e.deleted → Rendered f e n []
  /-- A replaced node becomes the first replacement requested for it. -/
  | replaced {n : NodeId} {s : List α} : n ∉ e.deleted → e.replaced.lookup n = some s →
      Rendered f e n s
  /-- A kept leaf keeps its bytes, followed by the insertion. -/
  | leaf {n : NodeId} {r : TextRange} : n ∉ e.deleted → e.replaced.lookup n = none →
      f.children n = some [] → f.range n = some r →
      Rendered f e n (bytes f.text r.start r.stop ++ insertedAfter e n)
  /-- A kept inner node is rendered child by child, followed by the insertion. -/
  | inner {n : NodeId} {cs : List NodeId} {out : List α} : n ∉ e.deleted →
      e.replaced.lookup n = none → f.children n = some cs → cs ≠ [] → RenderedAll f e cs out →
      Rendered f e n (out ++ insertedAfter e n)

/-- What becomes of a list of nodes. -/
inductive RenderedAll (f : File α) (e : FileEdit α) : List NodeId → List α → Prop
  | nil : RenderedAll f e [] []
  | cons {n : NodeId} {ns : List NodeId} {s t : List α} : Rendered f e n s → RenderedAll f e ns t →
      RenderedAll f e (n :: ns) (s ++ t)

end

/-- The node appears in a request. -/
def Named (e : FileEdit α) (n : NodeId) : Prop :=
  n ∈ e.deleted ∨ (∃ s, (n, s) ∈ e.replaced) ∨ ∃ s, (n, s) ∈ e.inserted

end Fall.Spec
