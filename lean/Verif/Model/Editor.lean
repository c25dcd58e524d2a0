import Verif.Model.Tree

/-!
Model of the language independent editor features: `fall/editor/src/extend_selection.rs` and
`fall/editor/src/actions.rs`, and of `lang/fall/src/editor/actions/swap_alternatives.rs`.

Text consists of bytes. `lang.node_type_info(ty).whitespace_like` is a parameter `isWs`. Functions that
return an `Option` in Rust return `Option (Option _)`: the outer `none` is a panic.
-/

namespace Fall

/-- The byte of `"\n"` in `fall/editor/src/extend_selection.rs` 19 and 22: searching a `str` for an ASCII
character is searching its bytes. -/
def newlineByte : UInt8 := 10

/-- The byte of `","` in `fall/editor/src/actions.rs` 107. -/
def commaByte : UInt8 := 44

namespace File

/-- `fall/editor/src/extend_selection.rs` 15-27: the selection is empty and only whitespace touches it. -/
def extendInWhitespace (f : File UInt8) (offset : Nat) (ws : NodeId) : Option (Option TextRange) := do
  let wsRange ← f.range ws
  let suffix ← TextRange.fromTo offset wsRange.stop
  let suffix ← (Text.ofBuf f.text).slice suffix
  let suffix ← suffix.asStr
  let wsText ← f.textOf ws
  if wsText.contains newlineByte && !suffix.contains newlineByte then
    let rest ← (Text.ofBuf f.text).sliceFrom wsRange.stop
    let rest ← rest.asStr
    match rest.idxOf? newlineByte with
    | some lineEnd =>
      let line ← TextRange.fromLen wsRange.stop lineEnd
      let node ← f.findCoveringNode f.root line
      let r ← f.range node
      return some r
    | none => return some wsRange
  else return some wsRange

/-- `fall/editor/src/extend_selection.rs` 5-35. -/
def extendSelection (f : File UInt8) (isWs : NodeType → Bool) (range : TextRange) :
    Option (Option TextRange) := do
  if range.isEmpty then
    let leaves ← f.findLeafAtOffset f.root range.start
    match ← f.findNode (fun d => !isWs d.ty) leaves.toList with
    | some leaf => do
      let r ← f.range leaf
      return some r
    | none =>
      match leaves.toList with
      | [] => return none
      | ws :: _ => f.extendInWhitespace range.start ws
  else
    let node ← f.findCoveringNode f.root range
    let as ← f.ancestors node
    match ← f.findNode (fun d => !(decide (d.range = range))) as with
    | none => return none
    | some parent => do
      let r ← f.range parent
      return some r

end File

/-- `fall/editor/src/actions.rs` 32-35. -/
inductive ActionResult (α : Type u) where
  | available
  | applied (edit : TextEdit α)
deriving DecidableEq, Repr

/-- `fall/editor/src/actions.rs` 37-45: panics if there is no edit. -/
def ActionResult.intoEdit : ActionResult α → Option (TextEdit α)
  | .available => none
  | .applied edit => some edit

namespace File

/-- The `match` in `fall/editor/src/actions.rs` 108-116 and in
`lang/fall/src/editor/actions/swap_alternatives.rs` 19-29: of the leaves at an offset the first one that
satisfies the test. -/
def pickLeaf (is : NodeId → Option Bool) : LeafAtOffset → Option (Option NodeId)
  | .none => return none
  | .single n => do
    let b ← is n
    return if b then some n else none
  | .between left right => do
    let l ← is left
    let r ← is right
    match l, r with
    | true, _ => return some left
    | _, true => return some right
    | _, _ => return none

/-- `fall/editor/src/actions.rs` 106-117. -/
def findComma (f : File UInt8) (n : NodeId) (offset : Nat) : Option (Option NodeId) := do
  let leaves ← f.findLeafAtOffset n offset
  pickLeaf (fun n => (f.textOf n).map (· == [commaByte])) leaves

/-- `fall/editor/src/actions.rs` 97-104. -/
def nonwsSiblingN (f : File α) (isWs : NodeType → Bool) (dir : Direction) :
    Nat → NodeId → Option (Option NodeId)
  | 0, _ => none
  | fuel + 1, n => do
    match ← f.sibling n dir with
    | none => return none
    | some m => do
      let ty ← f.ty m
      if isWs ty then f.nonwsSiblingN isWs dir fuel m else return some m

/-- `fall/editor/src/actions.rs` 97-104. -/
def nonwsSibling (f : File α) (isWs : NodeType → Bool) (dir : Direction) (n : NodeId) :
    Option (Option NodeId) :=
  f.nonwsSiblingN isWs dir f.nodes.length n

/-- `fall/editor/src/actions.rs` 91-94 and `lang/fall/src/editor/actions/swap_alternatives.rs` 12-15. -/
def swapEdit (f : File α) (left right : NodeId) : Option (TextEdit α) := do
  let e ← FileEdit.new.replace left f right
  let e ← e.replace right f left
  e.intoTextEdit f

/-- `fall/editor/src/actions.rs` 81-86: the nodes to be swapped. -/
def swapNodes (f : File UInt8) (isWs : NodeType → Bool) (offset : Nat) : Option (Option (NodeId × NodeId)) := do
  match ← f.findComma f.root offset with
  | none => return none
  | some comma =>
    match ← f.nonwsSibling isWs .left comma with
    | none => return none
    | some left =>
      match ← f.nonwsSibling isWs .right comma with
      | none => return none
      | some right => do
        let lty ← f.ty left
        let rty ← f.ty right
        if lty != rty then return none else return some (left, right)

/-- `fall/editor/src/actions.rs` 80-95. -/
def swap (f : File UInt8) (isWs : NodeType → Bool) (offset : Nat) (apply : Bool) :
    Option (Option (ActionResult UInt8)) := do
  match ← f.swapNodes isWs offset with
  | none => return none
  | some (left, right) =>
    if !apply then return some .available
    else do
      let edit ← f.swapEdit left right
      return some (.applied edit)

/-- `fall/editor/src/actions.rs` 28-30. -/
def defaultActions (f : File UInt8) (isWs : NodeType → Bool) :
    List (String × (Nat → Bool → Option (Option (ActionResult UInt8)))) :=
  [("Swap", f.swap isWs)]

/-- `fall/editor/src/actions.rs` 6-16. -/
def defaultContextActions (f : File UInt8) (isWs : NodeType → Bool) (range : TextRange)
    (actions : List String) : Option (List String) :=
  (f.defaultActions isWs).foldlM (fun actions a => do
    let r ← a.2 range.start false
    return if r.isSome then actions ++ [a.1] else actions) actions

/-- `fall/editor/src/actions.rs` 18-26: `none` inside if there is no such action. -/
def applyDefaultContextAction (f : File UInt8) (isWs : NodeType → Bool) (range : TextRange) (id : String) :
    Option (Option (Option (TextEdit UInt8))) :=
  match (f.defaultActions isWs).find? (fun a => a.1 == id) with
  | none => return none
  | some a => do
    match ← a.2 range.start true with
    | none => return some none
    | some r => do
      let edit ← r.intoEdit
      return some (some edit)

end File

/-! ## Alternatives of a Fall rule -/

/-- `lang/fall/syntax/src/fall.rs` 15. -/
def fallPipe : NodeType := 112

/-- `lang/fall/syntax/src/fall.rs` 40 and 713-720. -/
def fallBlockExpr : NodeType := 137

/-- `lang/fall/syntax/src/fall.rs` 816-836 with the numbers in lines 38-43: `Expr::wrap`. -/
def isFallExpr (ty : NodeType) : Bool := [135, 140, 137, 138, 139, 136].contains ty

namespace File

/-- `lang/fall/src/editor/actions/swap_alternatives.rs` 33-39: the loop over pairs of neighbours. -/
def altsAround (f : File α) (pipe : TextRange) : List NodeId → Option (Option (NodeId × NodeId))
  | n1 :: n2 :: rest => do
    let r1 ← f.range n1
    let r2 ← f.range n2
    if r1.partialCmp pipe = some .lt ∧ pipe.partialCmp r2 = some .lt then return some (n1, n2)
    else f.altsAround pipe (n2 :: rest)
  | _ => return none

/-- `lang/fall/src/editor/actions/swap_alternatives.rs` 18-41. The debugging output in line 30 is left
out. -/
def findSwappableNodes (f : File α) (offset : Nat) : Option (Option (NodeId × NodeId)) := do
  let leaves ← f.findLeafAtOffset f.root offset
  match ← pickLeaf (fun n => (f.ty n).map (· == fallPipe)) leaves with
  | none => return none
  | some pipe =>
    match ← f.parent pipe with
    | none => return none
    | some parent => do
      let ty ← f.ty parent
      if ty != fallBlockExpr then return none
      else
        let alts ← f.astChildren isFallExpr parent
        let r ← f.range pipe
        f.altsAround r alts

/-- `lang/fall/src/editor/actions/swap_alternatives.rs` 6-16. -/
def swapAlternatives (f : File α) (offset : Nat) (apply : Bool) : Option (Option (ActionResult α)) := do
  match ← f.findSwappableNodes offset with
  | none => return none
  | some (left, right) =>
    if !apply then return some .available
    else do
      let edit ← f.swapEdit left right
      return some (.applied edit)

end File

end Fall
