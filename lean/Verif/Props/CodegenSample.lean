import Verif.Props.AnalysisSample
import Verif.Lemmas.Codegen

/-! A grammar for the examples about the parser generator. -/

namespace Fall
open Spec AProg

/-- The grammar of the examples:

```
tokenizer { n 'n' p '+' }
pub rule f { <m e> <commit> <eof> }
#[cached] rule m(x) { x* }
#[pratt] rule e { a | b }
#[atom] pub rule a { 'n' }
#[bin(1)] pub rule b { e '+' e }
```
-/
def calcText : List UInt8 :=
  ascii ("tokenizer{n'n'p'+'}pub rule f{<m e><commit><eof>}#[cached]rule m(x){x*}" ++
    "#[pratt]rule e{a|b}#[atom]pub rule a{'n'}#[bin(1)]pub rule b{e'+'e}")

/-- The tree of the grammar, below the root. -/
def calcForest : Forest :=
  (.node 141 (.leaf 105 9 (.leaf 119 1 (.node 142 (.leaf 130 1 (.node 147 (.leaf 128 3 .nil) .nil)) (.node 142
    (.leaf 130 1 (.node 147 (.leaf 128 3 .nil) .nil)) (.leaf 120 1 .nil))))) (.node 132 (.leaf 109 3 (.leaf 100
    1 (.leaf 106 4 (.leaf 100 1 (.leaf 130 1 (.node 137 (.leaf 119 1 (.node 136 (.node 140 (.leaf 123 1 (.leaf
    130 1 (.leaf 100 1 (.node 135 (.leaf 130 1 .nil) (.leaf 124 1 .nil))))) (.node 140 (.leaf 123 1 (.leaf 130 6
    (.leaf 124 1 .nil))) (.node 140 (.leaf 123 1 (.leaf 130 3 (.leaf 124 1 .nil))) .nil))) (.leaf 120 1 .nil)))
    .nil)))))) (.node 132 (.node 144 (.leaf 118 1 (.leaf 121 1 (.node 145 (.leaf 130 6 .nil) (.leaf 122 1
    .nil)))) (.leaf 106 4 (.leaf 100 1 (.leaf 130 1 (.node 133 (.leaf 125 1 (.node 134 (.leaf 130 1 .nil) (.leaf
    126 1 .nil))) (.node 137 (.leaf 119 1 (.node 136 (.node 139 (.node 135 (.leaf 130 1 .nil) (.leaf 113 1
    .nil)) .nil) (.leaf 120 1 .nil))) .nil)))))) (.node 132 (.node 144 (.leaf 118 1 (.leaf 121 1 (.node 145
    (.leaf 130 5 .nil) (.leaf 122 1 .nil)))) (.leaf 106 4 (.leaf 100 1 (.leaf 130 1 (.node 137 (.leaf 119 1
    (.node 136 (.node 135 (.leaf 130 1 .nil) .nil) (.leaf 112 1 (.node 136 (.node 135 (.leaf 130 1 .nil) .nil)
    (.leaf 120 1 .nil))))) .nil))))) (.node 132 (.node 144 (.leaf 118 1 (.leaf 121 1 (.node 145 (.leaf 130 4
    .nil) (.leaf 122 1 .nil)))) (.leaf 109 3 (.leaf 100 1 (.leaf 106 4 (.leaf 100 1 (.leaf 130 1 (.node 137
    (.leaf 119 1 (.node 136 (.node 135 (.leaf 128 3 .nil) .nil) (.leaf 120 1 .nil))) .nil))))))) (.node 132
    (.node 144 (.leaf 118 1 (.leaf 121 1 (.node 145 (.leaf 130 3 (.leaf 125 1 (.node 146 (.leaf 127 1 .nil)
    (.leaf 126 1 .nil)))) (.leaf 122 1 .nil)))) (.leaf 109 3 (.leaf 100 1 (.leaf 106 4 (.leaf 100 1 (.leaf 130 1
    (.node 137 (.leaf 119 1 (.node 136 (.node 135 (.leaf 130 1 .nil) (.node 135 (.leaf 128 3 .nil) (.node 135
    (.leaf 130 1 .nil) .nil))) (.leaf 120 1 .nil))) .nil))))))) .nil))))))

/-- Nodes of the grammar, from number 0. -/
def calcNodes1 : List NodeData :=
  [
    ⟨131, none, [1, 13, 38, 61, 81, 99], ⟨0, 138⟩⟩, ⟨141, some 0, [2, 3, 4, 8, 12], ⟨0, 19⟩⟩,
    ⟨105, some 1, [], ⟨0, 9⟩⟩, ⟨119, some 1, [], ⟨9, 10⟩⟩, ⟨142, some 1, [5, 6], ⟨10, 14⟩⟩,
    ⟨130, some 4, [], ⟨10, 11⟩⟩, ⟨147, some 4, [7], ⟨11, 14⟩⟩, ⟨128, some 6, [], ⟨11, 14⟩⟩,
    ⟨142, some 1, [9, 10], ⟨14, 18⟩⟩, ⟨130, some 8, [], ⟨14, 15⟩⟩, ⟨147, some 8, [11], ⟨15, 18⟩⟩,
    ⟨128, some 10, [], ⟨15, 18⟩⟩, ⟨120, some 1, [], ⟨18, 19⟩⟩, ⟨132, some 0, [14, 15, 16, 17, 18, 19], ⟨19, 49⟩⟩,
    ⟨109, some 13, [], ⟨19, 22⟩⟩, ⟨100, some 13, [], ⟨22, 23⟩⟩, ⟨106, some 13, [], ⟨23, 27⟩⟩,
    ⟨100, some 13, [], ⟨27, 28⟩⟩, ⟨130, some 13, [], ⟨28, 29⟩⟩, ⟨137, some 13, [20, 21, 37], ⟨29, 49⟩⟩,
    ⟨119, some 19, [], ⟨29, 30⟩⟩, ⟨136, some 19, [22, 29, 33], ⟨30, 48⟩⟩,
    ⟨140, some 21, [23, 24, 25, 26, 28], ⟨30, 35⟩⟩, ⟨123, some 22, [], ⟨30, 31⟩⟩, ⟨130, some 22, [], ⟨31, 32⟩⟩,
    ⟨100, some 22, [], ⟨32, 33⟩⟩, ⟨135, some 22, [27], ⟨33, 34⟩⟩, ⟨130, some 26, [], ⟨33, 34⟩⟩]

/-- Nodes of the grammar, from number 28. -/
def calcNodes2 : List NodeData :=
  [
    ⟨124, some 22, [], ⟨34, 35⟩⟩, ⟨140, some 21, [30, 31, 32], ⟨35, 43⟩⟩, ⟨123, some 29, [], ⟨35, 36⟩⟩,
    ⟨130, some 29, [], ⟨36, 42⟩⟩, ⟨124, some 29, [], ⟨42, 43⟩⟩, ⟨140, some 21, [34, 35, 36], ⟨43, 48⟩⟩,
    ⟨123, some 33, [], ⟨43, 44⟩⟩, ⟨130, some 33, [], ⟨44, 47⟩⟩, ⟨124, some 33, [], ⟨47, 48⟩⟩,
    ⟨120, some 19, [], ⟨48, 49⟩⟩, ⟨132, some 0, [39, 45, 46, 47, 48, 53], ⟨49, 71⟩⟩,
    ⟨144, some 38, [40, 41, 42, 44], ⟨49, 58⟩⟩, ⟨118, some 39, [], ⟨49, 50⟩⟩, ⟨121, some 39, [], ⟨50, 51⟩⟩,
    ⟨145, some 39, [43], ⟨51, 57⟩⟩, ⟨130, some 42, [], ⟨51, 57⟩⟩, ⟨122, some 39, [], ⟨57, 58⟩⟩,
    ⟨106, some 38, [], ⟨58, 62⟩⟩, ⟨100, some 38, [], ⟨62, 63⟩⟩, ⟨130, some 38, [], ⟨63, 64⟩⟩,
    ⟨133, some 38, [49, 50, 52], ⟨64, 67⟩⟩, ⟨125, some 48, [], ⟨64, 65⟩⟩, ⟨134, some 48, [51], ⟨65, 66⟩⟩,
    ⟨130, some 50, [], ⟨65, 66⟩⟩, ⟨126, some 48, [], ⟨66, 67⟩⟩, ⟨137, some 38, [54, 55, 60], ⟨67, 71⟩⟩,
    ⟨119, some 53, [], ⟨67, 68⟩⟩, ⟨136, some 53, [56], ⟨68, 70⟩⟩]

/-- Nodes of the grammar, from number 56. -/
def calcNodes3 : List NodeData :=
  [
    ⟨139, some 55, [57, 59], ⟨68, 70⟩⟩, ⟨135, some 56, [58], ⟨68, 69⟩⟩, ⟨130, some 57, [], ⟨68, 69⟩⟩,
    ⟨113, some 56, [], ⟨69, 70⟩⟩, ⟨120, some 53, [], ⟨70, 71⟩⟩, ⟨132, some 0, [62, 68, 69, 70, 71], ⟨71, 90⟩⟩,
    ⟨144, some 61, [63, 64, 65, 67], ⟨71, 79⟩⟩, ⟨118, some 62, [], ⟨71, 72⟩⟩, ⟨121, some 62, [], ⟨72, 73⟩⟩,
    ⟨145, some 62, [66], ⟨73, 78⟩⟩, ⟨130, some 65, [], ⟨73, 78⟩⟩, ⟨122, some 62, [], ⟨78, 79⟩⟩,
    ⟨106, some 61, [], ⟨79, 83⟩⟩, ⟨100, some 61, [], ⟨83, 84⟩⟩, ⟨130, some 61, [], ⟨84, 85⟩⟩,
    ⟨137, some 61, [72, 73, 76, 77, 80], ⟨85, 90⟩⟩, ⟨119, some 71, [], ⟨85, 86⟩⟩, ⟨136, some 71, [74], ⟨86, 87⟩⟩,
    ⟨135, some 73, [75], ⟨86, 87⟩⟩, ⟨130, some 74, [], ⟨86, 87⟩⟩, ⟨112, some 71, [], ⟨87, 88⟩⟩,
    ⟨136, some 71, [78], ⟨88, 89⟩⟩, ⟨135, some 77, [79], ⟨88, 89⟩⟩, ⟨130, some 78, [], ⟨88, 89⟩⟩,
    ⟨120, some 71, [], ⟨89, 90⟩⟩, ⟨132, some 0, [82, 88, 89, 90, 91, 92, 93], ⟨90, 112⟩⟩,
    ⟨144, some 81, [83, 84, 85, 87], ⟨90, 97⟩⟩, ⟨118, some 82, [], ⟨90, 91⟩⟩]

/-- Nodes of the grammar, from number 84. -/
def calcNodes4 : List NodeData :=
  [
    ⟨121, some 82, [], ⟨91, 92⟩⟩, ⟨145, some 82, [86], ⟨92, 96⟩⟩, ⟨130, some 85, [], ⟨92, 96⟩⟩,
    ⟨122, some 82, [], ⟨96, 97⟩⟩, ⟨109, some 81, [], ⟨97, 100⟩⟩, ⟨100, some 81, [], ⟨100, 101⟩⟩,
    ⟨106, some 81, [], ⟨101, 105⟩⟩, ⟨100, some 81, [], ⟨105, 106⟩⟩, ⟨130, some 81, [], ⟨106, 107⟩⟩,
    ⟨137, some 81, [94, 95, 98], ⟨107, 112⟩⟩, ⟨119, some 93, [], ⟨107, 108⟩⟩, ⟨136, some 93, [96], ⟨108, 111⟩⟩,
    ⟨135, some 95, [97], ⟨108, 111⟩⟩, ⟨128, some 96, [], ⟨108, 111⟩⟩, ⟨120, some 93, [], ⟨111, 112⟩⟩,
    ⟨132, some 0, [100, 110, 111, 112, 113, 114, 115], ⟨112, 138⟩⟩,
    ⟨144, some 99, [101, 102, 103, 109], ⟨112, 121⟩⟩, ⟨118, some 100, [], ⟨112, 113⟩⟩,
    ⟨121, some 100, [], ⟨113, 114⟩⟩, ⟨145, some 100, [104, 105, 106, 108], ⟨114, 120⟩⟩,
    ⟨130, some 103, [], ⟨114, 117⟩⟩, ⟨125, some 103, [], ⟨117, 118⟩⟩, ⟨146, some 103, [107], ⟨118, 119⟩⟩,
    ⟨127, some 106, [], ⟨118, 119⟩⟩, ⟨126, some 103, [], ⟨119, 120⟩⟩, ⟨122, some 100, [], ⟨120, 121⟩⟩,
    ⟨109, some 99, [], ⟨121, 124⟩⟩, ⟨100, some 99, [], ⟨124, 125⟩⟩]

/-- Nodes of the grammar, from number 112. -/
def calcNodes5 : List NodeData :=
  [
    ⟨106, some 99, [], ⟨125, 129⟩⟩, ⟨100, some 99, [], ⟨129, 130⟩⟩, ⟨130, some 99, [], ⟨130, 131⟩⟩,
    ⟨137, some 99, [116, 117, 124], ⟨131, 138⟩⟩, ⟨119, some 115, [], ⟨131, 132⟩⟩,
    ⟨136, some 115, [118, 120, 122], ⟨132, 137⟩⟩, ⟨135, some 117, [119], ⟨132, 133⟩⟩,
    ⟨130, some 118, [], ⟨132, 133⟩⟩, ⟨135, some 117, [121], ⟨133, 136⟩⟩, ⟨128, some 120, [], ⟨133, 136⟩⟩,
    ⟨135, some 117, [123], ⟨136, 137⟩⟩, ⟨130, some 122, [], ⟨136, 137⟩⟩, ⟨120, some 115, [], ⟨137, 138⟩⟩]

/-- The grammar with its tree. -/
def calcFile : File UInt8 :=
  ⟨calcText, calcNodes1 ++ calcNodes2 ++ calcNodes3 ++ calcNodes4 ++ calcNodes5⟩

theorem calcFile_consistent : ConsistentFile calcFile := by
  obtain ⟨f, h1, _, h2, _⟩ := C14_build_consistent (Forest.node 131 calcForest .nil).ops
    (forest_singleRoot 131 calcForest) calcText (by decide +kernel)
  have : newFile calcText (Forest.node 131 calcForest .nil).ops = some calcFile := by decide +kernel
  rw [this, Option.some.injEq] at h1
  rw [h1]
  exact h2

/-- The bodies of rules are blocks if an evaluation says so. -/
theorem blockBodies_of {f : File UInt8} (hf : ConsistentFile f)
    (h : ((List.range f.nodes.length).all fun r =>
      match f.ty r, f.firstChild isFallExpr r with
      | some 132, some (some b) => f.ty b == some 137
      | _, _ => true) = true) : BlockBodies f := by
  intro r b hr hb
  have hn : IsNode f r := ofType_isNode hr
  have := List.all_eq_true.1 h r (List.mem_range.2 hn)
  rw [show f.ty r = some 132 from hr, firstChild_eq hf hn] at this
  have hb : FirstChild f r (fun c => ∃ ty, f.ty c = some ty ∧ isFallExpr ty = true) b := by
    simp only [fallExpr_eq]
    exact hb
  rw [(firstChild_find hf hn isFallExpr).1 hb] at this
  simpa [OfType] using this

theorem calcFile_blocks : BlockBodies calcFile := blockBodies_of calcFile_consistent (by decide +kernel)

/-- The types that the generator makes for the grammar. -/
def calcTypes : List (List UInt8 × Bool) := [([110], false), ([112], false), ([102], false), ([97], false), ([98], false)]

/-- The rules that the generator makes for the grammar. -/
def calcRules : List Expr :=
  [.pub 3 8 false, .cached 12, .pratt ⟨[3], [], [⟨5, 13, 1, true⟩]⟩, .pub 4 16 false, .pub 5 19 false,
    .call 1 [(0, 2)], .eof, .and [5, 6] (some 1), .or [7], .var 0, .rep 9, .and [10] none, .or [11], .token 2,
    .token 1, .and [14] none, .or [15], .token 2, .and [2, 17, 2] none, .or [18]]

instance : DecidableEq (Option (Option (List (List UInt8 × Bool) × List Expr))) :=
  have : DecidableEq (List (List UInt8 × Bool) × List Expr) := inferInstance
  inferInstance

/-- The generator makes them. -/
theorem calc_generated : Eval (analysisBody calcFile) (genParser calcFile) (some (some (calcTypes, calcRules))) [] :=
  runFuel_eval (n := 200) (by decide +kernel)

end Fall
