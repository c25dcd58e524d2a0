import Verif.Props.CodegenSucceeds
import Verif.Lemmas.GenerateResolves

/-! A grammar for the examples about the generated lexer and the typed tree. -/

namespace Fall
open Spec AProg

/-- The grammar of the examples:

```
tokenizer { n 'n'  x r"x" 'f'  #[skip, contextual] k 'k' }
pub rule f { 'n' 'k' g }
pub rule g { x }
ast {
  node f: t { a n  b x?.text  c x_y* }
  node g {}
  class x_y { f g }
  trait t { d f? }
}
verbatim r" whitespace_binder "
```
-/
def itemText : List UInt8 :=
  ascii ("tokenizer{n'n'x r\"x\"'f'#[skip,contextual]k'k'}pub rule f{'n''k'g}pub rule g{x}" ++
    "ast{node f:t{a n b x?.text c x_y*}node g{}class x_y{f g}trait t{d f?}}verbatim r\" whitespace_binder \"")

/-- Nodes of the grammar, from number 0. -/
def itemNodes1 : List NodeData :=
  [
    ⟨131, none, [1, 29, 45, 57, 117], ⟨0, 179⟩⟩, ⟨141, some 0, [2, 3, 4, 8, 15, 28], ⟨0, 46⟩⟩,
    ⟨105, some 1, [], ⟨0, 9⟩⟩, ⟨119, some 1, [], ⟨9, 10⟩⟩, ⟨142, some 1, [5, 6], ⟨10, 14⟩⟩,
    ⟨130, some 4, [], ⟨10, 11⟩⟩, ⟨147, some 4, [7], ⟨11, 14⟩⟩, ⟨128, some 6, [], ⟨11, 14⟩⟩,
    ⟨142, some 1, [9, 10, 11, 13], ⟨14, 23⟩⟩, ⟨130, some 8, [], ⟨14, 15⟩⟩, ⟨100, some 8, [], ⟨15, 16⟩⟩,
    ⟨147, some 8, [12], ⟨16, 20⟩⟩, ⟨129, some 11, [], ⟨16, 20⟩⟩, ⟨147, some 8, [14], ⟨20, 23⟩⟩,
    ⟨128, some 13, [], ⟨20, 23⟩⟩, ⟨142, some 1, [16, 25, 26], ⟨23, 45⟩⟩,
    ⟨144, some 15, [17, 18, 19, 21, 22, 24], ⟨23, 41⟩⟩, ⟨118, some 16, [], ⟨23, 24⟩⟩, ⟨121, some 16, [], ⟨24, 25⟩⟩,
    ⟨145, some 16, [20], ⟨25, 29⟩⟩, ⟨130, some 19, [], ⟨25, 29⟩⟩, ⟨116, some 16, [], ⟨29, 30⟩⟩,
    ⟨145, some 16, [23], ⟨30, 40⟩⟩, ⟨130, some 22, [], ⟨30, 40⟩⟩, ⟨122, some 16, [], ⟨40, 41⟩⟩]

/-- Nodes of the grammar, from number 25. -/
def itemNodes2 : List NodeData :=
  [
    ⟨130, some 15, [], ⟨41, 42⟩⟩, ⟨147, some 15, [27], ⟨42, 45⟩⟩, ⟨128, some 26, [], ⟨42, 45⟩⟩,
    ⟨120, some 1, [], ⟨45, 46⟩⟩, ⟨132, some 0, [30, 31, 32, 33, 34, 35], ⟨46, 65⟩⟩, ⟨109, some 29, [], ⟨46, 49⟩⟩,
    ⟨100, some 29, [], ⟨49, 50⟩⟩, ⟨106, some 29, [], ⟨50, 54⟩⟩, ⟨100, some 29, [], ⟨54, 55⟩⟩,
    ⟨130, some 29, [], ⟨55, 56⟩⟩, ⟨137, some 29, [36, 37, 44], ⟨56, 65⟩⟩, ⟨119, some 35, [], ⟨56, 57⟩⟩,
    ⟨136, some 35, [38, 40, 42], ⟨57, 64⟩⟩, ⟨135, some 37, [39], ⟨57, 60⟩⟩, ⟨128, some 38, [], ⟨57, 60⟩⟩,
    ⟨135, some 37, [41], ⟨60, 63⟩⟩, ⟨128, some 40, [], ⟨60, 63⟩⟩, ⟨135, some 37, [43], ⟨63, 64⟩⟩,
    ⟨130, some 42, [], ⟨63, 64⟩⟩, ⟨120, some 35, [], ⟨64, 65⟩⟩, ⟨132, some 0, [46, 47, 48, 49, 50, 51], ⟨65, 78⟩⟩,
    ⟨109, some 45, [], ⟨65, 68⟩⟩, ⟨100, some 45, [], ⟨68, 69⟩⟩, ⟨106, some 45, [], ⟨69, 73⟩⟩,
    ⟨100, some 45, [], ⟨73, 74⟩⟩]

/-- Nodes of the grammar, from number 50. -/
def itemNodes3 : List NodeData :=
  [
    ⟨130, some 45, [], ⟨74, 75⟩⟩, ⟨137, some 45, [52, 53, 56], ⟨75, 78⟩⟩, ⟨119, some 51, [], ⟨75, 76⟩⟩,
    ⟨136, some 51, [54], ⟨76, 77⟩⟩, ⟨135, some 53, [55], ⟨76, 77⟩⟩, ⟨130, some 54, [], ⟨76, 77⟩⟩,
    ⟨120, some 51, [], ⟨77, 78⟩⟩, ⟨149, some 0, [58, 59, 60, 89, 95, 104, 116], ⟨78, 148⟩⟩,
    ⟨108, some 57, [], ⟨78, 81⟩⟩, ⟨119, some 57, [], ⟨81, 82⟩⟩,
    ⟨150, some 57, [61, 62, 63, 64, 65, 66, 67, 72, 73, 81, 82, 88], ⟨82, 112⟩⟩, ⟨102, some 60, [], ⟨82, 86⟩⟩,
    ⟨100, some 60, [], ⟨86, 87⟩⟩, ⟨130, some 60, [], ⟨87, 88⟩⟩, ⟨117, some 60, [], ⟨88, 89⟩⟩,
    ⟨130, some 60, [], ⟨89, 90⟩⟩, ⟨119, some 60, [], ⟨90, 91⟩⟩, ⟨153, some 60, [68, 69, 70], ⟨91, 94⟩⟩,
    ⟨130, some 67, [], ⟨91, 92⟩⟩, ⟨100, some 67, [], ⟨92, 93⟩⟩, ⟨154, some 67, [71], ⟨93, 94⟩⟩,
    ⟨130, some 70, [], ⟨93, 94⟩⟩, ⟨100, some 60, [], ⟨94, 95⟩⟩, ⟨153, some 60, [74, 75, 76], ⟨95, 104⟩⟩,
    ⟨130, some 73, [], ⟨95, 96⟩⟩]

/-- Nodes of the grammar, from number 75. -/
def itemNodes4 : List NodeData :=
  [
    ⟨100, some 73, [], ⟨96, 97⟩⟩, ⟨154, some 73, [77, 78, 79, 80], ⟨97, 104⟩⟩, ⟨130, some 76, [], ⟨97, 98⟩⟩,
    ⟨114, some 76, [], ⟨98, 99⟩⟩, ⟨115, some 76, [], ⟨99, 100⟩⟩, ⟨130, some 76, [], ⟨100, 104⟩⟩,
    ⟨100, some 60, [], ⟨104, 105⟩⟩, ⟨153, some 60, [83, 84, 85], ⟨105, 111⟩⟩, ⟨130, some 82, [], ⟨105, 106⟩⟩,
    ⟨100, some 82, [], ⟨106, 107⟩⟩, ⟨154, some 82, [86, 87], ⟨107, 111⟩⟩, ⟨130, some 85, [], ⟨107, 110⟩⟩,
    ⟨113, some 85, [], ⟨110, 111⟩⟩, ⟨120, some 60, [], ⟨111, 112⟩⟩,
    ⟨150, some 57, [90, 91, 92, 93, 94], ⟨112, 120⟩⟩, ⟨102, some 89, [], ⟨112, 116⟩⟩,
    ⟨100, some 89, [], ⟨116, 117⟩⟩, ⟨130, some 89, [], ⟨117, 118⟩⟩, ⟨119, some 89, [], ⟨118, 119⟩⟩,
    ⟨120, some 89, [], ⟨119, 120⟩⟩, ⟨151, some 57, [96, 97, 98, 99, 100, 101, 102, 103], ⟨120, 134⟩⟩,
    ⟨103, some 95, [], ⟨120, 125⟩⟩, ⟨100, some 95, [], ⟨125, 126⟩⟩, ⟨130, some 95, [], ⟨126, 129⟩⟩,
    ⟨119, some 95, [], ⟨129, 130⟩⟩]

/-- Nodes of the grammar, from number 100. -/
def itemNodes5 : List NodeData :=
  [
    ⟨130, some 95, [], ⟨130, 131⟩⟩, ⟨100, some 95, [], ⟨131, 132⟩⟩, ⟨130, some 95, [], ⟨132, 133⟩⟩,
    ⟨120, some 95, [], ⟨133, 134⟩⟩, ⟨152, some 57, [105, 106, 107, 108, 109, 115], ⟨134, 147⟩⟩,
    ⟨104, some 104, [], ⟨134, 139⟩⟩, ⟨100, some 104, [], ⟨139, 140⟩⟩, ⟨130, some 104, [], ⟨140, 141⟩⟩,
    ⟨119, some 104, [], ⟨141, 142⟩⟩, ⟨153, some 104, [110, 111, 112], ⟨142, 146⟩⟩, ⟨130, some 109, [], ⟨142, 143⟩⟩,
    ⟨100, some 109, [], ⟨143, 144⟩⟩, ⟨154, some 109, [113, 114], ⟨144, 146⟩⟩, ⟨130, some 112, [], ⟨144, 145⟩⟩,
    ⟨114, some 112, [], ⟨145, 146⟩⟩, ⟨120, some 104, [], ⟨146, 147⟩⟩, ⟨120, some 57, [], ⟨147, 148⟩⟩,
    ⟨148, some 0, [118, 119, 120], ⟨148, 179⟩⟩, ⟨107, some 117, [], ⟨148, 156⟩⟩, ⟨100, some 117, [], ⟨156, 157⟩⟩,
    ⟨129, some 117, [], ⟨157, 179⟩⟩]

/-- The grammar with its tree. -/
def itemFile : File UInt8 :=
  ⟨itemText, itemNodes1 ++ itemNodes2 ++ itemNodes3 ++ itemNodes4 ++ itemNodes5⟩

theorem itemFile_parsed : parsedNodes 2000 itemText = some itemFile.nodes := by decide +kernel

theorem itemFile_consistent : ConsistentFile itemFile := (parsedNodes_shaped itemFile_parsed).1

theorem itemFile_shaped : Shaped itemFile := (parsedNodes_shaped itemFile_parsed).2

theorem itemFile_blocks : BlockBodies itemFile := blockBodies_of itemFile_consistent (by decide +kernel)

end Fall
