import Verif.Model.Syn

/-!
The grammars of the small shipped languages.
Written by `tools/grammars.py`.
-/

namespace Fall

/-- `fall/test/src/sexp.rs` 24: the rules, read from the text of the generated parser. -/
def sexpRules : List Expr := [
  .pub 5 5 false, .or [7, 8], .pub 6 13 false, .rep 1, .and [3] none, .or [4], .token 4, .and [6] none,
  .and [2] none, .token 2, .rep 1, .token 3, .and [9, 10, 11] none, .or [12]]

/-- `fall/test/src/sexp.rs` 27-30: the node types, with the numbers of lines 4-9. -/
def sexpTypes : List NodeType := [
  0, 100, 101, 102, 103, 104, 105]

/-- `fall/test/src/sexp.rs` 63-69: the types that are like whitespace. -/
def sexpIsWs (ty : NodeType) : Bool := [100].contains ty

/-- `fall/test/src/sexp.rs` 24, with the start rule of `fall/parse/src/lib.rs` 247-251. -/
def sexpGrammar : Grammar := ⟨sexpTypes, sexpRules, 0⟩

/-- `fall/test/src/arith.rs` 38: the rules, read from the text of the generated parser. -/
def arithRules : List Expr := [
  .pub 10 9 false,
  .pratt ⟨[4, 5], [⟨16, 21, 999⟩], [⟨12, 14, 1, true⟩, ⟨11, 19, 2, true⟩, ⟨15, 20, 999, false⟩]⟩,
  .pub 11 28 false, .pub 12 35 false, .pub 13 38 false, .pub 14 42 false, .pub 15 45 false, .pub 16 48 false,
  .and [1] none, .or [8], .token 3, .and [10] none, .token 4, .and [12] none, .or [11, 13], .token 5,
  .and [15] none, .token 6, .and [17] none, .or [16, 18], .token 7, .token 4, .token 5, .and [22] none,
  .token 6, .and [24] none, .or [23, 25], .and [1, 26, 1] none, .or [27], .token 3, .and [29] none, .token 4,
  .and [31] none, .or [30, 32], .and [1, 33, 1] none, .or [34], .token 2, .and [36] none, .or [37], .token 8,
  .token 9, .and [39, 1, 40] none, .or [41], .token 7, .and [1, 43] none, .or [44], .token 4,
  .and [46, 1] none, .or [47]]

/-- `fall/test/src/arith.rs` 41-44: the node types, with the numbers of lines 4-19. -/
def arithTypes : List NodeType := [
  0, 100, 101, 102, 103, 104, 105, 106, 107, 108, 109, 110, 111, 112, 113, 114, 115]

/-- `fall/test/src/arith.rs` 77-93: the types that are like whitespace. -/
def arithIsWs (ty : NodeType) : Bool := [100].contains ty

/-- `fall/test/src/arith.rs` 38, with the start rule of `fall/parse/src/lib.rs` 247-251. -/
def arithGrammar : Grammar := ⟨arithTypes, arithRules, 0⟩

/-- `fall/test/src/weird.rs` 39: the rules, read from the text of the generated parser. -/
def weirdRules : List Expr := [
  .pub 12 19 false, .pub 13 22 false, .or [25], .or [28], .pub 14 31 false, .or [32], .pub 15 36 false,
  .or [38], .or [41, 47], .token 5, .token 2, .and [9, 10] none, .token 6, .token 11,
  .and [12, 4, 13, 4] none, .token 7, .and [15, 1] none, .token 8, .and [17, 6] none, .or [11, 14, 16, 18],
  .and [2] none, .and [3] none, .or [20, 21], .token 3, .token 4, .and [23, 24] none, .token 3, .token 3,
  .and [26, 27] none, .opt 5, .and [29] none, .or [30], .and [] none, .token 9, .token 10,
  .and [33, 7, 34] (some 1), .or [35], .rep 8, .and [37] none, .token 9, .token 10,
  .and [39, 7, 40] (some 1), .token 10, .not 42, .any, .and [43, 44] none, .or [45], .and [46] none]

/-- `fall/test/src/weird.rs` 42-45: the node types, with the numbers of lines 4-18. -/
def weirdTypes : List NodeType := [
  0, 100, 101, 102, 103, 104, 105, 106, 107, 108, 109, 110, 111, 112, 113, 114]

/-- `fall/test/src/weird.rs` 78-93: the types that are like whitespace. -/
def weirdIsWs (ty : NodeType) : Bool := [100].contains ty

/-- `fall/test/src/weird.rs` 39, with the start rule of `fall/parse/src/lib.rs` 247-251. -/
def weirdGrammar : Grammar := ⟨weirdTypes, weirdRules, 0⟩

/-- `lang/bnf/src/bnf.rs` 24: the rules, read from the text of the generated parser. -/
def bnfRules : List Expr := [
  .pub 6 9 false, .or [12], .pub 7 14 false, .pub 8 20 false, .pub 9 23 false, .pub 10 30 false,
  .withSkip 1 2, .rep 6, .and [7] none, .or [8], .token 5, .token 2, .and [10, 11] none,
  .and [1, 3] (some 1), .or [13], .token 3, .and [15, 4] none, .or [16], .rep 17, .and [4, 18] none,
  .or [19], .rep 5, .and [5, 21] none, .or [22], .token 5, .token 2, .not 25, .and [24, 26] none, .token 4,
  .and [28] none, .or [27, 29]]

/-- `lang/bnf/src/bnf.rs` 26-29: the node types, with the numbers of lines 3-12. -/
def bnfTypes : List NodeType := [
  0, 100, 101, 102, 103, 104, 105, 106, 107, 108, 109]

/-- `lang/bnf/src/bnf.rs` 59-69: the types that are like whitespace. -/
def bnfIsWs (ty : NodeType) : Bool := [100].contains ty

/-- `lang/bnf/src/bnf.rs` 24, with the start rule of `fall/parse/src/lib.rs` 247-251. -/
def bnfGrammar : Grammar := ⟨bnfTypes, bnfRules, 0⟩

/-- `lang/json/src/json.rs` 40: rules 0 to 99. -/
def jsonRules0 : List Expr := [
  .pub 12 14 false, .pub 13 19 false, .or [32], .pub 14 36 false, .pub 15 41 false, .or [66],
  .or [67, 68, 69], .pub 16 78 false, .or [80], .or [83, 89], .or [91], .or [94, 100], .and [1] none,
  .and [4] none, .or [12, 13], .token 2, .layer 8 2, .token 3, .and [15, 16, 17] (some 1), .or [18],
  .token 10, .token 7, .eof, .not 22, .and [21, 23] none, .eof, .and [25] none, .or [24, 26],
  .and [3, 27] (some 1), .or [28], .withSkip 20 29, .rep 30, .and [31] none, .token 10, .token 6,
  .and [33, 34, 6] (some 1), .or [35], .token 4, .layer 10 5, .token 5, .and [37, 38, 39] (some 1), .or [40],
  .token 8, .and [42] none, .token 11, .and [44] none, .token 10, .and [46] none, .token 9, .and [48] none,
  .token 2, .and [50] none, .token 4, .and [52] none, .or [43, 45, 47, 49, 51, 53], .token 7, .eof, .not 56,
  .and [55, 57] none, .eof, .and [59] none, .or [58, 60], .and [6, 61] (some 1), .or [62], .withSkip 54 63,
  .rep 64, .and [65] none, .and [7] none, .and [1] none, .and [4] none, .token 8, .and [70] none, .token 11,
  .and [72] none, .token 10, .and [74] none, .token 9, .and [76] none, .or [71, 73, 75, 77], .rep 9,
  .and [79] none, .token 2, .token 3, .and [81, 8, 82] (some 1), .token 3, .not 84, .any, .and [85, 86] none,
  .or [87], .and [88] none, .rep 11, .and [90] none, .token 4, .token 5, .and [92, 10, 93] (some 1),
  .token 5, .not 95, .any, .and [96, 97] none, .or [98]]

/-- `lang/json/src/json.rs` 40: rules 100 to 100. -/
def jsonRules1 : List Expr := [
  .and [99] none]

/-- `lang/json/src/json.rs` 40: the rules, read from the text of the generated parser. -/
def jsonRules : List Expr :=
  jsonRules0 ++ jsonRules1

/-- `lang/json/src/json.rs` 43-46: the node types, with the numbers of lines 4-19. -/
def jsonTypes : List NodeType := [
  0, 100, 101, 102, 103, 104, 105, 106, 107, 108, 109, 110, 111, 112, 113, 114, 115]

/-- `lang/json/src/json.rs` 79-95: the types that are like whitespace. -/
def jsonIsWs (ty : NodeType) : Bool := [100].contains ty

/-- `lang/json/src/json.rs` 40, with the start rule of `fall/parse/src/lib.rs` 247-251. -/
def jsonGrammar : Grammar := ⟨jsonTypes, jsonRules, 0⟩

/-- `lang/fall/syntax/src/fall.rs` 86: rules 0 to 99. -/
def fallRules0 : List Expr := [
  .pub 32 37 false, .or [39, 41, 43, 45, 47, 49, 51], .or [52, 53, 54, 55, 56], .pub 33 77 false,
  .pub 34 83 false, .pub 35 86 false, .pratt ⟨[12, 7, 9], [], [⟨39, 87, 999, false⟩, ⟨40, 88, 999, false⟩]⟩,
  .pub 36 93 false, .pub 37 96 false, .pub 38 106 false, .pub 39 109 false, .pub 40 112 false,
  .pub 41 118 false, .pub 42 123 false, .pub 43 128 false, .pub 44 132 false, .pub 45 139 false,
  .pub 46 147 false, .pub 47 152 false, .pub 48 157 false, .or [167], .or [172], .or [176], .or [180],
  .or [184], .or [199], .pub 49 203 false, .pub 50 221 false, .pub 51 242 false, .pub 52 249 false,
  .pub 53 255 false, .pub 54 258 false, .pub 55 262 false, .or [266, 269, 271, 273], .withSkip 1 2, .rep 34,
  .and [35] none, .or [36], .contextualToken 6 [116, 111, 107, 101, 110, 105, 122, 101, 114], .and [38] none,
  .contextualToken 10 [112, 117, 98], .and [40] none, .contextualToken 7 [114, 117, 108, 101],
  .and [42] none, .token 19, .and [44] none, .contextualToken 8 [118, 101, 114, 98, 97, 116, 105, 109],
  .and [46] none, .contextualToken 9 [97, 115, 116], .and [48] none,
  .contextualToken 11 [116, 101, 115, 116], .and [50] none, .and [13] none, .and [3] none, .and [26] none,
  .and [27] none, .and [15] none, .opt 16, .contextualToken 10 [112, 117, 98], .opt 58,
  .contextualToken 7 [114, 117, 108, 101], .token 31, .opt 4, .token 20, .token 21, .and [63, 22, 64] none,
  .token 20, .not 1, .any, .and [67, 68] none, .or [69], .rep 70, .and [66, 71] none, .or [65, 72],
  .layer 73 9, .and [57, 59, 60, 61, 62, 74] (some 3), .or [75], .cached 76, .token 26, .call 20 [(0, 5)],
  .layer 23 79, .token 27, .and [78, 80, 81] none, .or [82], .token 31, .and [84] none, .or [85], .token 15,
  .token 14, .token 31, .and [89] none, .token 29, .and [91] none, .or [90, 92], .rep 6, .and [94] none,
  .or [95], .opt 8, .token 13, .and [98, 8] none]

/-- `lang/fall/syntax/src/fall.rs` 86: rules 100 to 199. -/
def fallRules1 : List Expr := [
  .or [99], .rep 100, .and [97, 101] none, .or [102], .call 21 [(1, 103)], .and [104] none, .or [105],
  .token 15, .and [6, 107] none, .or [108], .token 14, .and [6, 110] none, .or [111], .token 24, .token 31,
  .rep 6, .token 25, .and [113, 114, 115, 116] none, .or [117],
  .contextualToken 6 [116, 111, 107, 101, 110, 105, 122, 101, 114], .rep 14, .call 21 [(1, 120)],
  .and [119, 121] (some 1), .or [122], .opt 16, .token 31, .opt 19, .and [124, 125, 19, 126] (some 2),
  .or [127], .contextualToken 11 [116, 101, 115, 116], .token 30, .and [129, 130] (some 1), .or [131],
  .token 19, .token 22, .call 20 [(0, 17)], .layer 24 135, .token 23, .and [133, 134, 136, 137] none,
  .or [138], .token 31, .token 26, .token 27, .and [141, 18, 142] none, .or [143], .opt 144,
  .and [140, 145] none, .or [146], .token 28, .and [148] none, .token 31, .and [150] none, .or [149, 151],
  .token 29, .and [153] none, .token 30, .and [155] none, .or [154, 156], .var 0, .eof, .and [159] none,
  .token 17, .and [161] none, .or [160, 162], .and [158, 163] (some 1), .or [164], .rep 165, .and [166] none,
  .token 20, .var 1, .layer 22 169, .token 21, .and [168, 170, 171] (some 1), .token 20, .token 21,
  .call 25 [(2, 173), (3, 174)], .and [175] none, .token 26, .token 27, .call 25 [(2, 177), (3, 178)],
  .and [179] none, .token 22, .token 23, .call 25 [(2, 181), (3, 182)], .and [183] none, .var 2, .var 2,
  .var 3, .call 25 [(2, 186), (3, 187)], .var 3, .and [185, 188, 189] none, .var 3, .not 191, .any,
  .and [192, 193] none, .or [194], .and [195] none, .or [190, 196], .rep 197, .and [198] none]

/-- `lang/fall/syntax/src/fall.rs` 86: rules 200 to 273. -/
def fallRules2 : List Expr := [
  .contextualToken 8 [118, 101, 114, 98, 97, 116, 105, 109], .token 30, .and [200, 201] (some 1), .or [202],
  .contextualToken 9 [97, 115, 116], .token 20, .contextualToken 3 [110, 111, 100, 101], .and [206] none,
  .contextualToken 4 [99, 108, 97, 115, 115], .and [208] none, .contextualToken 5 [116, 114, 97, 105, 116],
  .and [210] none, .or [207, 209, 211], .and [28] none, .and [29] none, .and [30] none, .or [213, 214, 215],
  .withSkip 212 216, .rep 217, .token 21, .and [204, 205, 218, 219] (some 1), .or [220],
  .contextualToken 3 [110, 111, 100, 101], .token 31, .token 18, .token 31, .token 17, .and [226] none,
  .token 20, .not 228, .not 229, .and [230] none, .or [227, 231], .and [225, 232] none, .or [233], .rep 234,
  .and [224, 235] none, .or [236], .opt 237, .rep 31, .call 21 [(1, 239)],
  .and [222, 223, 238, 240] (some 1), .or [241], .contextualToken 4 [99, 108, 97, 115, 115], .token 31,
  .token 31, .rep 245, .call 21 [(1, 246)], .and [243, 244, 247] (some 1), .or [248],
  .contextualToken 5 [116, 114, 97, 105, 116], .token 31, .rep 31, .call 21 [(1, 252)],
  .and [250, 251, 253] (some 1), .or [254], .token 31, .and [256, 32] none, .or [257], .token 31, .opt 33,
  .and [259, 260] none, .or [261], .token 15, .token 16, .token 31, .and [263, 264, 265] none, .token 16,
  .token 31, .and [267, 268] none, .token 14, .and [270] none, .token 15, .and [272] none]

/-- `lang/fall/syntax/src/fall.rs` 86: the rules, read from the text of the generated parser. -/
def fallRules : List Expr :=
  fallRules0 ++ fallRules1 ++ fallRules2

/-- `lang/fall/syntax/src/fall.rs` 88-91: the node types, with the numbers of lines 3-57. -/
def fallTypes : List NodeType := [
  0, 100, 101, 102, 103, 104, 105, 106, 107, 108, 109, 110, 111, 112, 113, 114, 115, 116, 117, 118, 119, 120,
  121, 122, 123, 124, 125, 126, 127, 128, 129, 130, 131, 132, 133, 134, 135, 136, 137, 138, 139, 140, 141,
  142, 143, 144, 145, 146, 147, 148, 149, 150, 151, 152, 153, 154]

/-- `lang/fall/syntax/src/fall.rs` 121-176: the types that are like whitespace. -/
def fallIsWs (ty : NodeType) : Bool := [100, 101].contains ty

/-- `lang/fall/syntax/src/fall.rs` 86, with the start rule of `fall/parse/src/lib.rs` 247-251. -/
def fallGrammar : Grammar := ⟨fallTypes, fallRules, 0⟩

end Fall
