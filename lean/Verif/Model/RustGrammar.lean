import Verif.Model.Syn

/-!
The grammar of the shipped Rust parser.
Written by `tools/grammars.py`.
-/

namespace Fall

/-- `lang/rust/syntax/src/rust.rs` 298: rules 0 to 99. -/
def rustRules0 : List Expr := [
  .pub 93 158 false, .or [161], .or [163, 165, 167, 169, 171, 173, 175, 176], .cached 193, .pub 94 209 false,
  .pub 95 215 false, .pub 96 221 false, .pub 97 228 false, .pub 98 244 false, .or [246], .pub 99 251 false,
  .or [257], .pub 100 260 false, .pub 101 266 false, .pub 102 283 false, .pub 103 302 false,
  .pub 104 307 false, .pub 105 310 false, .pub 106 317 false, .pub 107 330 false, .pub 108 339 false,
  .pub 109 352 false, .pub 110 360 false, .pub 111 372 false, .or [373, 374, 375, 376],
  .or [378, 380, 382, 384, 386, 388, 390, 392, 397], .pub 112 407 false, .pub 113 421 false,
  .pub 114 425 false, .pub 115 429 false, .or [437], .pub 116 444 false, .pub 117 448 false, .or [468],
  .pub 118 473 false, .pub 119 493 false, .pub 120 503 false, .pub 121 518 false, .or [519], .or [521],
  .or [523], .pratt ⟨[42, 44], [], [⟨122, 526, 999, false⟩]⟩, .pub 122 530 false, .pub 122 535 false,
  .pub 123 542 false, .pub 124 556 false, .pub 125 582 false, .pub 126 587 false, .pub 127 591 false,
  .pub 128 597 false, .or [598, 599, 600, 601, 602, 603, 604, 605, 606, 607], .pub 129 609 false,
  .pub 130 611 false, .pub 131 619 false, .pub 132 622 false, .pub 133 626 false, .pub 134 632 true,
  .pubReplace 135 636, .pub 136 639 false, .pub 137 648 false, .pub 138 655 false, .pub 100 661 false,
  .pub 139 664 false, .or [665, 666, 667, 668, 669, 670, 671], .pub 140 674 false, .pub 141 680 true,
  .pubReplace 142 692, .pubReplace 143 704, .pub 144 711 false, .pub 145 718 false, .pub 146 720 false,
  .pub 147 724 false, .pub 148 730 true, .pubReplace 149 734, .pub 150 739 false,
  .pratt ⟨[79, 80, 83, 84, 86, 87, 89, 90, 91, 98, 99, 102, 103, 105, 109, 110, 138], [⟨184, 120, 999⟩, ⟨185, 768, 999⟩, ⟨186, 769, 999⟩, ⟨187, 770, 999⟩, ⟨197, 140, 2⟩], [⟨177, 745, 999, false⟩, ⟨178, 754, 999, false⟩, ⟨180, 762, 999, false⟩, ⟨181, 763, 999, false⟩, ⟨182, 764, 999, false⟩, ⟨183, 767, 999, false⟩, ⟨188, 778, 11, true⟩, ⟨189, 784, 10, true⟩, ⟨190, 790, 9, true⟩, ⟨191, 796, 8, true⟩, ⟨192, 798, 7, true⟩, ⟨193, 804, 6, true⟩, ⟨194, 805, 5, true⟩, ⟨195, 807, 4, true⟩, ⟨196, 809, 3, true⟩, ⟨197, 810, 2, true⟩, ⟨197, 139, 2, false⟩, ⟨198, 834, 1, true⟩]⟩,
  .or [835, 837, 839, 841, 843, 845, 847, 849, 851, 853, 855, 857, 859, 861, 863, 865, 867, 869, 871, 873, 875, 877, 879, 881, 883, 885],
  .or [887], .or [891], .pub 152 902 false, .pub 153 910 true, .pubReplace 154 923, .pub 155 930 false,
  .pub 156 934 false, .pub 157 941 true, .pubReplace 158 946, .pub 159 959 false, .pub 160 971 false,
  .or [979], .pub 161 983 false, .pub 162 992 false, .pub 163 1002 false, .or [1003, 1004, 1005, 1006],
  .or [1008, 1010, 1011, 1012], .pub 164 1021 false, .pub 165 1024 false, .pub 166 1027 false,
  .pub 167 1038 false, .pub 168 1048 false, .pub 169 1052 false]

/-- `lang/rust/syntax/src/rust.rs` 298: rules 100 to 199. -/
def rustRules1 : List Expr := [
  .or [1058], .or [1060], .pub 170 1064 false, .pub 171 1069 false, .or [1072], .pub 172 1077 false,
  .pub 173 1087 false, .or [1093], .pub 174 1096 false, .pub 175 1098 false, .pub 176 1100 false,
  .pub 177 1108 false, .pub 178 1119 false, .or [1123], .pub 179 1125 false, .pub 180 1135 false,
  .pub 181 1138 false, .pub 182 1141 false, .pub 183 1146 false, .pub 184 1148 false, .or [1154],
  .pub 185 1157 false, .pub 186 1160 false, .pub 187 1163 false, .pub 188 1173 false, .pub 189 1181 false,
  .pub 190 1189 false, .or [1193, 1197], .pub 191 1205 false, .pub 192 1209 false, .pub 193 1217 false,
  .pub 194 1220 false, .or [1222, 1224, 1226, 1228, 1230, 1232], .pub 195 1236 false, .pub 196 1240 false,
  .pub 197 1243 false, .pub 197 1245 false, .pub 197 1247 false, .pub 197 1251 false, .or [1253, 1255],
  .or [1263], .pub 198 1289 false, .pub 199 1292 false, .pub 200 1296 false, .or [1299], .or [1301],
  .pub 201 1311 false, .pub 202 1319 false, .pub 203 1334 false, .pub 204 1363 false, .or [1373], .or [1378],
  .or [1383], .or [1388], .or [1393], .or [1401], .or [1416], .and [1] none, .or [157], .withSkip 2 3,
  .rep 159, .and [160] none, .token 11, .and [162] none, .contextualToken 4 [117, 110, 105, 111, 110],
  .and [164] none, .token 16, .and [166] none, .token 12, .and [168] none, .token 13, .and [170] none,
  .token 17, .and [172] none, .token 29, .and [174] none, .and [25] none, .opt 36, .and [145, 177] none,
  .or [178], .and [24] none, .and [4] none, .and [7] none, .and [15] none, .and [18] none, .and [20] none,
  .and [21] none, .and [22] none, .and [29] none, .or [180, 181, 182, 183, 184, 185, 186, 187, 188],
  .inject 179 189, .and [190] none, .and [28] none, .or [191, 192], .token 12, .and [48] none, .token 60,
  .and [196, 5] none, .or [197], .opt 198]

/-- `lang/rust/syntax/src/rust.rs` 298: rules 200 to 299. -/
def rustRules2 : List Expr := [
  .and [199] none, .or [195, 200], .and [38, 201] none, .token 60, .opt 203, .and [204, 5] none,
  .or [202, 205], .token 58, .and [194, 206, 207] (some 1), .or [208], .token 67, .and [210] none,
  .call 150 [(2, 6)], .call 151 [(3, 212)], .and [213] none, .or [211, 214], .token 18, .and [216] none,
  .token 92, .opt 48, .and [218, 219] (some 1), .or [217, 220], .token 7, .token 6, .token 92, .opt 48,
  .token 58, .and [222, 223, 224, 225, 226] (some 2), .or [227], .token 21, .opt 229, .token 35, .opt 231,
  .opt 10, .token 8, .token 92, .opt 31, .opt 9, .opt 37, .and [91] none, .token 58, .and [240] none,
  .or [239, 241], .and [230, 232, 233, 234, 235, 236, 11, 237, 238, 242] (some 4), .or [243], .token 51,
  .and [245, 49] none, .token 7, .token 90, .opt 248, .and [247, 249] none, .or [250], .opt 14,
  .call 150 [(2, 12)], .and [252, 253] none, .or [254], .call 152 [(4, 255)], .and [256] none, .token 59,
  .and [63, 258, 49] (some 1), .or [259], .token 59, .and [261, 49] none, .or [262], .opt 263,
  .and [63, 264] none, .or [265], .and [120] none, .token 27, .and [268] none, .or [267, 269], .opt 270,
  .token 18, .token 59, .and [273, 49] none, .or [274], .opt 275, .token 61, .and [277] none, .eof,
  .and [279] none, .or [278, 280], .and [271, 272, 276, 281] (some 2), .or [282], .token 11, .and [284] none,
  .contextualToken 4 [117, 110, 105, 111, 110], .and [286] none, .or [285, 287], .token 92, .opt 31,
  .call 150 [(2, 16)], .call 151 [(3, 291)], .and [292] none, .token 58, .and [294] none,
  .call 150 [(2, 17)], .call 152 [(4, 296)], .token 58, .and [297, 298] none]

/-- `lang/rust/syntax/src/rust.rs` 298: rules 300 to 399. -/
def rustRules3 : List Expr := [
  .or [293, 295, 299], .and [288, 289, 290, 300] (some 1), .or [301], .opt 36, .token 92, .token 59,
  .and [303, 304, 305, 49] (some 2), .or [306], .opt 36, .and [308, 49] none, .or [309], .token 16,
  .token 92, .opt 31, .call 150 [(2, 19)], .call 151 [(3, 314)], .and [311, 312, 313, 315] (some 1),
  .or [316], .token 92, .token 53, .and [319, 75] none, .call 150 [(2, 17)], .call 152 [(4, 321)],
  .and [322] none, .call 150 [(2, 16)], .call 151 [(3, 324)], .and [325] none, .or [320, 323, 326], .opt 327,
  .and [318, 328] (some 1), .or [329], .token 13, .token 92, .token 58, .and [333] none, .call 151 [(3, 1)],
  .and [335] none, .or [334, 336], .and [331, 332, 337] (some 1), .or [338], .token 35, .opt 340, .token 17,
  .opt 31, .token 23, .and [344, 49] none, .or [345], .opt 346, .and [49, 347] none, .or [348], .opt 37,
  .and [341, 342, 343, 349, 350, 23] (some 2), .or [351], .opt 36, .token 29, .token 92, .opt 31, .opt 33,
  .opt 37, .and [145, 353, 354, 355, 356, 357, 358, 23] (some 3), .or [359], .opt 36, .and [145, 361] none,
  .or [362], .inject 363 24, .and [364] none, .and [28] none, .or [365, 366], .withSkip 25 367, .rep 368,
  .call 151 [(3, 369)], .and [370] none, .or [371], .and [8] none, .and [26] none, .and [27] none,
  .and [143] none, .token 10, .and [377] none, .token 8, .and [379] none, .token 20, .and [381] none,
  .token 21, .and [383] none, .token 22, .and [385] none, .token 35, .and [387] none, .token 65,
  .and [389] none, .token 7, .and [391] none, .token 92, .token 82, .and [393, 394] none, .or [395],
  .and [396] none, .token 20, .token 92]

/-- `lang/rust/syntax/src/rust.rs` 298: rules 400 to 499. -/
def rustRules4 : List Expr := [
  .opt 31, .token 53, .and [401, 49] none, .or [402], .opt 403, .token 58,
  .and [398, 399, 400, 404, 405] (some 1), .or [406], .token 21, .and [408] none, .token 22, .and [410] none,
  .or [409, 411], .token 92, .token 59, .token 53, .and [415, 75] none, .or [416], .opt 417, .token 58,
  .and [412, 413, 414, 49, 418, 419] (some 1), .or [420], .and [147] none, .token 58, .and [148, 423] none,
  .or [422, 424], .rep 30, .call 151 [(3, 426)], .and [10, 427] none, .or [428], .opt 36,
  .and [145, 430] none, .or [431], .and [8] none, .and [27] none, .or [433, 434], .inject 432 435,
  .and [436] none, .call 150 [(2, 35)], .call 150 [(2, 32)], .and [438, 439] none, .or [440],
  .call 153 [(5, 441)], .and [442] none, .or [443], .token 92, .opt 33, .and [445, 446] (some 1), .or [447],
  .token 59, .token 73, .and [450] none, .eof, .and [452] none, .token 61, .and [454] none, .token 39,
  .and [456] none, .token 36, .and [458] none, .or [455, 457, 459], .not 460, .not 461, .and [462] none,
  .or [451, 453, 463], .and [34, 464] (some 1), .or [465], .rep 466, .and [449, 467] none, .token 87,
  .and [469] none, .and [51] none, .and [62] none, .or [470, 471, 472], .token 87, .token 59, .token 87,
  .token 73, .and [477] none, .eof, .and [479] none, .token 61, .not 481, .not 482, .and [483] none,
  .or [478, 480, 484], .and [476, 485] (some 1), .or [486], .rep 487, .and [475, 488] none, .or [489],
  .opt 490, .and [474, 491] (some 1), .or [492], .token 10, .token 6, .and [495] none, .token 19,
  .and [497] none, .or [496, 498]]

/-- `lang/rust/syntax/src/rust.rs` 298: rules 500 to 599. -/
def rustRules5 : List Expr := [
  .call 152 [(4, 499)], .opt 500, .and [494, 501] none, .or [502], .token 36, .token 61, .and [505] none,
  .eof, .and [507] none, .token 39, .not 509, .not 510, .and [511] none, .or [506, 508, 512],
  .and [49, 33, 513] none, .or [514], .rep 515, .and [504, 516] (some 1), .or [517], .and [41] none,
  .enter 3 41, .and [520] none, .enter 1 41, .and [522] none, .token 60, .and [524, 45] none, .or [525],
  .token 60, .opt 527, .and [528, 45] none, .or [529], .token 60, .and [531, 45] none, .or [532],
  .and [41, 533] none, .or [534], .token 5, .and [49, 536, 49] none, .or [537], .call 153 [(5, 538)],
  .token 60, .and [539, 540, 45] none, .or [541], .token 92, .and [543] none, .token 18, .and [545] none,
  .token 19, .and [547] none, .or [544, 546, 548], .and [46] none, .isIn 3, .and [551, 47] none,
  .or [550, 552], .opt 553, .and [549, 554] none, .or [555], .isIn 3, .and [557] none, .isIn 1, .token 60,
  .and [559, 560] none, .or [558, 561], .token 87, .call 150 [(2, 563)], .token 92, .token 53,
  .and [565, 566] none, .or [567], .not 568, .and [569, 49] none, .or [570], .call 150 [(2, 571)], .token 92,
  .token 53, .and [573, 574, 49] none, .or [575], .call 150 [(2, 576)], .and [564, 572, 577] none, .or [578],
  .call 153 [(5, 579)], .and [562, 580] none, .or [581], .call 150 [(2, 49)], .call 152 [(4, 583)], .opt 9,
  .and [584, 585] none, .or [586], .token 5, .token 92, .and [588, 589] none, .or [590], .token 73,
  .and [592, 34] none, .or [593], .rep 594, .and [50, 595] none, .or [596], .and [51] none, .and [52] none]

/-- `lang/rust/syntax/src/rust.rs` 298: rules 600 to 699. -/
def rustRules6 : List Expr := [
  .and [53] none, .and [54] none, .and [55] none, .and [56] none, .and [58] none, .and [59] none,
  .and [60] none, .and [62] none, .and [39] none, .or [608], .and [120, 49] none, .or [610], .token 67,
  .token 21, .and [613] none, .token 27, .and [615] none, .or [614, 616], .and [612, 617, 49] none,
  .or [618], .token 81, .and [620] none, .or [621], .token 37, .token 38, .and [623, 624] none, .or [625],
  .opt 57, .and [49, 627] none, .or [628], .call 152 [(4, 629)], .and [630] none, .or [631], .token 61,
  .call 150 [(2, 49)], .and [633, 634] none, .or [635], .token 82, .and [637] none, .or [638], .token 58,
  .and [640, 75] none, .or [641], .opt 642, .and [49, 643] none, .or [644], .call 154 [(6, 645)],
  .and [646] none, .or [647], .opt 10, .token 8, .call 150 [(2, 61)], .call 152 [(4, 651)], .opt 9,
  .and [649, 650, 652, 653] (some 2), .or [654], .token 59, .and [63, 656] none, .or [657], .opt 658,
  .and [659, 49] none, .or [660], .token 23, .and [662, 31, 49] (some 1), .or [663], .and [64] none,
  .and [65] none, .and [69] none, .and [70] none, .and [71] none, .and [72] none, .and [74] none, .token 81,
  .and [672] none, .or [673], .and [66] none, .and [67] none, .or [675, 676], .opt 677, .and [40, 678] none,
  .or [679], .call 150 [(2, 63)], .token 63, .token 61, .opt 683, .and [682, 684] none, .or [685], .opt 686,
  .and [681, 687] none, .or [688], .call 152 [(4, 689)], .and [690] none, .or [691], .call 150 [(2, 68)],
  .token 63, .token 61, .opt 695, .and [694, 696] none, .or [697], .opt 698]

/-- `lang/rust/syntax/src/rust.rs` 298: rules 700 to 799. -/
def rustRules7 : List Expr := [
  .and [693, 699] none, .or [700], .call 151 [(3, 701)], .and [702] none, .or [703], .token 59, .not 705,
  .and [69, 706] none, .token 92, .token 59, .and [708, 709, 63] (some 2), .or [707, 710], .token 28,
  .opt 712, .token 27, .opt 714, .token 92, .and [713, 715, 716] none, .or [717], .and [79] none, .or [719],
  .token 37, .token 38, .and [721, 722] none, .or [723], .opt 73, .and [63, 725] none, .or [726],
  .call 152 [(4, 727)], .and [728] none, .or [729], .token 61, .call 150 [(2, 63)], .and [731, 732] none,
  .or [733], .token 77, .token 27, .opt 736, .and [735, 737, 63] none, .or [738], .token 62, .token 92,
  .enter 1 46, .opt 742, .and [740, 741, 743, 113] none, .or [744], .isIn 2, .not 77, .and [746, 747] none,
  .isIn 2, .not 749, .and [750] none, .or [748, 751], .and [752, 113] none, .or [753], .token 62, .token 92,
  .and [756] none, .token 89, .and [758] none, .or [757, 759], .and [755, 760] none, .or [761],
  .call 154 [(6, 75)], .token 83, .token 5, .and [765, 49] none, .or [766], .token 67, .token 75, .token 82,
  .token 67, .and [771] none, .token 69, .and [773] none, .token 71, .and [775] none, .or [772, 774, 776],
  .call 127 [(1, 777)], .token 73, .and [779] none, .token 75, .and [781] none, .or [780, 782],
  .call 127 [(1, 783)], .contextualToken 45 [60, 60], .and [785] none, .contextualToken 47 [62, 62],
  .and [787] none, .or [786, 788], .call 127 [(1, 789)], .token 77, .token 77, .not 792,
  .and [791, 793] none, .or [794], .call 127 [(1, 795)], .token 84, .call 127 [(1, 797)], .token 79]

/-- `lang/rust/syntax/src/rust.rs` 298: rules 800 to 899. -/
def rustRules8 : List Expr := [
  .token 79, .not 800, .and [799, 801] none, .or [802], .call 127 [(1, 803)], .call 127 [(1, 132)],
  .contextualToken 49 [38, 38], .call 127 [(1, 806)], .contextualToken 50 [124, 124], .call 127 [(1, 808)],
  .call 127 [(1, 140)], .token 53, .and [811] none, .token 74, .and [813] none, .token 76, .and [815] none,
  .token 68, .and [817] none, .token 70, .and [819] none, .token 72, .and [821] none, .token 78,
  .and [823] none, .token 80, .and [825] none, .token 85, .and [827] none, .contextualToken 48 [62, 62, 61],
  .and [829] none, .contextualToken 46 [60, 60, 61], .and [831] none,
  .or [812, 814, 816, 818, 820, 822, 824, 826, 828, 830, 832], .call 127 [(1, 833)], .and [79] none,
  .token 92, .and [836] none, .token 87, .and [838] none, .token 18, .and [840] none, .token 19,
  .and [842] none, .token 41, .and [844] none, .token 60, .and [846] none, .token 37, .and [848] none,
  .token 43, .and [850] none, .token 79, .and [852] none, .token 31, .and [854] none, .token 39,
  .and [856] none, .token 14, .and [858] none, .token 25, .and [860] none, .token 24, .and [862] none,
  .token 23, .and [864] none, .token 30, .and [866] none, .token 26, .and [868] none, .token 32,
  .and [870] none, .token 33, .and [872] none, .token 77, .and [874] none, .token 67, .and [876] none,
  .token 75, .and [878] none, .token 82, .and [880] none, .token 63, .and [882] none, .token 64,
  .and [884] none, .prevIs [163, 168, 169, 170, 171, 172, 175], .and [886] none, .var 0, .exit 2 888,
  .exit 0 889, .and [890] none, .token 89, .and [892] none, .token 90, .and [894] none, .token 91,
  .and [896] none, .token 86, .and [898] none]

/-- `lang/rust/syntax/src/rust.rs` 298: rules 900 to 999. -/
def rustRules9 : List Expr := [
  .token 88, .and [900] none, .or [893, 895, 897, 899, 901], .token 92, .token 82, .and [903, 904] none,
  .or [905], .not 906, .opt 81, .and [907, 40, 908] none, .or [909], .isIn 0, .not 911, .call 150 [(2, 82)],
  .token 63, .call 78 [(0, 75)], .and [914, 915] none, .or [916], .opt 917, .and [913, 918] none, .or [919],
  .call 151 [(3, 920)], .and [912, 921] none, .or [922], .token 92, .token 59, .and [925, 75] none,
  .or [926], .opt 927, .and [924, 928] (some 1), .or [929], .token 37, .token 38, .and [931, 932] none,
  .or [933], .call 78 [(0, 75)], .opt 85, .and [935, 936] none, .or [937], .call 152 [(4, 938)],
  .and [939] none, .or [940], .token 61, .call 78 [(0, 75)], .call 150 [(2, 943)], .and [942, 944] none,
  .or [945], .token 58, .and [947, 75] none, .token 61, .call 150 [(2, 75)], .and [949, 950] none,
  .or [948, 951], .opt 952, .and [75, 953] none, .or [954], .call 78 [(0, 955)], .call 154 [(6, 956)],
  .and [957] none, .or [958], .token 26, .opt 960, .token 79, .rep 88, .token 79, .token 51,
  .and [965, 49, 91] none, .call 78 [(0, 75)], .and [967] none, .or [966, 968],
  .and [961, 962, 963, 964, 969] none, .or [970], .token 61, .and [972] none, .token 79, .not 974, .not 975,
  .and [976] none, .or [973, 977], .and [13, 978] (some 1), .token 31, .opt 75, .and [980, 981] none,
  .or [982], .token 33, .and [984] none, .token 32, .and [986] none, .or [985, 987], .token 87, .opt 989,
  .and [988, 990] none, .or [991], .token 35, .opt 993, .withSkip 93 92, .rep 995, .call 151 [(3, 996)],
  .and [994, 997] none, .or [998]]

/-- `lang/rust/syntax/src/rust.rs` 298: rules 1000 to 1099. -/
def rustRules10 : List Expr := [
  .call 78 [(0, 999)], .and [1000] none, .or [1001], .and [94] none, .and [96] none, .and [3] none,
  .and [97] none, .token 9, .and [1007] none, .token 58, .and [1009] none, .and [2] none, .and [76] none,
  .token 9, .opt 95, .token 53, .and [1015, 75] (some 1), .or [1016], .opt 1017, .token 58,
  .and [1013, 63, 1014, 1018, 1019] (some 1), .or [1020], .token 59, .and [1022, 49] none, .or [1023],
  .token 58, .and [1025] none, .or [1026], .and [77] none, .eof, .and [1029] none, .token 58,
  .and [1031] none, .or [1028, 1030, 1032], .and [75, 1033] (some 1), .or [1034], .enter 2 1035,
  .and [1036] none, .or [1037], .token 14, .token 15, .and [91] none, .and [98] none, .or [1041, 1042],
  .and [1040, 1043] none, .or [1044], .opt 1045, .and [1039, 100, 91, 1046] (some 1), .or [1047], .opt 104,
  .token 25, .and [1049, 1050, 100, 91] (some 2), .or [1051], .token 9, .token 53,
  .and [1053, 63, 1054] (some 1), .or [1055], .opt 1056, .and [1057, 101] (some 1), .enter 0 75,
  .and [1059] none, .opt 104, .token 24, .and [1061, 1062, 91] (some 2), .or [1063], .opt 104, .token 23,
  .token 34, .and [1065, 1066, 63, 1067, 101, 91] (some 2), .or [1068], .token 87, .token 59,
  .and [1070, 1071] none, .token 30, .rep 106, .call 151 [(3, 1074)], .and [1073, 101, 1075] (some 1),
  .or [1076], .token 52, .enter 2 75, .token 61, .and [1080] none, .eof, .and [1082] none, .and [77] none,
  .or [1081, 1083, 1084], .and [107, 1078, 1079, 1085] (some 1), .or [1086], .token 79, .and [1088, 63] none,
  .or [1089], .rep 1090, .opt 108, .and [63, 1091, 1092] none, .token 14, .and [1094, 75] none, .or [1095],
  .and [147] none, .or [1097], .and [148] none]

/-- `lang/rust/syntax/src/rust.rs` 298: rules 1100 to 1199. -/
def rustRules11 : List Expr := [
  .or [1099], .token 62, .token 92, .enter 1 46, .opt 1103, .and [1101, 1102, 1104, 113] none, .or [1105],
  .and [75, 1106] none, .or [1107], .isIn 2, .not 77, .and [1109, 1110] none, .isIn 2, .not 1112,
  .and [1113] none, .or [1111, 1114], .and [1115, 113] none, .or [1116], .and [75, 1117] none, .or [1118],
  .call 150 [(2, 114)], .call 152 [(4, 1120)], .call 78 [(0, 1121)], .and [1122] none, .and [75] none,
  .or [1124], .token 62, .token 92, .and [1127] none, .token 89, .and [1129] none, .or [1128, 1130],
  .and [1126, 1131] none, .or [1132], .and [75, 1133] none, .or [1134], .call 154 [(6, 75)],
  .and [75, 1136] none, .or [1137], .token 83, .and [75, 1139] none, .or [1140], .token 5,
  .and [1142, 49] none, .or [1143], .and [75, 1144] none, .or [1145], .and [120, 75] none, .or [1147],
  .token 77, .token 87, .opt 1150, .token 27, .opt 1152, .and [1149, 1151, 1153] none, .token 67,
  .and [1155, 75] none, .or [1156], .token 75, .and [1158, 75] none, .or [1159], .token 82,
  .and [1161, 75] none, .or [1162], .token 67, .and [1164] none, .token 69, .and [1166] none, .token 71,
  .and [1168] none, .or [1165, 1167, 1169], .call 127 [(1, 1170)], .and [75, 1171, 75] none, .or [1172],
  .token 73, .and [1174] none, .token 75, .and [1176] none, .or [1175, 1177], .call 127 [(1, 1178)],
  .and [75, 1179, 75] none, .or [1180], .contextualToken 45 [60, 60], .and [1182] none,
  .contextualToken 47 [62, 62], .and [1184] none, .or [1183, 1185], .call 127 [(1, 1186)],
  .and [75, 1187, 75] none, .or [1188], .isIn 2, .not 77, .var 1, .and [1190, 1191, 1192] none, .isIn 2,
  .not 1194, .var 1, .and [1195, 1196] none, .token 77, .token 77]

/-- `lang/rust/syntax/src/rust.rs` 298: rules 1200 to 1299. -/
def rustRules12 : List Expr := [
  .not 1199, .and [1198, 1200] none, .or [1201], .call 127 [(1, 1202)], .and [75, 1203, 75] none, .or [1204],
  .token 84, .call 127 [(1, 1206)], .and [75, 1207, 75] none, .or [1208], .token 79, .token 79, .not 1211,
  .and [1210, 1212] none, .or [1213], .call 127 [(1, 1214)], .and [75, 1215, 75] none, .or [1216],
  .call 127 [(1, 132)], .and [75, 1218, 75] none, .or [1219], .token 54, .and [1221] none, .token 55,
  .and [1223] none, .token 41, .and [1225] none, .token 42, .and [1227] none, .token 57, .and [1229] none,
  .token 56, .and [1231] none, .contextualToken 49 [38, 38], .call 127 [(1, 1233)], .and [75, 1234, 75] none,
  .or [1235], .contextualToken 50 [124, 124], .call 127 [(1, 1237)], .and [75, 1238, 75] none, .or [1239],
  .call 127 [(1, 140)], .and [75, 1241, 75] none, .or [1242], .and [140, 75] none, .or [1244],
  .and [75, 139] none, .or [1246], .token 63, .not 76, .and [1248, 1249] none, .or [1250], .token 63,
  .and [1252] none, .token 64, .and [1254] none, .not 76, .not 1256, .token 39, .isIn 0,
  .and [1258, 1259] none, .or [1260], .not 1261, .and [139, 1257, 1262] none, .token 53, .and [1264] none,
  .token 74, .and [1266] none, .token 76, .and [1268] none, .token 68, .and [1270] none, .token 70,
  .and [1272] none, .token 72, .and [1274] none, .token 78, .and [1276] none, .token 80, .and [1278] none,
  .token 85, .and [1280] none, .contextualToken 48 [62, 62, 61], .and [1282] none,
  .contextualToken 46 [60, 60, 61], .and [1284] none,
  .or [1265, 1267, 1269, 1271, 1273, 1275, 1277, 1279, 1281, 1283, 1285], .call 127 [(1, 1286)],
  .and [75, 1287, 75] none, .or [1288], .token 65, .and [1290, 144] none, .or [1291], .token 65, .token 82,
  .and [1293, 1294, 144] none, .or [1295], .call 150 [(2, 146)], .call 154 [(6, 1297)], .and [1298] none]

/-- `lang/rust/syntax/src/rust.rs` 298: rules 1300 to 1399. -/
def rustRules13 : List Expr := [
  .rep 142, .and [1300] none, .token 92, .token 53, .and [1303, 75] none, .call 150 [(2, 146)],
  .call 152 [(4, 1305)], .and [1306] none, .or [1304, 1307], .opt 1308, .and [1302, 1309] (some 1),
  .or [1310], .token 92, .token 82, .token 92, .opt 1314, .rep 149, .call 151 [(3, 1316)],
  .and [1312, 1313, 1315, 1317] none, .or [1318], .token 92, .token 82, .token 92, .opt 1322, .token 37,
  .rep 149, .token 38, .and [1324, 1325, 1326] none, .token 43, .rep 149, .token 44,
  .and [1328, 1329, 1330] none, .or [1327, 1331], .and [1320, 1321, 1323, 1332] none, .or [1333], .token 37,
  .and [1335] none, .token 38, .and [1337] none, .token 39, .and [1339] none, .token 40, .and [1341] none,
  .token 43, .and [1343] none, .token 44, .and [1345] none, .or [1336, 1338, 1340, 1342, 1344, 1346],
  .not 1347, .any, .and [1348, 1349] none, .token 37, .rep 149, .token 38, .and [1351, 1352, 1353] none,
  .token 43, .rep 149, .token 44, .and [1355, 1356, 1357] none, .token 39, .rep 149, .token 40,
  .and [1359, 1360, 1361] none, .or [1350, 1354, 1358, 1362], .var 2, .eof, .and [1365] none, .token 61,
  .and [1367] none, .or [1366, 1368], .and [1364, 1369] (some 1), .or [1370], .rep 1371, .and [1372] none,
  .token 39, .token 40, .var 3, .call 155 [(7, 1374), (8, 1375), (9, 1376)], .and [1377] none, .token 37,
  .token 38, .var 4, .call 155 [(7, 1379), (8, 1380), (9, 1381)], .and [1382] none, .token 41, .token 42,
  .var 5, .call 155 [(7, 1384), (8, 1385), (9, 1386)], .and [1387] none, .token 43, .token 44, .var 6,
  .call 155 [(7, 1389), (8, 1390), (9, 1391)], .and [1392] none, .var 7, .var 7, .var 8,
  .call 156 [(10, 1395), (11, 1396)], .var 9, .layer 1397 1398]

/-- `lang/rust/syntax/src/rust.rs` 298: rules 1400 to 1416. -/
def rustRules14 : List Expr := [
  .var 8, .and [1394, 1399, 1400] (some 1), .var 10, .var 10, .var 11, .call 156 [(10, 1403), (11, 1404)],
  .var 11, .and [1402, 1405, 1406] (some 1), .var 11, .not 1408, .any, .and [1409, 1410] none, .or [1411],
  .and [1412] none, .or [1407, 1413], .rep 1414, .and [1415] none]

/-- `lang/rust/syntax/src/rust.rs` 298: the rules, read from the text of the generated parser. -/
def rustRules : List Expr :=
  rustRules0 ++ rustRules1 ++ rustRules2 ++ rustRules3 ++ rustRules4 ++ rustRules5 ++ rustRules6 ++
  rustRules7 ++ rustRules8 ++ rustRules9 ++ rustRules10 ++ rustRules11 ++ rustRules12 ++
  rustRules13 ++ rustRules14

/-- `lang/rust/syntax/src/rust.rs` 300-303: the node types, with the numbers of lines 3-206. -/
def rustTypes : List NodeType := [
  0, 100, 101, 102, 103, 104, 105, 106, 107, 108, 109, 110, 111, 112, 113, 114, 115, 116, 117, 118, 119, 120,
  121, 122, 123, 124, 125, 126, 127, 128, 129, 130, 131, 132, 133, 134, 135, 136, 137, 138, 139, 140, 141,
  142, 143, 144, 145, 146, 147, 148, 149, 150, 151, 152, 153, 154, 155, 156, 157, 158, 159, 160, 161, 162,
  163, 164, 165, 166, 167, 168, 169, 170, 171, 172, 173, 174, 175, 176, 177, 178, 179, 180, 181, 182, 183,
  184, 185, 186, 187, 188, 189, 190, 191, 192, 193, 194, 195, 196, 197, 198, 199, 200, 201, 202, 203, 204,
  205, 206, 207, 208, 209, 210, 211, 212, 213, 214, 215, 216, 217, 218, 219, 220, 221, 222, 223, 224, 225,
  226, 227, 228, 229, 230, 231, 232, 233, 234, 235, 236, 237, 238, 239, 240, 241, 242, 243, 244, 245, 246,
  247, 248, 249, 250, 251, 252, 253, 254, 255, 256, 257, 258, 259, 260, 261, 262, 263, 264, 265, 266, 267,
  268, 269, 270, 271, 272, 273, 274, 275, 276, 277, 278, 279, 280, 281, 282, 283, 284, 285, 286, 287, 288,
  289, 290, 291, 292, 293, 294, 295, 296, 297, 298, 299, 300, 301, 302, 303]

/-- `lang/rust/syntax/src/rust.rs` 334-538: the types that are like whitespace. -/
def rustIsWs (ty : NodeType) : Bool := [100, 101, 102].contains ty

/-- `lang/rust/syntax/src/rust.rs` 298, with the start rule of `fall/parse/src/lib.rs` 247-251. -/
def rustGrammar : Grammar := ⟨rustTypes, rustRules, 0⟩

end Fall
