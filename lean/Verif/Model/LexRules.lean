import Verif.Model.Languages

/-!
The lexical rules of the shipped languages and what the code says about applying them. The rules are applied by the
crate `m_lexer`, which is not part of the repository: `Verif.Spec.LexRules` says what is assumed about it.
-/

namespace Fall

/-- Regular expressions of bytes: the syntax of the crate `regex` as far as lexical rules use it
(`fall/parse/src/lib.rs` 65-69, the field `re`). -/
inductive Re where
  | never
  | empty
  | set (ranges : List (Nat × Nat))
  | seq (a b : Re)
  | alt (a b : Re)
  | star (a : Re)
deriving DecidableEq, Repr

namespace Re

/-- A string (`fall/parse/src/lib.rs` 65-69, the field `re`). -/
def text : List Nat → Re
  | [] => .empty
  | [b] => .set [(b, b)]
  | b :: bs => .seq (.set [(b, b)]) (text bs)

/-- One or more times (`+` in the field `re` of `fall/parse/src/lib.rs` 65-69). -/
def plus (a : Re) : Re := .seq a (.star a)

/-- At most once (`?` in the field `re` of `fall/parse/src/lib.rs` 65-69). -/
def opt (a : Re) : Re := .alt .empty a

/-- A class of characters (in the field `re` of `fall/parse/src/lib.rs` 65-69). For characters other than ASCII the
class is not looked at, and one of them stands for any number: everything the code matches is matched, and for ASCII
nothing else. -/
def wide (ranges : List (Nat × Nat)) : Re := .alt (.set ranges) (plus (.set [(128, 255)]))

/-- `\s` in the field `re` of `fall/parse/src/lib.rs` 65-69. See `wide`. -/
def blank : Re := wide [(9, 13), (32, 32)]

/-- `\w` in the field `re` of `fall/parse/src/lib.rs` 65-69. See `wide`. -/
def word : Re := wide [(48, 57), (65, 90), (95, 95), (97, 122)]

/-- `\d` in the field `re` of `fall/parse/src/lib.rs` 65-69. See `wide`. -/
def digit : Re := wide [(48, 57)]

/-- `\p{XID_Start}` in the field `re` of `fall/parse/src/lib.rs` 65-69. See `wide`. -/
def xidStart : Re := wide [(65, 90), (97, 122)]

/-- `\p{XID_Continue}` in the field `re` of `fall/parse/src/lib.rs` 65-69. See `wide`. -/
def xidContinue : Re := wide [(48, 57), (65, 90), (95, 95), (97, 122)]

/-- `.` in the field `re` of `fall/parse/src/lib.rs` 65-69: all but a newline. See `wide`. -/
def line : Re := wide [(0, 9), (11, 127)]

/-- `[^...]` in the field `re` of `fall/parse/src/lib.rs` 65-69: all but the given ASCII characters. See `wide`. -/
def not (bs : List Nat) : Re := wide (((List.range 128).filter fun b => !bs.contains b).map fun b => (b, b))

end Re

/-- `str::find` as called in `lang/fall/syntax/src/fall.rs` 190 and 194: the first place of a string. -/
def findText (pattern : List Nat) : List Nat → Option Nat
  | [] => if pattern.isEmpty then some 0 else none
  | b :: bs => if pattern.isPrefixOf (b :: bs) then some 0 else (findText pattern bs).map (· + 1)

/-- `lang/fall/syntax/src/fall.rs` 189-195; the same in `lang/rust/syntax/src/rust.rs` 572-578 and
`fall/test/src/weird.rs` 109-115. The outer `none` is a panic: no quote, or a slice beyond the end of `q_hashes`,
which has 31 bytes. -/
def parseRawString (s : List Nat) : Option (Option Nat) := do
  let quoteStart ← findText [34] s
  let qHashes := 34 :: List.replicate 30 35
  let closing ← if quoteStart ≤ qHashes.length then some (qHashes.take quoteStart) else none
  pure ((findText closing (s.drop (quoteStart + 1))).map (· + quoteStart + 1 + closing.length))

/-- The loop of `lang/rust/syntax/src/rust.rs` 583-601. Gives how much `len` grows. The code steps over characters,
the model over bytes; the bytes of one character are not those of `/*` or `*/`. -/
def blockCommentLoop : List Nat → Nat → Nat
  | _, 0 => 0
  | [], _ => 0
  | [_], _ => 1
  | a :: b :: s, level + 1 =>
    if a = 47 ∧ b = 42 then blockCommentLoop s (level + 2) + 2
    else if a = 42 ∧ b = 47 then blockCommentLoop s level + 2
    else blockCommentLoop (b :: s) (level + 1) + 1

/-- `lang/rust/syntax/src/rust.rs` 579-603. The outer `none` is a panic: a slice beyond the end. -/
def parseBlockComment (s : List Nat) : Option (Option Nat) :=
  if s.length < 2 then none else some (some (blockCommentLoop (s.drop 2) 1 + 2))

/-- `fall/parse/src/lib.rs` 65-71. -/
structure LexRule where
  ty : NodeType
  re : Re
  f : Option (List Nat → Option (Option Nat))

/-- `fall/test/src/sexp.rs` 15-18: the lexical rules, read from the text of the generated parser. -/
def sexpLexRules : List LexRule := [
  ⟨100, .plus .blank, none⟩, ⟨101, .text [40], none⟩, ⟨102, .text [41], none⟩, ⟨103, .plus .word, none⟩]

/-- `fall/test/src/arith.rs` 25-33: the lexical rules, read from the text of the generated parser. -/
def arithLexRules : List LexRule := [
  ⟨100, .plus .blank, none⟩, ⟨101, .plus .digit, none⟩, ⟨102, .text [43], none⟩, ⟨103, .text [45], none⟩,
  ⟨104, .text [42], none⟩, ⟨105, .text [47], none⟩, ⟨106, .text [33], none⟩, ⟨107, .text [40], none⟩,
  ⟨108, .text [41], none⟩]

/-- `fall/test/src/weird.rs` 24-34: the lexical rules, read from the text of the generated parser. -/
def weirdLexRules : List LexRule := [
  ⟨100, .plus .blank, none⟩,
  ⟨101, .seq (.text [114]) (.seq (.plus (.text [35])) (.text [34])), some parseRawString⟩,
  ⟨102, .text [102, 111, 111], none⟩, ⟨103, .text [98, 97, 114], none⟩, ⟨104, .text [95, 49], none⟩,
  ⟨105, .text [95, 50], none⟩, ⟨106, .text [95, 51], none⟩, ⟨107, .text [95, 52], none⟩,
  ⟨108, .text [123], none⟩, ⟨109, .text [125], none⟩, ⟨110, .plus .word, none⟩]

/-- `lang/bnf/src/bnf.rs` 16-20: the lexical rules, read from the text of the generated parser. -/
def bnfLexRules : List LexRule := [
  ⟨100, .plus .blank, none⟩, ⟨101, .text [45, 62], none⟩, ⟨102, .text [124], none⟩,
  ⟨103, .seq (.text [39]) (.seq (.plus (.not [39])) (.text [39])), none⟩, ⟨104, .plus .word, none⟩]

/-- `lang/json/src/json.rs` 25-35: the lexical rules, read from the text of the generated parser. -/
def jsonLexRules : List LexRule := [
  ⟨100, .plus .blank, none⟩, ⟨101, .text [123], none⟩, ⟨102, .text [125], none⟩, ⟨103, .text [91], none⟩,
  ⟨104, .text [93], none⟩, ⟨105, .text [58], none⟩, ⟨106, .text [44], none⟩,
  ⟨107, .text [110, 117, 108, 108], none⟩,
  ⟨108, .alt (.text [116, 114, 117, 101]) (.text [102, 97, 108, 115, 101]), none⟩,
  ⟨109, .seq (.text [34]) (.seq (.star (.not [34])) (.text [34])), none⟩, ⟨110, .plus .digit, none⟩]

/-- `lang/fall/syntax/src/fall.rs` 61-82: the lexical rules, read from the text of the generated parser. -/
def fallLexRules : List LexRule := [
  ⟨100, .plus .blank, none⟩, ⟨101, .seq (.text [47, 47]) (.star .line), none⟩, ⟨111, .text [61], none⟩,
  ⟨112, .text [124], none⟩, ⟨113, .text [42], none⟩, ⟨114, .text [63], none⟩, ⟨115, .text [46], none⟩,
  ⟨116, .text [44], none⟩, ⟨117, .text [58], none⟩, ⟨118, .text [35], none⟩, ⟨119, .text [123], none⟩,
  ⟨120, .text [125], none⟩, ⟨121, .text [91], none⟩, ⟨122, .text [93], none⟩, ⟨123, .text [60], none⟩,
  ⟨124, .text [62], none⟩, ⟨125, .text [40], none⟩, ⟨126, .text [41], none⟩, ⟨127, .plus .digit, none⟩,
  ⟨128, .seq (.text [39]) (.seq (.star (.alt (.not [39, 92]) (.seq (.text [92]) .line))) (.text [39])), none⟩,
  ⟨129, .seq (.text [114]) (.seq (.star (.text [35])) (.text [34])), some parseRawString⟩,
  ⟨130, .plus .word, none⟩]

/-- `lang/rust/syntax/src/rust.rs` 210-294: the lexical rules, read from the text of the generated parser. -/
def rustLexRules : List LexRule := [
  ⟨100, .plus .blank, none⟩, ⟨101, .seq (.text [47, 47]) (.seq (.star .line) (.opt (.text [10]))), none⟩,
  ⟨102, .text [47, 42], some parseBlockComment⟩, ⟨104, .text [97, 115], none⟩,
  ⟨105, .text [99, 114, 97, 116, 101], none⟩, ⟨106, .text [101, 120, 116, 101, 114, 110], none⟩,
  ⟨107, .text [102, 110], none⟩, ⟨108, .text [108, 101, 116], none⟩, ⟨109, .text [112, 117, 98], none⟩,
  ⟨110, .text [115, 116, 114, 117, 99, 116], none⟩, ⟨111, .text [117, 115, 101], none⟩,
  ⟨112, .text [109, 111, 100], none⟩, ⟨113, .text [105, 102], none⟩, ⟨114, .text [101, 108, 115, 101], none⟩,
  ⟨115, .text [101, 110, 117, 109], none⟩, ⟨116, .text [105, 109, 112, 108], none⟩,
  ⟨117, .text [115, 101, 108, 102], none⟩, ⟨118, .text [115, 117, 112, 101, 114], none⟩,
  ⟨119, .text [116, 121, 112, 101], none⟩, ⟨120, .text [99, 111, 110, 115, 116], none⟩,
  ⟨121, .text [115, 116, 97, 116, 105, 99], none⟩, ⟨122, .text [102, 111, 114], none⟩,
  ⟨123, .text [108, 111, 111, 112], none⟩, ⟨124, .text [119, 104, 105, 108, 101], none⟩,
  ⟨125, .text [109, 111, 118, 101], none⟩, ⟨126, .text [109, 117, 116], none⟩,
  ⟨127, .text [114, 101, 102], none⟩, ⟨128, .text [116, 114, 97, 105, 116], none⟩,
  ⟨129, .text [109, 97, 116, 99, 104], none⟩, ⟨130, .text [114, 101, 116, 117, 114, 110], none⟩,
  ⟨131, .text [99, 111, 110, 116, 105, 110, 117, 101], none⟩, ⟨132, .text [98, 114, 101, 97, 107], none⟩,
  ⟨133, .text [105, 110], none⟩, ⟨134, .text [117, 110, 115, 97, 102, 101], none⟩,
  ⟨135, .text [119, 104, 101, 114, 101], none⟩, ⟨136, .text [40], none⟩, ⟨137, .text [41], none⟩,
  ⟨138, .text [123], none⟩, ⟨139, .text [125], none⟩, ⟨140, .text [60], none⟩, ⟨141, .text [62], none⟩,
  ⟨142, .text [91], none⟩, ⟨143, .text [93], none⟩, ⟨150, .text [45, 62], none⟩, ⟨151, .text [61, 62], none⟩,
  ⟨152, .text [61], none⟩, ⟨153, .text [61, 61], none⟩, ⟨154, .text [33, 61], none⟩,
  ⟨155, .text [62, 61], none⟩, ⟨156, .text [60, 61], none⟩, ⟨157, .text [59], none⟩, ⟨158, .text [58], none⟩,
  ⟨159, .text [58, 58], none⟩, ⟨160, .text [44], none⟩, ⟨161, .text [46], none⟩, ⟨162, .text [46, 46], none⟩,
  ⟨163, .text [46, 46, 46], none⟩, ⟨164, .text [35], none⟩, ⟨165, .text [36], none⟩, ⟨166, .text [42], none⟩,
  ⟨167, .text [42, 61], none⟩, ⟨168, .text [47], none⟩, ⟨169, .text [47, 61], none⟩, ⟨170, .text [37], none⟩,
  ⟨171, .text [37, 61], none⟩, ⟨172, .text [43], none⟩, ⟨173, .text [43, 61], none⟩, ⟨174, .text [45], none⟩,
  ⟨175, .text [45, 61], none⟩, ⟨176, .text [38], none⟩, ⟨177, .text [38, 61], none⟩,
  ⟨178, .text [124], none⟩, ⟨179, .text [124, 61], none⟩, ⟨180, .text [95], none⟩, ⟨181, .text [33], none⟩,
  ⟨182, .text [63], none⟩, ⟨183, .text [94], none⟩, ⟨184, .text [94, 61], none⟩,
  ⟨185, .alt (.text [39, 92, 39, 39]) (.alt (.seq (.text [39]) (.seq (.not [39]) (.text [39])))
    (.seq (.text [39]) (.seq (.star (.alt (.text [92]) (.alt .xidContinue (.alt (.text [123]) (.text [125])))))
    (.text [39])))), none⟩,
  ⟨186, .seq (.text [39]) (.star .xidContinue), none⟩,
  ⟨187, .alt (.text [116, 114, 117, 101]) (.text [102, 97, 108, 115, 101]), none⟩, ⟨188, .plus .digit, none⟩,
  ⟨189, .seq (.text [34]) (.seq (.star (.alt (.text [92, 34]) (.not [34]))) (.text [34])), none⟩,
  ⟨190, .seq (.text [114]) (.seq (.star (.text [35])) (.text [34])), some parseRawString⟩,
  ⟨191, .seq (.alt .xidStart (.text [95])) (.star .xidContinue), none⟩]

end Fall
