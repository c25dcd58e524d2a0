import Verif.Spec.Generate

/-! What the helpers of tests do with texts. -/

namespace Fall.Spec

/-- `p` is in `s` from offset `i` on. -/
def OccursAt (p s : List UInt8) (i : Nat) : Prop := ∃ a b, s = a ++ p ++ b ∧ a.length = i

/-- The first place where `p` is in `s`. -/
def FirstAt (p s : List UInt8) (i : Nat) : Prop := OccursAt p s i ∧ ∀ j < i, ¬ OccursAt p s j

/-- `p` is nowhere in `s`. -/
def Absent (p s : List UInt8) : Prop := ∀ i, ¬ OccursAt p s i

/-- A text is cut at a separator, from left to right. -/
inductive SplitBy (sep : List UInt8) : List UInt8 → List (List UInt8) → Prop where
  | last : Absent sep s → SplitBy sep s [s]
  | more : FirstAt sep (a ++ sep ++ b) a.length → SplitBy sep b ps → SplitBy sep (a ++ sep ++ b) (a :: ps)

/-- A test in a grammar: what is before it, the number of `#`, and the text in quotes. -/
structure InlineTest where
  before : List UInt8
  hashes : Nat
  body : List UInt8

/-- The quotation mark at the end of a raw string, with its `#`. -/
def rawEnd (hashes : Nat) : List UInt8 := 34 :: List.replicate hashes 35

/-- A test as it is written, without what is before it and without `test r`. -/
def InlineTest.quoted (t : InlineTest) : List UInt8 := List.replicate t.hashes 35 ++ [34] ++ t.body ++ rawEnd t.hashes

/-- A grammar with tests. -/
def testedGrammar : List InlineTest → List UInt8 → List UInt8
  | [], rest => rest
  | t :: ts, rest => t.before ++ [116, 101, 115, 116, 32, 114] ++ t.quoted ++ testedGrammar ts rest

/-- The grammar has `test r` just before its tests and nowhere else, bodies do not have the quotation mark that ends them
and do not begin inside of a character, and there are at most sixteen `#`. -/
def PlainTests : List UInt8 → List InlineTest → List UInt8 → Prop
  | start, [], rest => Absent [116, 101, 115, 116, 32, 114] (start ++ rest)
  | start, t :: ts, rest => Absent [116, 101, 115, 116, 32, 114] (start ++ t.before) ∧ t.hashes ≤ 16 ∧
    Absent (rawEnd t.hashes) t.body ∧ (∀ b, t.body.head? = some b → b < 128 ∨ 192 ≤ b) ∧
    PlainTests (t.body ++ rawEnd t.hashes) ts rest

/-- Texts are the same up to white space at the ends. -/
def SameTrimmed (s t : List UInt8) : Prop := ∃ u, Trimmed s u ∧ Trimmed t u

/-- A test and its tree, as they are in the file with the trees. -/
def testSection (test tree : List UInt8) : List UInt8 := test ++ [10, 10] ++ tree ++ [10]

/-- A file with tests and trees: after each there is a line with a separator. -/
def treesText (sep : List UInt8) : List (List UInt8 × List UInt8) → List UInt8
  | [] => []
  | (test, tree) :: rest => testSection test tree ++ sep ++ [10] ++ treesText sep rest

/-- Tests and trees do not have the separator, and there is something in each. -/
def PlainTrees (sep : List UInt8) (l : List (List UInt8 × List UInt8)) : Prop :=
  ∀ p ∈ l, Absent sep (testSection p.1 p.2) ∧ ∃ b ∈ testSection p.1 p.2, ¬ SpaceByte b

end Fall.Spec
