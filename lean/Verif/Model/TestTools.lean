import Verif.Model.Dump
import Verif.Model.Generate

/-!
Model of `fall/tree/src/test_util.rs`, and of the way `fall/gen/src/lib.rs` hands tests to a parser.

Strings are bytes. `none` is a panic. Offsets are not cut to 32 bits.
-/

namespace Fall

/-- `str::find` for a string, `fall/tree/src/test_util.rs` 10. -/
def findBytes (pattern : List UInt8) : List UInt8 → Option Nat
  | [] => if pattern.isEmpty then some 0 else none
  | b :: bs => if pattern.isPrefixOf (b :: bs) then some 0 else (findBytes pattern bs).map (· + 1)

/-- `fall/tree/src/test_util.rs` 9-25. -/
def extractRange (input caret : List UInt8) : Option (List UInt8 × TextRange) := do
  let left ← findBytes caret input
  let mid := left + caret.length
  let right := mid + (← findBytes caret (input.drop mid))
  return (input.take left ++ (input.take right).drop mid ++ input.drop (right + caret.length),
    ⟨left, right - caret.length⟩)

/-- `fall/tree/src/test_util.rs` 27-34. -/
def extractOffset (input caret : List UInt8) : Option (List UInt8 × Nat) := do
  let left ← findBytes caret input
  return (input.take left ++ input.drop (left + caret.length), left)

/-- `fall/tree/src/test_util.rs` 132-147, as whether it returns. White space outside of ASCII is not modelled. -/
def reportDiff (expected actual : List UInt8) : Option Unit :=
  if trimText expected = trimText actual then some () else none

/-- `fall/tree/src/test_util.rs` 59-63. -/
def checkEqualFiles (info : NodeType → Option TypeInfo) (debug : List UInt8 → List UInt8) (expected actual : File UInt8) :
    Option Unit := do
  let e ← dumpFileWs info debug expected
  let a ← dumpFileWs info debug actual
  reportDiff e a

/-- `fall/tree/src/test_util.rs` 47-51, for a parsed file. -/
def checkSyntax (info : NodeType → Option TypeInfo) (debug : List UInt8 → List UInt8) (file : File UInt8)
    (expectedTree : List UInt8) : Option Unit := do
  let actual ← dumpFile info debug file
  reportDiff expectedTree actual

/-- `fall/tree/src/test_util.rs` 53-57, for a parsed file. -/
def checkSyntaxWs (info : NodeType → Option TypeInfo) (debug : List UInt8 → List UInt8) (file : File UInt8)
    (expectedTree : List UInt8) : Option Unit := do
  let actual ← dumpFileWs info debug file
  reportDiff expectedTree actual

/-- `str::split` for a string that is not empty, `fall/tree/src/test_util.rs` 96 and `fall/gen/src/lib.rs` 115. The number
is a bound for the number of steps. -/
def splitSteps (sep : List UInt8) : Nat → List UInt8 → List (List UInt8)
  | 0, s => [s]
  | k + 1, s =>
    match findBytes sep s with
    | none => [s]
    | some i => s.take i :: splitSteps sep k (s.drop (i + sep.length))

/-- `str::split` for a string that is not empty, `fall/tree/src/test_util.rs` 96 and `fall/gen/src/lib.rs` 115. -/
def splitText (sep s : List UInt8) : List (List UInt8) := splitSteps sep s.length s

/-- `fall/tree/src/test_util.rs` 95. -/
def testSeparator : List UInt8 := ascii "----------------------------------------"

/-- `fall/tree/src/test_util.rs` 122-126, with the dump of the parsed test as a parameter. -/
def renderTest (render : List UInt8 → Option (List UInt8)) (test : List UInt8) : Option (List UInt8) := do
  return test ++ ascii "\n\n" ++ (← render test) ++ (ascii "\n" ++ testSeparator ++ ascii "\n")

/-- `fall/tree/src/test_util.rs` 119-129. -/
def renderTests (render : List UInt8 → Option (List UInt8)) (tests : List (List UInt8)) : Option (List UInt8) := do
  return (← tests.mapM (renderTest render)).flatten

/-- The comparison of sections, `fall/tree/src/test_util.rs` 96-100. -/
def compareSections : List (List UInt8) → List (List UInt8) → Option Unit
  | e :: es, a :: as => do
    if e ≠ a then reportDiff e a
    compareSections es as
  | _, _ => some ()

/-- `str::is_char_boundary`, used by the slices in `fall/tree/src/test_util.rs` 110. -/
def isBoundary (s : List UInt8) (i : Nat) : Bool :=
  match s[i]? with
  | some b => b < 128 || 192 ≤ b
  | none => i == s.length

/-- The steps of `fall/tree/src/test_util.rs` 107-115. The number is a bound for them. -/
def collectSteps : Nat → List UInt8 → Option (List (List UInt8))
  | 0, _ => some []
  | k + 1, grammar =>
    match findBytes (ascii "test r") grammar with
    | none => some []
    | some pos => do
      let grammar := grammar.drop (pos + 6)
      let hashes := (grammar.takeWhile (· == 35)).length
      if !isBoundary grammar (hashes + 1) then none
      let grammar := grammar.drop (hashes + 1)
      if hashes > 16 then none
      let rest ← collectSteps k grammar
      match findBytes (34 :: List.replicate hashes 35) grammar with
      | some stop => return trimText (grammar.take stop) :: rest
      | none => return rest

/-- `fall/tree/src/test_util.rs` 105-117. -/
def collectTests (grammar : List UInt8) : Option (List (List UInt8)) := collectSteps grammar.length grammar

/-- `fall/tree/src/test_util.rs` 82-103, for the contents of the files. The result is the new content of the file with
the trees. -/
def checkInlineTests (render : List UInt8 → Option (List UInt8)) (rewrite : Bool) (grammar : List UInt8)
    (testData : Option (List UInt8)) : Option (Option (List UInt8)) := do
  let tests ← collectTests grammar
  let expected ← renderTests render tests
  let actual := testData.getD []
  if expected = actual then return testData
  if rewrite then return some expected
  compareSections (splitText testSeparator expected) (splitText testSeparator actual)
  return testData

/-- `fall/tree/src/test_util.rs` 149-171, for the contents of the files and the tree of the source. -/
def checkFile (rewrite : Bool) (actualTree : List UInt8) (expectedTree : Option (List UInt8)) :
    Option (Option (List UInt8)) :=
  match rewrite, expectedTree with
  | true, none => some (some actualTree)
  | false, none => none
  | true, some expected => some (some (if trimText actualTree = trimText expected then expected else actualTree))
  | false, some expected => do
    reportDiff expected actualTree
    return some expected

/-- `fall/gen/src/lib.rs` 115 and 151. -/
def renderSeparator : List UInt8 := ascii "\n***###***\n"

/-- The tests that are parsed for the tests of a grammar, `fall/gen/src/lib.rs` 144-153 and 115. -/
def renderedTests (tests : List (List UInt8)) : List (List UInt8) :=
  splitText renderSeparator (renderSeparator.intercalate tests)

end Fall
