/-!
Model of the text layer of fall: `fall/text/src`.

`TextUnit` (`fall/text/src/text_unit.rs` 5-99) is a `u32` newtype; here it is `Nat`
(texts are assumed to be shorter than 4 GiB, so that additions do not overflow).
A panic is `none`.
-/

namespace Fall

/-- `fall/text/src/text_range.rs` 9-13. The field `end` is called `stop`. -/
structure TextRange where
  start : Nat
  stop : Nat
deriving DecidableEq, Repr

namespace TextRange

/-- `fall/text/src/text_range.rs` 46-49: panics on `from > to`. -/
def fromTo (a b : Nat) : Option TextRange :=
  if a ≤ b then some ⟨a, b⟩ else none

/-- `fall/text/src/text_range.rs` 51-53. -/
def fromLen (a len : Nat) : Option TextRange :=
  fromTo a (a + len)

/-- `fall/text/src/text_range.rs` 42-44. -/
def empty : Option TextRange :=
  fromTo 0 0

/-- `fall/text/src/text_range.rs` 63-65. Simplified: for a range with `end < start`,
which only `Deserialize` (lines 33-38) can produce, Rust panics on underflow; here the
subtraction is truncated, and the model checks `start ≤ stop` where it matters. -/
def len (r : TextRange) : Nat :=
  r.stop - r.start

/-- `fall/text/src/text_range.rs` 67-69. -/
def isEmpty (r : TextRange) : Bool :=
  r.start == r.stop

/-- `fall/text/src/text_range.rs` 71-73. -/
def isSubrangeOf (r other : TextRange) : Bool :=
  decide (other.start ≤ r.start) && decide (r.stop ≤ other.stop)

/-- `fall/text/src/text_range.rs` 79-81. -/
def disjoint (r other : TextRange) : Bool :=
  decide (r.stop ≤ other.start) || decide (other.stop ≤ r.start)

/-- `fall/text/src/text_range.rs` 75-77. -/
def intersects (r other : TextRange) : Bool :=
  !r.disjoint other

/-- `fall/text/src/text_range.rs` 83-85. -/
def containsOffsetNonstrict (r : TextRange) (offset : Nat) : Bool :=
  decide (r.start ≤ offset) && decide (offset ≤ r.stop)

/-- `fall/text/src/text_range.rs` 87-90: panics unless the ranges are adjacent. -/
def glue (r right : TextRange) : Option TextRange :=
  if r.stop = right.start then fromTo r.start right.stop else none

/-- `fall/text/src/text_range.rs` 92-94. -/
def shiftRight (r : TextRange) (offset : Nat) : Option TextRange :=
  fromLen (r.start + offset) r.len

/-- `fall/text/src/text_range.rs` 114-126. -/
def partialCmp (r other : TextRange) : Option Ordering :=
  if r.stop ≤ other.start then some .lt
  else if other.stop ≤ r.start then some .gt
  else if r = other then some .eq
  else none

/-- A range as produced by the checked constructors (not by `Deserialize`). -/
def Valid (r : TextRange) : Prop := r.start ≤ r.stop

instance (r : TextRange) : Decidable r.Valid := inferInstanceAs (Decidable (_ ≤ _))

end TextRange

/-- `fall/text/src/text.rs` 9-13: a view of a buffer. The buffer is a list of bytes
(or of anything else: the operations below do not look at the content). -/
structure Text (α : Type u) where
  owned : List α
  range : TextRange
deriving DecidableEq, Repr

/-- `fall/text/src/text_buf.rs` 28-33: the view of a whole buffer. -/
def Text.ofBuf (data : List α) : Text α :=
  ⟨data, ⟨0, data.length⟩⟩

/-- `fall/text/src/text.rs` 16-18. -/
def Text.len (t : Text α) : Nat :=
  t.range.stop - t.range.start

/-- `fall/text/src/text.rs` 20. -/
def Text.isEmpty (t : Text α) : Bool :=
  t.range.isEmpty

/-- `fall/text/src/text.rs` 88-90 with `fall/text/src/text_range.rs` 106-112: indexing the
buffer panics when the range is out of bounds or inverted. Simplified: the panic on
ranges that split a multi-byte character is not modelled. -/
def Text.asStr (t : Text α) : Option (List α) :=
  if t.range.start ≤ t.range.stop ∧ t.range.stop ≤ t.owned.length then
    some ((t.owned.drop t.range.start).take (t.range.stop - t.range.start))
  else none

/-- `fall/text/src/text.rs` 22-31, for a `TextRange` argument
(`fall/text/src/text_slice.rs` 7-11). The last condition is the underflow check of
`r.end() - r.start()` on line 29. -/
def Text.slice (t : Text α) (r : TextRange) : Option (Text α) :=
  if r.stop ≤ t.len then
    let start := t.range.start + r.start
    if start ≤ t.range.stop then
      if r.start ≤ r.stop then
        (TextRange.fromTo start (start + (r.stop - r.start))).map fun range =>
          { owned := t.owned, range := range }
      else none
    else none
  else none

/-- `fall/text/src/text_slice.rs` 23-27 and `fall/text/src/text.rs` 22-31: the suffix of a
view from an offset. -/
def Text.sliceFrom (t : Text α) (offset : Nat) : Option (Text α) :=
  (TextRange.fromTo offset t.len).bind t.slice

/-- `fall/text/src/text_edit.rs` 9-13. -/
inductive TextEditOp (α : Type u) where
  | copy (range : TextRange)
  | insert (text : List α)
deriving DecidableEq, Repr

/-- `fall/text/src/text_edit.rs` 4-7. -/
structure TextEdit (α : Type u) where
  ops : List (TextEditOp α)
deriving DecidableEq, Repr

/-- The text appended by one operation: the two arms of
`fall/text/src/text_edit.rs` 20-23. -/
def TextEditOp.piece (text : Text α) : TextEditOp α → Option (List α)
  | .copy range => (text.slice range).bind Text.asStr
  | .insert i => (Text.ofBuf i).asStr

/-- `fall/text/src/text_edit.rs` 17-27. -/
def TextEdit.apply (e : TextEdit α) (text : Text α) : Option (List α) :=
  e.ops.foldlM (fun result op => (op.piece text).map (result ++ ·)) []

/-- `fall/text/src/text_edit.rs` 30-35. -/
structure TextEditBuilder (α : Type u) where
  segments : List (TextEditOp α)
  lastOffset : Nat
  textLen : Nat
deriving DecidableEq, Repr

namespace TextEditBuilder

/-- `fall/text/src/text_edit.rs` 38-44. -/
def new (text : Text α) : TextEditBuilder α :=
  ⟨[], 0, text.len⟩

/-- `fall/text/src/text_edit.rs` 81-85. -/
def copyLen (b : TextEditBuilder α) (len : Nat) : Option (TextEditBuilder α) :=
  (TextRange.fromLen b.lastOffset len).map fun range =>
    { b with segments := b.segments ++ [.copy range], lastOffset := b.lastOffset + len }

/-- `fall/text/src/text_edit.rs` 68-79 (`advance_to` and `copy_up_to`):
panics with "Invalid edit" when going backwards. -/
def advanceTo (b : TextEditBuilder α) (offset : Nat) : Option (TextEditBuilder α) :=
  match compare b.lastOffset offset with
  | .lt => b.copyLen (offset - b.lastOffset)
  | .eq => some b
  | .gt => none

/-- `fall/text/src/text_edit.rs` 87-89. -/
def insert_ (b : TextEditBuilder α) (text : List α) : TextEditBuilder α :=
  { b with segments := b.segments ++ [.insert text] }

/-- `fall/text/src/text_edit.rs` 91-93. -/
def deleteLen (b : TextEditBuilder α) (len : Nat) : TextEditBuilder α :=
  { b with lastOffset := b.lastOffset + len }

/-- `fall/text/src/text_edit.rs` 52-55. -/
def insert (b : TextEditBuilder α) (offset : Nat) (text : List α) : Option (TextEditBuilder α) :=
  (b.advanceTo offset).map (·.insert_ text)

/-- `fall/text/src/text_edit.rs` 57-60. `range.len()` panics on an inverted range. -/
def delete (b : TextEditBuilder α) (range : TextRange) : Option (TextEditBuilder α) :=
  (b.advanceTo range.start).bind fun b =>
    if range.start ≤ range.stop then some (b.deleteLen range.len) else none

/-- `fall/text/src/text_edit.rs` 62-66. `range.len()` panics on an inverted range. -/
def replace (b : TextEditBuilder α) (range : TextRange) (text : List α) :
    Option (TextEditBuilder α) :=
  (b.advanceTo range.start).bind fun b =>
    let b := b.insert_ text
    if range.start ≤ range.stop then some (b.deleteLen range.len) else none

/-- `fall/text/src/text_edit.rs` 46-50. -/
def build (b : TextEditBuilder α) : Option (TextEdit α) :=
  (b.advanceTo b.textLen).map fun b => ⟨b.segments⟩

end TextEditBuilder

/-- One call of a client of `TextEditBuilder`
(`fall/text/src/text_edit.rs` 52, 57, 62). -/
inductive EditReq (α : Type u) where
  | insert (offset : Nat) (text : List α)
  | delete (range : TextRange)
  | replace (range : TextRange) (text : List α)
deriving DecidableEq, Repr

/-- Performs one client call (`fall/text/src/text_edit.rs` 52-66). -/
def EditReq.run (b : TextEditBuilder α) : EditReq α → Option (TextEditBuilder α)
  | .insert offset text => b.insert offset text
  | .delete range => b.delete range
  | .replace range text => b.replace range text

/-- A client session: `new`, a sequence of calls, `build`
(`fall/text/src/text_edit.rs` 38-66; the usage pattern of the test on lines 103-109). -/
def buildEdit (text : Text α) (reqs : List (EditReq α)) : Option (TextEdit α) :=
  (reqs.foldlM EditReq.run (TextEditBuilder.new text)).bind TextEditBuilder.build

/-! ## Random edits: `fall/text/src/prop.rs` -/

namespace Prop_

/-- `fall/text/src/prop.rs` 58-65. -/
def range (p q : Nat) : Option TextRange :=
  let (s, e) := if p < q then (p, q) else (q, p)
  TextRange.fromTo s e

/-- `fall/text/src/prop.rs` 74-80: the product is taken in `u64`, the result is truncated to
`u32`; both wrap here as they would with the casts of the code. -/
def scale (x targetLen : Nat) : Nat :=
  (x * targetLen % 2 ^ 64 / (2 ^ 32 - 1)) % 2 ^ 32

/-- `fall/text/src/prop.rs` 67-72. -/
def scaleRange (r : TextRange) (targetLen : Nat) : Option TextRange :=
  TextRange.fromTo (scale r.start targetLen) (scale r.stop targetLen)

/-- The closure of `fall/text/src/prop.rs` 46-53: `(true, r)` becomes a copy, `(false, r)` an
insertion of a slice of the text. -/
def asTextEditOp (text : Text α) (op : Bool × TextRange) : Option (TextEditOp α) :=
  (scaleRange op.2 text.len).bind fun r =>
    if op.1 = true then some (TextEditOp.copy r)
    else ((text.slice r).bind Text.asStr).map TextEditOp.insert

/-- `fall/text/src/prop.rs` 42-55. -/
def asTextEdit (ops : List (Bool × TextRange)) (text : Text α) : Option (TextEdit α) :=
  (ops.mapM (asTextEditOp text)).map TextEdit.mk

end Prop_

/-! ## `trim`, on characters -/

/-- The number of bytes of a string: `str::len` as used in `fall/text/src/text.rs` 60. -/
def utf8Len (s : List Char) : Nat :=
  (s.map Char.utf8Size).sum

/-- `&s[from..]` for a byte offset, as used in `fall/text/src/text.rs` 61 and, through
`slice`, 66: `none` (a panic) off a character boundary or out of bounds. -/
def dropBytes : List Char → Nat → Option (List Char)
  | s, 0 => some s
  | [], _ + 1 => none
  | c :: s, n + 1 => if c.utf8Size ≤ n + 1 then dropBytes s (n + 1 - c.utf8Size) else none

/-- `&s[..to]` for a byte offset, as used through `slice` in `fall/text/src/text.rs` 66. -/
def takeBytes : List Char → Nat → Option (List Char)
  | _, 0 => some []
  | [], _ + 1 => none
  | c :: s, n + 1 =>
    if c.utf8Size ≤ n + 1 then (takeBytes s (n + 1 - c.utf8Size)).map (c :: ·) else none

/-- `str::find` with a character predicate: byte offset of the first match
(`fall/text/src/text.rs` 58-59). -/
def findChar (p : Char → Bool) : List Char → Option Nat
  | [] => none
  | c :: s => if p c then some 0 else (findChar p s).map (· + c.utf8Size)

/-- `str::rfind` with a character predicate: byte offset of the last match
(`fall/text/src/text.rs` 62-63). -/
def rfindChar (p : Char → Bool) : List Char → Option Nat
  | [] => none
  | c :: s =>
    match rfindChar p s with
    | some i => some (i + c.utf8Size)
    | none => if p c then some 0 else none

/-- `fall/text/src/text.rs` 53-70 on the string of the view; `isWhitespace` is
`char::is_whitespace`. The view's own `slice` (line 66) is `dropBytes` and `takeBytes`. -/
def trim (isWhitespace : Char → Bool) (str : List Char) : Option (List Char) :=
  let nonWs := fun c => !isWhitespace c
  let left := (findChar nonWs str).getD (utf8Len str)
  (dropBytes str left).bind fun s =>
    let right : Option Nat :=
      match rfindChar nonWs s with
      | some last => (dropBytes s last).bind fun t => t.head?.map fun c => last + c.utf8Size
      | none => some 0
    right.bind fun right =>
      (dropBytes str left).bind fun s => takeBytes s right

end Fall
