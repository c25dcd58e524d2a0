import Verif.Model.Text

/-!
Model of the line index and the symbol search of the Rust editor plugin:
`lang/rust/src/editor/line_index.rs`, `lang/rust/src/editor/fst_subseq.rs`.
-/

namespace Fall

/-- `lang/rust/src/editor/line_index.rs` 8-12. The fields are `u32`; here `Nat`. -/
structure LineCol where
  line : Nat
  col : Nat
deriving DecidableEq, Repr

/-- `lang/rust/src/editor/line_index.rs` 17-23: the loop over the characters, from `curr` on. -/
def newlinesFrom (curr : Nat) : List Char → List Nat
  | [] => []
  | c :: cs =>
    if c = '\n' then (curr + c.utf8Size) :: newlinesFrom (curr + c.utf8Size) cs
    else newlinesFrom (curr + c.utf8Size) cs

/-- `lang/rust/src/editor/line_index.rs` 4-6: the offsets at which lines begin. -/
structure LineIndex where
  newlines : List Nat

/-- `lang/rust/src/editor/line_index.rs` 15-25. -/
def LineIndex.new (text : List Char) : LineIndex := ⟨0 :: newlinesFrom 0 text⟩

/-- `lang/rust/src/editor/line_index.rs` 27-32. `upperBound` stands for the function of the external
crate `ordslice`. Panics if the index underflows or is out of bounds, or if the difference of offsets
is negative (`fall/text/src/text_unit.rs`: subtraction of `u32`, which panics on overflow in debug
builds). -/
def LineIndex.translate (upperBound : List Nat → Nat → Nat) (ix : LineIndex) (offset : Nat) : Option LineCol := do
  let ub := upperBound ix.newlines offset
  if ub = 0 then none else
  let line := ub - 1
  let start ← ix.newlines[line]?
  if offset < start then none else
  some ⟨line, offset - start⟩

/-- `lang/rust/src/editor/fst_subseq.rs` 3-10: the automaton for a query; the query as bytes. -/
structure FstSubSeq where
  query : List UInt8

namespace FstSubSeq

/-- `lang/rust/src/editor/fst_subseq.rs` 15-17. -/
def start (_ : FstSubSeq) : Nat := 0

/-- `lang/rust/src/editor/fst_subseq.rs` 19-21. -/
def isMatch (a : FstSubSeq) (state : Nat) : Bool := state == a.query.length

/-- `lang/rust/src/editor/fst_subseq.rs` 23-31. The index in line 27 is in bounds because of line 24. -/
def accept (a : FstSubSeq) (state : Nat) (byte : UInt8) : Nat :=
  if h : state < a.query.length then
    if byte = a.query[state] then state + 1 else state
  else state

/-- `lang/rust/src/editor/fst_subseq.rs` 33-35. -/
def canMatch (_ : FstSubSeq) (_ : Nat) : Bool := true

/-- `lang/rust/src/editor/fst_subseq.rs` 37-39. -/
def willAlwaysMatch (a : FstSubSeq) (state : Nat) : Bool := state == a.query.length

end FstSubSeq

end Fall
