import Verif.Model.Editor
import Verif.Spec.Text
import Verif.Spec.Tree

/-!
Vocabulary for the editor features.
-/

namespace Fall.Spec

/-- The range `q` is inside of `r`. -/
def Within (q r : TextRange) : Prop := r.start ≤ q.start ∧ q.stop ≤ r.stop

/-- The range `r` contains `q` and is different from it. -/
def Larger (r q : TextRange) : Prop := Within q r ∧ r ≠ q

/-- A non-empty leaf at the offset. -/
def LeafAt (f : File α) (offset : Nat) (l : NodeId) : Prop := NonEmptyLeaf f l ∧ Touches f l offset

/-- Of the nodes with a property, the one that begins first. -/
def Leftmost (f : File α) (P : NodeId → Prop) (l : NodeId) : Prop :=
  P l ∧ ∀ l', P l' → ∀ r r', f.range l = some r → f.range l' = some r' → r.start ≤ r'.start

/-- The first newline at or after `a` is at `b`. -/
def LineEnd (text : List UInt8) (a b : Nat) : Prop :=
  a ≤ b ∧ text[b]? = some 10 ∧ ∀ i, a ≤ i → i < b → text[i]? ≠ some 10

/-- The whitespace `w` contains a newline, but not after the offset: the offset is in the indentation of
the line which ends at `b`. -/
def IndentOf (text : List UInt8) (offset : Nat) (w : TextRange) (b : Nat) : Prop :=
  (∃ i, w.start ≤ i ∧ i < w.stop ∧ text[i]? = some 10) ∧
  (∀ i, offset ≤ i → i < w.stop → text[i]? ≠ some 10) ∧ LineEnd text w.stop b

/-- Exchanging the pieces of the text in the ranges `a` and `b` gives `out`; all the rest is kept. -/
def Exchange (text : List α) (a b : TextRange) (out : List α) : Prop :=
  ∃ before l mid r after, text = before ++ l ++ mid ++ r ++ after ∧
    a = ⟨before.length, before.length + l.length⟩ ∧
    b = ⟨before.length + l.length + mid.length, before.length + l.length + mid.length + r.length⟩ ∧
    out = before ++ r ++ mid ++ l ++ after

/-- The two nodes are the neighbours of `sep` when the nodes with a type in `skip` are passed over. -/
def Around (f : File α) (skip : NodeType → Bool) (sep left right : NodeId) : Prop :=
  ∃ p before skip1 skip2 after, f.children p = some
      (before ++ [left] ++ skip1 ++ [sep] ++ skip2 ++ [right] ++ after) ∧
    (∀ n ∈ skip1 ++ skip2, ∃ ty, f.ty n = some ty ∧ skip ty = true) ∧
    (∀ n ∈ [left, right], ∃ ty, f.ty n = some ty ∧ skip ty = false)

/-- The type of a node for an expression in a Fall grammar: a reference, sequence, block, option, repetition or
call (`lang/fall/syntax/src/fall.rs` 38-43). -/
def FallExpr (ty : NodeType) : Bool := decide (135 ≤ ty ∧ ty ≤ 140)

end Fall.Spec
