import Verif.Spec.FallEditor

/-! Vocabulary for the extraction of rules. -/

namespace Fall.Spec

/-- The innermost expression around the selection `q`. -/
def Selected (f : File UInt8) (q : TextRange) (e : NodeId) : Prop :=
  IsExpr f e ∧ (∃ r, f.range e = some r ∧ Within q r) ∧
    ∀ m r, IsExpr f m → f.range m = some r → Within q r → Desc f m e

/-- Some of the selection is in the node, or the node is empty and inside of the selection. -/
def Overlaps (f : File UInt8) (q : TextRange) (c : NodeId) : Prop :=
  ∃ r, f.range c = some r ∧ r.start < q.stop ∧ q.start < r.stop

/-- The selection is in several children of the sequence `e`, from the expression `a` up to the expression `b`. -/
def Run (f : File UInt8) (q : TextRange) (e a b : NodeId) : Prop :=
  OfType f 136 e ∧ IsExpr f a ∧ IsExpr f b ∧ ∃ mid, ChildrenWith f e (Overlaps f q) (a :: (mid ++ [b]))

/-- What is extracted from the expression: the part of the sequence that the selection is in, or all of it. -/
def Piece (f : File UInt8) (q : TextRange) (e : NodeId) (r : TextRange) : Prop :=
  (∃ a b ra rb, Run f q e a b ∧ f.range a = some ra ∧ f.range b = some rb ∧ r = ⟨ra.start, rb.stop⟩) ∨
    ((∀ a b, ¬ Run f q e a b) ∧ f.range e = some r)

/-- The text with a piece replaced by the name of a new rule, and the new rule put after the node that ends at `stop`.
-/
def extractedText (text : List UInt8) (r : TextRange) (stop : Nat) : List UInt8 :=
  text.take r.start ++ ascii "new_rule" ++ bytes text r.stop stop ++
    (ascii "\n\nrule new_rule {\n  " ++ bytes text r.start r.stop ++ ascii "\n}") ++ text.drop stop

/-- An action that is not there, or is offered and can be applied to the text. -/
def Dependable (f : File UInt8) (action : Bool → Option (Option (ActionResult UInt8))) : Prop :=
  (∀ apply, action apply = some none) ∨ (action false = some (some .available) ∧
    ∃ edit out, action true = some (some (.applied edit)) ∧ edit.apply (Text.ofBuf f.text) = some out)

end Fall.Spec
