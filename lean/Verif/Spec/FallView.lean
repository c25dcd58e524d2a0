import Verif.Spec.FallEditor
import Verif.Spec.Codegen

/-! Vocabulary for the outline and the colours of grammars. -/

namespace Fall.Spec

/-! ## Outline -/

/-- The entry of a declaration in the outline: rules by their names, tokenizers and descriptions of trees. -/
inductive Outlined (f : File UInt8) : NodeId → StructureNode → Prop
  | rule : OfType f 132 n → Ident f n s → f.range n = some r → Outlined f n ⟨s, r⟩
  | tokenizer : OfType f 141 n → f.range n = some r → Outlined f n ⟨ascii "tokenizer", r⟩
  | ast : OfType f 149 n → f.range n = some r → Outlined f n ⟨ascii "ast", r⟩

/-! ## Colours -/

/-- The colours of nodes by their types: comments, strings, keywords, parameters and attributes. -/
def typeColour (ty : NodeType) : Option HlTag :=
  if ty = 101 then some .comment
  else if ty = 128 ∨ ty = 129 then some .string
  else if 102 ≤ ty ∧ ty ≤ 110 then some .keyword
  else if ty = 134 then some .parameter
  else if ty = 144 then some .attr
  else none

/-- The colours of references. -/
def refColour : RefKind → HlTag
  | .token _ => .literal
  | .rule _ => .function
  | .param _ => .parameter

/-- The node `n` makes the tag be shown in the range. -/
inductive Coloured (f : File UInt8) (n : NodeId) : TextRange → HlTag → Prop
  /-- An error is shown where it is. -/
  | error : OfType f ERROR n → f.range n = some r → r.start < r.stop → Coloured f n r .error
  /-- An error without a text is shown at the next byte. -/
  | nothing : OfType f ERROR n → f.range n = some ⟨a, a⟩ → Coloured f n ⟨a, a + 1⟩ .error
  | type : OfType f ty n → typeColour ty = some tag → f.range n = some r → Coloured f n r tag
  /-- Names of tokens. -/
  | token : OfType f 142 n → FirstChild f n (OfType f 130) c → f.range c = some r → Coloured f n r .literal
  /-- Names of rules, and of nodes, classes and traits. -/
  | named : OfType f ty n → ty ∈ [132, 150, 151, 152] → FirstChild f n (OfType f 130) c → f.range c = some r →
      Coloured f n r .function
  /-- References have the colours of what they refer to. -/
  | ref : OfType f 135 n → RefersTo f n (some k) → f.range n = some r → Coloured f n r (refColour k)
  /-- Methods that select tokens. -/
  | accessor : OfType f 153 n → MethodMeans f n (some (.token t a)) → FirstChild f n (OfType f 154) sel →
      FirstChild f sel (OfType f 130) c → f.range c = some r → Coloured f n r .literal
  /-- Methods that select nodes or classes. -/
  | child : OfType f 153 n → (MethodMeans f n (some (.astNode t a)) ∨ MethodMeans f n (some (.astClass t a))) →
      FirstChild f n (OfType f 154) sel → FirstChild f sel (OfType f 130) c → f.range c = some r →
      Coloured f n r .function
  /-- The name and the angle brackets of a call of a built-in function. -/
  | builtin : OfType f 140 n → Ident f n name → ChildrenWith f n (IsExpr f) args → CallMeans f n args name (some k) ds →
      name ∈ builtInNames → ty ∈ [130, 123, 124] → FirstChild f n (OfType f ty) c → f.range c = some r →
      Coloured f n r .builtin
  /-- The name and the angle brackets of a call of a rule, or of a call that means nothing. -/
  | call : OfType f 140 n → Ident f n name → ChildrenWith f n (IsExpr f) args → CallMeans f n args name k ds →
      (name ∉ builtInNames ∨ k = none) → ty ∈ [130, 123, 124] → FirstChild f n (OfType f ty) c → f.range c = some r →
      Coloured f n r .function

end Fall.Spec
