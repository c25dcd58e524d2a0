import Verif.Model.Grammars

/-!
JSON, as its user thinks of it, down to the types of the tokens.
-/

namespace Fall.Spec

mutual

/-- A value: `null`, a boolean, a string or a number, an object with its fields, or an array. -/
inductive Json where
  | primitive (ty : NodeType)
  | object (fields : Jsons)
  | array (elements : Jsons)

/-- The elements of an array, or what the fields of an object are set to. -/
inductive Jsons where
  | nil
  | cons (v : Json) (vs : Jsons)

end

/-- The comma before further values. -/
def Jsons.comma : Jsons → List NodeType
  | .nil => []
  | .cons _ _ => [106]

mutual

/-- The types of the tokens: `{`, `}`, `[`, `]`, `:` and `,` are 101 to 106, and 109 is a string. -/
def Json.tokens : Json → List NodeType
  | .primitive ty => [ty]
  | .object fields => 101 :: (fields.fields ++ [102])
  | .array elements => 103 :: (elements.elements ++ [104])

/-- The tokens of fields: a string, a colon and the value, separated by commas. -/
def Jsons.fields : Jsons → List NodeType
  | .nil => []
  | .cons v vs => 109 :: 105 :: (v.tokens ++ (vs.comma ++ vs.fields))

/-- The tokens of elements, separated by commas. -/
def Jsons.elements : Jsons → List NodeType
  | .nil => []
  | .cons v vs => v.tokens ++ (vs.comma ++ vs.elements)

end

mutual

/-- The tree: a node for every primitive value, object, field and array. -/
def Json.tree : Json → List Event
  | .primitive ty => [.start 115 none, .token ty 1, .fin]
  | .object fields => .start 112 none :: .token 101 1 :: (fields.fieldTrees ++ [.token 102 1, .fin])
  | .array elements => .start 114 none :: .token 103 1 :: (elements.elementTrees ++ [.token 104 1, .fin])

/-- The trees of fields. -/
def Jsons.fieldTrees : Jsons → List Event
  | .nil => []
  | .cons v vs => .start 113 none :: .token 109 1 :: .token 105 1 ::
      (v.tree ++ .fin :: (vs.comma.map (.token · 1) ++ vs.fieldTrees))

/-- The trees of elements. -/
def Jsons.elementTrees : Jsons → List Event
  | .nil => []
  | .cons v vs => v.tree ++ (vs.comma.map (.token · 1) ++ vs.elementTrees)

end

mutual

/-- The tokens of the primitive values are those of `null`, booleans, strings and numbers. -/
def Json.Proper : Json → Prop
  | .primitive ty => ty ∈ [107, 108, 109, 110]
  | .object fields => fields.Proper
  | .array elements => elements.Proper

/-- The same for all of them. -/
def Jsons.Proper : Jsons → Prop
  | .nil => True
  | .cons v vs => v.Proper ∧ vs.Proper

end

/-- What a document is: an object or an array. -/
def Json.Document : Json → Prop
  | .primitive _ => False
  | .object _ => True
  | .array _ => True

end Fall.Spec
