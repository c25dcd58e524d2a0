import Verif.Model.Dump
import Verif.Spec.Generate

/-! What the text of a tree says. -/

namespace Fall.Spec

/-- Trees one after another, with the texts of their leaves. -/
inductive Trees where
  | nil
  | leaf (ty : NodeType) (text : List UInt8) (rest : Trees)
  | inner (ty : NodeType) (kids rest : Trees)
deriving DecidableEq

/-- The trees below nodes of a file. -/
inductive TreesAt (f : File UInt8) : List NodeId → Trees → Prop where
  | nil : TreesAt f [] .nil
  | leaf : f.ty n = some ty → f.children n = some [] → f.textOf n = some s → TreesAt f ns T →
      TreesAt f (n :: ns) (.leaf ty s T)
  | inner : f.ty n = some ty → f.children n = some cs → cs ≠ [] → TreesAt f cs K → TreesAt f ns T →
      TreesAt f (n :: ns) (.inner ty K T)

/-- Trees without the nodes of some types, and what is in them. -/
def Trees.without (isWs : NodeType → Bool) : Trees → Trees
  | .nil => .nil
  | .leaf ty s rest => if isWs ty then rest.without isWs else .leaf ty s (rest.without isWs)
  | .inner ty kids rest =>
    if isWs ty then rest.without isWs else .inner ty (kids.without isWs) (rest.without isWs)

/-- The texts of the leaves, from left to right. -/
def Trees.text : Trees → List UInt8
  | .nil => []
  | .leaf _ s rest => s ++ rest.text
  | .inner _ kids rest => kids.text ++ rest.text

/-- Types have different names. Names have at least one byte and no white space. -/
structure Names (info : NodeType → Option TypeInfo) : Prop where
  different : ∀ t t' i i', info t = some i → info t' = some i' → i.name = i'.name → t = t'
  visible : ∀ t i, info t = some i → i.name ≠ [] ∧ ∀ b ∈ i.name, ¬ SpaceByte b

/-- What is known of the way strings are written: different strings are written differently, on one line and with a
quotation mark at the end. -/
structure Quotes (debug : List UInt8 → List UInt8) : Prop where
  different : ∀ s s', debug s = debug s' → s = s'
  line : ∀ s, 10 ∉ debug s
  quote : ∀ s, (debug s).getLast? = some 34

/-- All types of the nodes of a file have a name. -/
def KnownTypes (info : NodeType → Option TypeInfo) (f : File UInt8) : Prop :=
  ∀ n t, f.ty n = some t → ∃ i, info t = some i

/-- The types that are like white space. -/
def likeSpace (info : NodeType → Option TypeInfo) (t : NodeType) : Bool :=
  match info t with
  | some i => i.whitespaceLike
  | none => false

end Fall.Spec
