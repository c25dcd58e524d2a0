import Verif.Spec.FallEditor
import Verif.Spec.FallExtract
import Verif.Spec.Codegen
import Verif.Model.RustEditor

/-!
Vocabulary for the editor features for Rust.
-/

namespace Fall.Spec

/-! ## Typing -/

/-- A `let` statement that has neither `=` nor `;`, and is not followed by `;` directly. -/
def Unfinished (f : File UInt8) (stmt : NodeId) : Prop :=
  (∀ c, Child f stmt c → ¬ OfType f 152 c ∧ ¬ OfType f 157 c) ∧
    ∀ r, f.range stmt = some r → f.text[r.stop]? ≠ some 59

/-- The keyword `let` is left of the offset, and belongs to the statement. -/
def LetAt (f : File UInt8) (offset : Nat) (stmt : NodeId) : Prop :=
  ∃ l, Leftmost f (LeafAt f offset) l ∧ OfType f 108 l ∧ Innermost f l (OfType f 263) stmt

/-- The expression statement that the leaf left of the offset is in. -/
def StatementAt (f : File UInt8) (offset : Nat) (stmt : NodeId) : Prop :=
  ∃ l, Leftmost f (LeafAt f offset) l ∧ Innermost f l (OfType f 266) stmt

/-- A statement that prints an expression with its value. -/
def printStatement (e : List UInt8) : List UInt8 :=
  ascii "eprintln!(\"" ++ e ++ ascii " = {:?}\", " ++ e ++ ascii ");"

/-! ## Breadcrumbs -/

/-- The types of nodes that are shown with a keyword and a name. -/
def crumbKeyword : NodeType → Option (List UInt8)
  | 197 => some (ascii "fn ")
  | 202 => some (ascii "struct ")
  | 205 => some (ascii "enum ")
  | 209 => some (ascii "trait ")
  | _ => none

/-- The text by which a node is shown among the breadcrumbs. -/
inductive Crumb (f : File UInt8) : NodeId → List UInt8 → Prop where
  | named : OfType f ty n → crumbKeyword ty = some kw → Labelled f n 191 name → Crumb f n (kw ++ name)
  | implFor : OfType f 208 n → ChildrenWith f n (OfType f 227) (a :: b :: rest) → f.textOf a = some s →
      f.textOf b = some t → Crumb f n (ascii "impl " ++ s ++ ascii " for " ++ t)
  | impl : OfType f 208 n → ChildrenWith f n (OfType f 227) [a] → f.textOf a = some s →
      Crumb f n (ascii "impl " ++ s)

/-! ## Symbols -/

/-- The types of nodes that are listed as symbols: functions, structs, enums, traits, types and modules. -/
def listedTypes : List NodeType := [197, 202, 205, 211, 209, 207]

/-- The node is a declaration with a name. -/
def Declares (f : File UInt8) (n : NodeId) (name : List UInt8) : Prop :=
  ∃ ty, ty ∈ listedTypes ∧ OfType f ty n ∧ Labelled f n 191 name

/-! ## Actions -/

/-- The innermost node of a type around the left leaf at the offset, or around the right one if there is none. -/
def NodeAt (f : File UInt8) (offset : Nat) (ty : NodeType) (n : NodeId) : Prop :=
  ∃ l, LeafAt f offset l ∧ Innermost f l (OfType f ty) n ∧
    ∀ l', LeafAt f offset l' → (∃ n', Innermost f l' (OfType f ty) n') →
      ∀ r r', f.range l = some r → f.range l' = some r' → r.start ≤ r'.start

/-- The last segment of the path of the use declaration at the offset, which has no list. -/
def BracesAt (f : File UInt8) (offset : Nat) (segment : NodeId) : Prop :=
  ∃ decl path, NodeAt f offset 193 decl ∧ FirstChild f decl (OfType f 221) path ∧
    FirstChild f path (OfType f 223) segment ∧ ∀ c, Child f decl c → ¬ OfType f 194 c

/-- The declaration of a struct or an enum at the offset, and its name. An enum is only looked for if there is no
struct with a name. -/
def TypeAt (f : File UInt8) (offset : Nat) (decl : NodeId) (name : List UInt8) : Prop :=
  Labelled f decl 191 name ∧ (NodeAt f offset 202 decl ∨
    (NodeAt f offset 205 decl ∧ ∀ s name', NodeAt f offset 202 s → ¬ Labelled f s 191 name'))

/-- The names of the parameters of a type: lifetimes and then types. -/
def ParameterNames (f : File UInt8) (params : NodeId) (names : List (List UInt8)) : Prop :=
  ∃ ls ts ns ms, ChildrenWith f params (OfType f 218) ls ∧ ChildrenWith f params (OfType f 216) ts ∧
    Pointwise (fun l s => Labelled f l 186 s) ls ns ∧ Pointwise (fun t s => Labelled f t 191 s) ts ms ∧
    names = ns ++ ms

/-- The beginning of an implementation block for a type: `impl` with the parameters of the declaration, and the name
of the type with the names of the parameters as arguments. -/
inductive ImplHeader (f : File UInt8) (decl : NodeId) (name : List UInt8) : List UInt8 → Prop where
  | plain : (∀ c, ¬ FirstChild f decl (OfType f 215) c) → ImplHeader f decl name (ascii "impl " ++ name)
  | generic : FirstChild f decl (OfType f 215) params → f.textOf params = some text → ParameterNames f params names →
      ImplHeader f decl name
        (ascii "impl" ++ text ++ ascii " " ++ name ++ ascii "<" ++ (ascii ", ").intercalate names ++ ascii ">")

/-- All parameters of the type have a name. -/
def NamedParameters (f : File UInt8) (decl : NodeId) : Prop :=
  ∀ params, FirstChild f decl (OfType f 215) params → ∀ c, Child f params c →
    (OfType f 218 c → ∃ s, Labelled f c 186 s) ∧ (OfType f 216 c → ∃ s, Labelled f c 191 s)

end Fall.Spec
