import Verif.Spec.Runs

/-!
Parsing expression grammars on lists of token types.
-/

namespace Fall.Spec

/-- What to match. -/
inductive PegGoal where
  /-- an expression of the grammar -/
  | expr (e : Nat)
  /-- the first of the expressions that matches -/
  | choice (es : List Nat)
  /-- the expressions one after the other -/
  | seq (es : List Nat)
  /-- an expression as often as it matches -/
  | star (body : Nat)

/-- `Peg g goal xs r`: matching `goal` against the token types `xs` leaves `r`, `none` meaning that it
does not match. Rules that only describe the tree (`pub`, `cached`) match what their body matches. -/
inductive Peg (g : Grammar) : PegGoal → List NodeType → Option (List NodeType) → Prop
  | token : g.rules[e]? = some (.token ty) → g.nodeTypes[ty]? = some t →
      Peg g (.expr e) (t :: xs) (some xs)
  | tokenOther : g.rules[e]? = some (.token ty) → g.nodeTypes[ty]? = some t → x ≠ t →
      Peg g (.expr e) (x :: xs) none
  | tokenEnd : g.rules[e]? = some (.token ty) → Peg g (.expr e) [] none
  | any : g.rules[e]? = some .any → Peg g (.expr e) (x :: xs) (some xs)
  | anyEnd : g.rules[e]? = some .any → Peg g (.expr e) [] none
  | eof : g.rules[e]? = some .eof → Peg g (.expr e) [] (some [])
  | eofOther : g.rules[e]? = some .eof → Peg g (.expr e) (x :: xs) none
  | or : g.rules[e]? = some (.or parts) → Peg g (.choice parts) xs r → Peg g (.expr e) xs r
  | and : g.rules[e]? = some (.and parts none) → Peg g (.seq parts) xs r → Peg g (.expr e) xs r
  | opt : g.rules[e]? = some (.opt body) → Peg g (.expr body) xs (some ys) →
      Peg g (.expr e) xs (some ys)
  | optNone : g.rules[e]? = some (.opt body) → Peg g (.expr body) xs none →
      Peg g (.expr e) xs (some xs)
  | rep : g.rules[e]? = some (.rep body) → Peg g (.star body) xs r → Peg g (.expr e) xs r
  | not : g.rules[e]? = some (.not body) → Peg g (.expr body) xs none → Peg g (.expr e) xs (some xs)
  | notFails : g.rules[e]? = some (.not body) → Peg g (.expr body) xs (some ys) →
      Peg g (.expr e) xs none
  | pub : g.rules[e]? = some (.pub ty body false) → g.nodeTypes[ty]? = some t →
      Peg g (.expr body) xs r → Peg g (.expr e) xs r
  | cached : g.rules[e]? = some (.cached body) → Peg g (.expr body) xs r → Peg g (.expr e) xs r
  | choiceNone : Peg g (.choice []) xs none
  | choiceFirst : Peg g (.expr p) xs (some ys) → Peg g (.choice (p :: ps)) xs (some ys)
  | choiceNext : Peg g (.expr p) xs none → Peg g (.choice ps) xs r → Peg g (.choice (p :: ps)) xs r
  | seqNil : Peg g (.seq []) xs (some xs)
  | seqCons : Peg g (.expr p) xs (some ys) → Peg g (.seq ps) ys r → Peg g (.seq (p :: ps)) xs r
  | seqFails : Peg g (.expr p) xs none → Peg g (.seq (p :: ps)) xs none
  | starEnd : Peg g (.expr body) xs none → Peg g (.star body) xs (some xs)
  | starMore : Peg g (.expr body) xs (some ys) → Peg g (.star body) ys r → Peg g (.star body) xs r

/-- Every expression of `S` is one of the constructs of `Peg`, on expressions of `S`. -/
def PegFragment (g : Grammar) (S : Nat → Prop) : Prop :=
  ∀ e, S e → ∀ rule, g.rules[e]? = some rule → match rule with
    | .token _ | .any | .eof => True
    | .or parts | .and parts none => ∀ p ∈ parts, S p
    | .opt body | .rep body | .not body | .pub _ body false | .cached body => S body
    | _ => False

/-- The types of the significant tokens from `pos` to the end of the layer. -/
inductive Input (env : Env) : Pos → List NodeType → Prop
  | nil : pos.cur = pos.stop → Input env pos []
  | cons : pos.cur ≠ pos.stop → sigTy env pos.cur = some t → Input env ⟨pos.cur + 1, pos.stop⟩ ts →
      Input env pos (t :: ts)

/-- The position with a rest of the input still to come. -/
def Pos.before (pos : Pos) (rest : List NodeType) : Pos := ⟨pos.stop - rest.length, pos.stop⟩

end Fall.Spec
