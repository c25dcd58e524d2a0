import Verif.Model.LexRules
import Verif.Spec.Convert
import Verif.Spec.Lex

/-!
What it means to apply lexical rules, raw strings and nested comments.
-/

namespace Fall.Spec

/-- The regular expression describes the string. -/
inductive Matches : Re → List Nat → Prop
  | empty : Matches .empty []
  | set {b lo hi : Nat} {ranges : List (Nat × Nat)} : (lo, hi) ∈ ranges → lo ≤ b → b ≤ hi → Matches (.set ranges) [b]
  | seq {a b : Re} {s t : List Nat} : Matches a s → Matches b t → Matches (.seq a b) (s ++ t)
  | left {a b : Re} {s : List Nat} : Matches a s → Matches (.alt a b) s
  | right {a b : Re} {s : List Nat} : Matches b s → Matches (.alt a b) s
  | starNil {a : Re} : Matches (.star a) []
  | starCons {a : Re} {s t : List Nat} : Matches a s → Matches (.star a) t → Matches (.star a) (s ++ t)

/-- The rule finds a token of length `n` at the start of the text: the expression describes the token, or the
expression describes some start of the text and the function gives the length. -/
def Finds (r : LexRule) (text : List Nat) (n : Nat) : Prop :=
  match r.f with
  | none => Matches r.re (text.take n)
  | some f => (∃ k, Matches r.re (text.take k)) ∧ f text = some (some n)

/-- A lexer that applies rules: there is a token wherever there is text, and tokens are errors or are found by one of
the rules. Which rule is used if there are more, and what is an error, is left open. -/
structure LexesBy (rules : List LexRule) (lexer : Lexer Nat) : Prop where
  progress : Progress lexer
  token : ∀ text, (lexer text).ty = ERROR ∨ ∃ r, r ∈ rules ∧ r.ty = (lexer text).ty ∧ Finds r text (lexer text).len

/-- `k` is the first place of the string. -/
def FirstPlace (pattern text : List Nat) (k : Nat) : Prop :=
  pattern <+: text.drop k ∧ k ≤ text.length ∧ ∀ j, j < k → ¬ pattern <+: text.drop j

/-- Raw strings with `n` hashes: after the quote comes text without the closing quote and hashes, and then these. -/
def RawString (n : Nat) (s : List Nat) : Prop :=
  ∃ body, s = 114 :: List.replicate n 35 ++ 34 :: body ++ 34 :: List.replicate n 35 ∧
    FirstPlace (34 :: List.replicate n 35) (body ++ 34 :: List.replicate n 35) body.length

mutual
/-- Comments with comments in them: they begin with `/*` and end with `*/`. -/
inductive Comment : List Nat → Prop
  | mk {s : List Nat} : CommentRest s → Comment (47 :: 42 :: s)
/-- What comes after the start of a comment, up to its end: comments, and other characters. -/
inductive CommentRest : List Nat → Prop
  | close : CommentRest [42, 47]
  | nested {s t : List Nat} : Comment s → CommentRest t → CommentRest (s ++ t)
  | other {b : Nat} {s : List Nat} : CommentRest s → ¬ [47, 42] <+: b :: s → ¬ [42, 47] <+: b :: s →
    CommentRest (b :: s)
end

end Fall.Spec
