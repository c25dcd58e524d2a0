import Verif.Spec.LexRules

/-!
Lexers that take the longest token, and the first rule if there are more.
-/

namespace Fall.Spec

/-- The rule finds a token of length `n` that is not empty and inside the text. -/
def FindsHere (r : LexRule) (text : List Nat) (n : Nat) : Prop := 0 < n ∧ n ≤ text.length ∧ Finds r text n

/-- The token is found by a rule, no rule finds a longer one, and no earlier rule one that is as long. -/
def LongestFirst (rules : List LexRule) (text : List Nat) (t : Token) : Prop :=
  ∃ before r after, rules = before ++ r :: after ∧ r.ty = t.ty ∧ FindsHere r text t.len ∧
    (∀ r' ∈ before, ∀ n, FindsHere r' text n → n < t.len) ∧ ∀ r' ∈ r :: after, ∀ n, FindsHere r' text n → n ≤ t.len

/-- A lexer that takes the longest token, and the first of the rules if there are more. Where no rule finds a token
there is an error, of any length. -/
structure LexesLongest (rules : List LexRule) (lexer : Lexer Nat) : Prop where
  progress : Progress lexer
  found : ∀ text, (∃ r ∈ rules, ∃ n, FindsHere r text n) → LongestFirst rules text (lexer text)
  error : ∀ text, (¬ ∃ r ∈ rules, ∃ n, FindsHere r text n) → (lexer text).ty = ERROR

/-- Only ASCII characters. -/
def Ascii (text : List Nat) : Prop := ∀ b ∈ text, b < 128

/-- Like `LexesLongest`, but nothing is said about texts with other characters than ASCII: there the rules of the model
are not exactly those of the code, see `Re.wide`. -/
structure LexesAscii (rules : List LexRule) (lexer : Lexer Nat) : Prop where
  progress : Progress lexer
  found : ∀ text, Ascii text → (∃ r ∈ rules, ∃ n, FindsHere r text n) → LongestFirst rules text (lexer text)
  error : ∀ text, Ascii text → (¬ ∃ r ∈ rules, ∃ n, FindsHere r text n) → (lexer text).ty = ERROR

end Fall.Spec
