import Verif.Lemmas.Sexp
import Verif.Props.Bnf

/-!
C99: symbolic expressions are what the parser for them reads without errors.
-/

namespace Fall

open Spec

/-- The types of the tokens that are not whitespace. -/
def sexpTypesOf (tokens : List Token) : List NodeType := (tokens.filter fun t => !sexpIsWs t.ty).map (·.ty)

/-- C99. A parsed file has no ERROR, neither a node nor a token, if and only if its tokens are those of expressions: every
parenthesis is closed, and none is closed that was not opened. -/
theorem C99_sexp (lexer : Lexer Nat) (hp : Progress lexer) (n : Nat) (text : List Nat) (file : File Nat)
    (data : Definition.IncrementalData) (h : (sexpDefinition lexer).parse n text = .ok (file, data))
    (tokens : List Token) (ht : IsLexing lexer text tokens) :
    (∀ m : Nat, file.ty m ≠ some ERROR) ↔ ∃ vs : Sexps, sexpTypesOf tokens = vs.tokens := by
  obtain ⟨t, kids, plain, h1, _, _, h4, h5⟩ := Parser.Exact.parse_iff (d := sexpDefinition lexer) (ty := 5) (body := 5)
    SexpParse.exact rfl Check.sexp_safe.2 hp rfl (fun _ _ _ => Nat.zero_le _) (sexp_spaceless lexer) rfl h
  obtain rfl := IsLexing.unique h1 ht
  exact ⟨fun hno => (h4 hno).imp fun _ h => h.2, fun ⟨vs, hts⟩ => (h5 vs trivial hts).2⟩

/-- C99. The file of expressions has a node for each list, at its place, with its parentheses and its items in it;
whitespace is between them. -/
theorem C99_tree (lexer : Lexer Nat) (hp : Progress lexer) (n : Nat) (text : List Nat) (file : File Nat)
    (data : Definition.IncrementalData) (h : (sexpDefinition lexer).parse n text = .ok (file, data))
    (tokens : List Token) (ht : IsLexing lexer text tokens) (vs : Sexps) (hts : sexpTypesOf tokens = vs.tokens) :
    ∃ ops, newFile text ops = some file ∧ Places sexpIsWs vs.tree tokens ops := by
  obtain ⟨t, kids, plain, h1, h2, h3, _, h5⟩ := Parser.Exact.parse_iff (d := sexpDefinition lexer) (ty := 5) (body := 5)
    SexpParse.exact rfl Check.sexp_safe.2 hp rfl (fun _ _ _ => Nat.zero_le _) (sexp_spaceless lexer) rfl h
  obtain rfl := IsLexing.unique h1 ht
  obtain ⟨rfl, _⟩ := h5 vs trivial hts
  exact ⟨_, h2, h3⟩

/-- C99. There is only one way to read the tokens. -/
theorem C99_unique (vs ws : Sexps) (h : vs.tokens = ws.tokens) : vs = ws :=
  (SexpParse.items_inj vs ws (r := []) (r' := []) (by simp) (by simp) (by simpa using h)).1

/-- The text `(a (b)) c ()`. -/
def sexpSample : List Nat := [40, 97, 32, 40, 98, 41, 41, 32, 99, 32, 40, 41]

/-- Its expressions. -/
def sexpValue : Sexps :=
  .cons (.list (.cons .atom (.cons (.list (.cons .atom .nil)) .nil))) (.cons .atom (.cons (.list .nil) .nil))

example : (lex (ruleLexer sexpLexRules) sexpSample).map sexpTypesOf = some sexpValue.tokens ∧
    sexpValue.tokens = [101, 103, 101, 103, 102, 102, 103, 101, 102] ∧
    typesOf ((sexpDefinition (ruleLexer sexpLexRules)).parse 300 sexpSample) =
      [104, 105, 101, 103, 100, 105, 101, 103, 102, 102, 100, 103, 100, 105, 101, 102] := by
  refine ⟨?_, ?_, ?_⟩ <;> decide +kernel

/-- `(a` and `a)` have errors. -/
example : erroneous ((sexpDefinition (ruleLexer sexpLexRules)).parse 300 [40, 97]) = some true ∧
    erroneous ((sexpDefinition (ruleLexer sexpLexRules)).parse 300 [97, 41]) = some true ∧
    erroneous ((sexpDefinition (ruleLexer sexpLexRules)).parse 300 sexpSample) = some false := by
  refine ⟨?_, ?_, ?_⟩ <;> decide +kernel

end Fall
