import Verif.Lemmas.ArithText
import Verif.Props.Arith
import Verif.Props.Json

/-!
C104: which texts are read without errors by the parser for arithmetic, said without tokens.
-/

namespace Fall

open Spec

/-- C104. An ASCII text that is parsed as arithmetic has no ERROR, neither a node nor a token, if and only if it is a
number, a sum, a difference, a product, a quotient, a negation, a factorial or an expression in parentheses of such
texts, or one of them with blanks around it. -/
theorem C104_text (lexer : Lexer Nat) (hl : LexesAscii arithLexRules lexer) (n : Nat) (text : List Nat)
    (ha : Ascii text) (file : File Nat) (data : Definition.IncrementalData)
    (h : (arithDefinition lexer).parse n text = .ok (file, data)) :
    (∀ m : Nat, file.ty m ≠ some ERROR) ↔ ArithText text := by
  obtain ⟨tokens, ht⟩ := IsLexing.exists hl.progress text
  rw [C100_arith lexer hl.progress n text file data h tokens ht]
  obtain ⟨h1, h2⟩ := ArithWritten.lexing hl tokens text ha ht
  constructor
  · rintro ⟨a, hts⟩
    have hts : ArithWritten.significant tokens = a.tokens := hts
    obtain ⟨ps, g1, g2, rfl⟩ := h2 fun t htm he => by
      refine ArithWritten.types_arith a ERROR ?_ rfl
      rw [← hts]
      exact List.mem_map.2 ⟨t, List.mem_filter.2 ⟨htm, by simp [he, arithIsWs, ERROR]⟩, he⟩
    exact ArithWritten.text_of_tokens a ps g1 (g2.trans hts)
  · intro ht
    obtain ⟨a, e⟩ := ArithWritten.emit_text ht
    exact ⟨a, (h1 (ArithWritten.allowed_text ht)).trans e⟩

/-- C104. Such texts are parsed: with enough steps there is a file, always the same, and it has no ERROR. -/
theorem C104_parses (lexer : Lexer Nat) (hl : LexesAscii arithLexRules lexer) (text : List Nat) (ha : Ascii text)
    (hw : ArithText text) : ∃ N file data, (∀ n, N ≤ n → (arithDefinition lexer).parse n text = .ok (file, data)) ∧
      ∀ m : Nat, file.ty m ≠ some ERROR := by
  obtain ⟨ts, h1, h2, h3, h4⟩ := C10_lex_tiles lexer hl.progress text
  have h1' : lex (arithDefinition lexer).lexer text = some ts := h1
  obtain ⟨a0, e0⟩ := ArithWritten.emit_text hw
  obtain ⟨a, hpr, e⟩ := Arithmetic.regroup a0
  have hts : ArithWritten.significant ts = a.tokens :=
    (((ArithWritten.lexing hl ts text ha h2).1 (ArithWritten.allowed_text hw)).trans e0).trans e.symm
  obtain ⟨N, es, ticks, hs, -⟩ := C40_arith_round_trip a hpr text ts h3 hts
  have hs : synParse (Env.new none (arithDefinition lexer).grammar (arithDefinition lexer).isWs text ts) N =
    .ok (es, ticks) := hs
  obtain ⟨t, kids, h5, h6⟩ := parseTokens_of_synParse (d := arithDefinition lexer) (ty := 10) (body := 9) rfl
    (fun _ _ _ => Nat.zero_le _) h4 h3 (plainStrings_of_lexer (Arithmetic.spaceless lexer) h2 none)
    (Linked.linksOk (by exact arith_linked)) hs
  obtain ⟨f, h8, _⟩ := C14_build_consistent _ (forest_singleRoot t kids) text h5.symm
  have hall : ∀ n, N ≤ n → (arithDefinition lexer).parse n text = .ok (f, ⟨ts, es⟩) := fun m hm => by
    have hm' := h6 m (by
      rcases synParse_le (Env.new none (arithDefinition lexer).grammar (arithDefinition lexer).isWs text ts) hm with h | h
      · rw [hs] at h; cases h
      · rw [h, hs])
    simp only [Definition.parse, h1', Result.ofOption, bind, Result.bind, hm', h8, pure]
  exact ⟨N, f, _, hall, (C104_text lexer hl N text ha f _ (hall N (Nat.le_refl _))).2 hw⟩

/-- The lexer of the model applies the rules. -/
theorem arith_lexes : LexesAscii arithLexRules (ruleLexer arithLexRules) :=
  (ruleLexer_longest fun r hr text => find_plain (by revert r; decide) text).ascii

/-- `12 * (-3!)`, an expression. -/
theorem arith_text_example : ArithText [49, 50, 32, 42, 32, 40, 45, 51, 33, 41] := by
  have n1 : ArithText [49, 50] := .number (by simp) (by simp [DecimalDigit])
  have n2 : ArithText [51] := .number (by simp) (by simp [DecimalDigit])
  have a1 : ArithText ([49, 50] ++ [32]) := .after (.inr rfl) n1
  have a2 : ArithText (32 :: 40 :: ((45 :: ([51] ++ [33])) ++ [41])) := .before (.inr rfl) (.paren (.neg (.fact n2)))
  exact .times a1 a2

example : ∃ N file data, (∀ n, N ≤ n → (arithDefinition (ruleLexer arithLexRules)).parse n
    [49, 50, 32, 42, 32, 40, 45, 51, 33, 41] = .ok (file, data)) ∧ ∀ m : Nat, file.ty m ≠ some ERROR :=
  C104_parses _ arith_lexes _ (by unfold Ascii; decide) arith_text_example

/-- It is parsed, and there are no errors. -/
example : ∃ file data, (arithDefinition (ruleLexer arithLexRules)).parse 400 [49, 50, 32, 42, 32, 40, 45, 51, 33, 41] =
    .ok (file, data) ∧ ∀ m : Nat, file.ty m ≠ some ERROR := by
  have he : erroneous ((arithDefinition (ruleLexer arithLexRules)).parse 400
      [49, 50, 32, 42, 32, 40, 45, 51, 33, 41]) = some false := by decide +kernel
  cases hp : (arithDefinition (ruleLexer arithLexRules)).parse 400 [49, 50, 32, 42, 32, 40, 45, 51, 33, 41] with
  | ok r => exact ⟨r.1, r.2, rfl, (C104_text _ arith_lexes 400 _ (by unfold Ascii; decide) r.1 r.2 hp).2 arith_text_example⟩
  | _ => rw [hp] at he; cases he

/-- `1 2` is not an expression: there is an error. -/
example : ¬ ArithText [49, 32, 50] := by
  intro h
  have he : erroneous ((arithDefinition (ruleLexer arithLexRules)).parse 400 [49, 32, 50]) = some true := by
    decide +kernel
  cases hp : (arithDefinition (ruleLexer arithLexRules)).parse 400 [49, 32, 50] with
  | ok r =>
    have := (C104_text _ arith_lexes 400 _ (by unfold Ascii; decide) r.1 r.2 hp).2 h
    rw [hp] at he
    simp only [erroneous, Option.some.injEq, List.any_eq_true, beq_iff_eq] at he
    obtain ⟨d, hd, e⟩ := he
    obtain ⟨m, hm, rfl⟩ := List.getElem_of_mem hd
    exact this m (by simp [File.ty, File.data, hm, e])
  | _ => rw [hp] at he; cases he

end Fall
