import Verif.Lemmas.Parens
import Verif.Props.Sexp
import Verif.Props.Total

/-!
C103: which texts are read without errors by the parser for symbolic expressions, said without tokens.
-/

namespace Fall

open Spec

/-- C103. Every ASCII text is parsed, and the file has no ERROR, neither a node nor a token, if and only if the text
consists of blanks, parentheses, letters, digits and underscores, nowhere more parentheses have been closed than opened,
and at the end as many. -/
theorem C103_text (lexer : Lexer Nat) (hl : LexesAscii sexpLexRules lexer) (text : List Nat) (ha : Ascii text) :
    ∃ file data, (∀ n, (text.length + 1) * 10 + 2 ≤ n → (sexpDefinition lexer).parse n text = .ok (file, data)) ∧
      ((∀ m : Nat, file.ty m ≠ some ERROR) ↔ (∀ c ∈ text, SexpChar c) ∧ ParensMatch text) := by
  obtain ⟨file, data, h, -⟩ := C34_sexp_total lexer hl.progress text
  obtain ⟨tokens, ht⟩ := IsLexing.exists hl.progress text
  refine ⟨file, data, h, ?_⟩
  rw [C99_sexp lexer hl.progress _ text file data (h _ (Nat.le_refl _)) tokens ht, Parens.sexps_iff]
  obtain ⟨h1, h2⟩ := Parens.lexing hl tokens text ha ht
  have h3 : Parens.scan 40 41 0 text = some 0 ↔ ParensMatch text := by
    rw [Parens.scan_some (by decide)]
    simp [ParensMatch]
  constructor
  · rintro ⟨h4, h5⟩
    have hc := h1.1 h4
    exact ⟨hc, h3.1 ((h2 hc 0).symm.trans h5)⟩
  · rintro ⟨hc, h5⟩
    exact ⟨h1.2 hc, (h2 hc 0).trans (h3.2 h5)⟩

theorem parensMatch_append {a b : List Nat} (ha : ParensMatch a) (hb : ParensMatch b) : ParensMatch (a ++ b) := by
  refine ⟨fun k => ?_, by rw [List.count_append, List.count_append, ha.2, hb.2]⟩
  rw [List.take_append, List.count_append, List.count_append]
  exact Nat.add_le_add (ha.1 k) (hb.1 _)

/-- C103. Files without errors can be joined, also without a blank between them: the result has no errors. -/
theorem C103_append (lexer : Lexer Nat) (hl : LexesAscii sexpLexRules lexer) (a b : List Nat) (ha : Ascii a)
    (hb : Ascii b) (n : Nat) (fileA fileB fileC : File Nat) (dataA dataB dataC : Definition.IncrementalData)
    (h1 : (sexpDefinition lexer).parse n a = .ok (fileA, dataA))
    (h2 : (sexpDefinition lexer).parse n b = .ok (fileB, dataB))
    (h3 : (sexpDefinition lexer).parse n (a ++ b) = .ok (fileC, dataC)) (hn : ((a ++ b).length + 1) * 10 + 2 ≤ n)
    (hA : ∀ m : Nat, fileA.ty m ≠ some ERROR) (hB : ∀ m : Nat, fileB.ty m ≠ some ERROR) (m : Nat) :
    fileC.ty m ≠ some ERROR := by
  rw [List.length_append] at hn
  obtain ⟨f, d, g1, i1⟩ := C103_text lexer hl a ha
  obtain ⟨f', d', g2, i2⟩ := C103_text lexer hl b hb
  obtain ⟨f'', d'', g3, i3⟩ := C103_text lexer hl (a ++ b)
    (fun c hc => (List.mem_append.1 hc).elim (ha c) (hb c))
  have e1 := (g1 n (by omega)).symm.trans h1
  have e2 := (g2 n (by omega)).symm.trans h2
  have e3 := (g3 n (by rw [List.length_append]; omega)).symm.trans h3
  obtain ⟨rfl, rfl⟩ : f = fileA ∧ d = dataA := by simpa using e1
  obtain ⟨rfl, rfl⟩ : f' = fileB ∧ d' = dataB := by simpa using e2
  obtain ⟨rfl, rfl⟩ : f'' = fileC ∧ d'' = dataC := by simpa using e3
  obtain ⟨c1, p1⟩ := i1.1 hA
  obtain ⟨c2, p2⟩ := i2.1 hB
  exact i3.2 ⟨fun c hc => (List.mem_append.1 hc).elim (c1 c) (c2 c), parensMatch_append p1 p2⟩ m

/-- The lexer of the model applies the rules. -/
theorem sexp_lexes : LexesAscii sexpLexRules (ruleLexer sexpLexRules) :=
  (ruleLexer_longest fun r hr text => find_plain (by revert r; decide) text).ascii

/-- `(a (b)) c ()` is read without errors. -/
example : ∃ file data, (sexpDefinition (ruleLexer sexpLexRules)).parse 300 sexpSample = .ok (file, data) ∧
    ∀ m : Nat, file.ty m ≠ some ERROR := by
  obtain ⟨file, data, h, hi⟩ := C103_text _ sexp_lexes sexpSample (by unfold Ascii; decide)
  exact ⟨file, data, h 300 (by decide), hi.2 ⟨by unfold SexpChar; decide, by
    rw [show ParensMatch sexpSample ↔ Parens.scan 40 41 0 sexpSample = some 0 by
      rw [Parens.scan_some (by decide)]; simp [ParensMatch]]
    decide⟩⟩

/-- `)(` has as many parentheses of both kinds, but they do not match. -/
example : ¬ ParensMatch [41, 40] := fun h => absurd (h.1 1) (by decide)

/-- `a+` is not made of the characters of expressions. -/
example : ¬ ∀ c ∈ [97, 43], SexpChar c := fun h => absurd (h 43 (by simp)) (by unfold SexpChar; decide)

end Fall
