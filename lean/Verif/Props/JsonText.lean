import Verif.Lemmas.JsonText
import Verif.Props.Json

/-!
C105: which texts are read without errors by the parser for JSON, said without tokens.
-/

namespace Fall

open Spec

/-- The tokens of a text that is a document. -/
theorem JsonWritten.types_of_document {lexer : Lexer Nat} (hl : LexesAscii jsonLexRules lexer) {text : List Nat}
    (ha : Ascii text) (h : JsonDocument text) {tokens : List Token} (ht : IsLexing lexer text tokens) :
    ∃ v : Json, v.Proper ∧ v.Document ∧ jsonTypesOf tokens = v.tokens := by
  obtain ⟨v, h1, h2, ps, g1, g2, rfl, g4⟩ := JsonWritten.has_document h
  obtain ⟨qs, i1, i2, i3, i4⟩ := JsonWritten.tidy ps g1 g2
  rw [← i3] at ha ht
  exact ⟨v, h1, h2, (JsonWritten.lexing hl qs i1 i2 ha tokens ht).trans (i4.trans g4)⟩

/-- C105. An ASCII text that is parsed as JSON has no ERROR, neither a node nor a token, if and only if it is an object
or an array, with blanks around it: fields and elements with commas between them and none behind the last one, names
that are strings, values that are `null`, `true`, `false`, strings without quotes in them, sequences of digits, objects
and arrays, and blanks between all of these. -/
theorem C105_text (lexer : Lexer Nat) (hl : LexesAscii jsonLexRules lexer) (n : Nat) (text : List Nat)
    (ha : Ascii text) (file : File Nat) (data : Definition.IncrementalData)
    (h : (jsonDefinition lexer).parse n text = .ok (file, data)) :
    (∀ m : Nat, file.ty m ≠ some ERROR) ↔ JsonDocument text := by
  obtain ⟨tokens, ht⟩ := IsLexing.exists hl.progress text
  rw [C93_json lexer hl.progress n text file data h tokens ht]
  constructor
  · rintro ⟨v, hv, hd, hts⟩
    have hts : JsonWritten.significant tokens = v.tokens := hts
    obtain ⟨ps, g1, g2, rfl⟩ := JsonWritten.pieces hl tokens text ha ht fun t htm he => by
      refine JsonWritten.types_json v hv ERROR ?_ rfl
      rw [← hts]
      exact List.mem_map.2 ⟨t, List.mem_filter.2 ⟨htm, by simp [he, jsonIsWs, ERROR]⟩, he⟩
    obtain ⟨a, b, c, e, h1, h2, _, h3⟩ := JsonWritten.text_value v hv ps g1 (g2.trans hts)
    exact ⟨a, b, c, e, h1, h3 hd, h2⟩
  · exact fun hj => JsonWritten.types_of_document hl ha hj ht

/-- C105. All these texts are parsed, in a number of steps that grows with the length of the text only, and without
errors. -/
theorem C105_parses (lexer : Lexer Nat) (hl : LexesAscii jsonLexRules lexer) (text : List Nat) (ha : Ascii text)
    (hj : JsonDocument text) :
    ∃ file data, (∀ n, (text.length + 1) * 13 + 2 ≤ n → (jsonDefinition lexer).parse n text = .ok (file, data)) ∧
      ∀ m : Nat, file.ty m ≠ some ERROR := by
  obtain ⟨tokens, ht⟩ := IsLexing.exists hl.progress text
  obtain ⟨v, hv, hd, hts⟩ := JsonWritten.types_of_document hl ha hj ht
  have hp := C93_parses lexer hl.progress text tokens ht
  rw [if_pos (by
    rw [hts]
    cases v with
    | primitive ty => exact hd.elim
    | object fields => exact .inl rfl
    | array elements => exact .inr rfl)] at hp
  obtain ⟨file, data, hp⟩ := hp
  exact ⟨file, data, hp, (C105_text lexer hl _ text ha file data (hp _ (Nat.le_refl _))).2 hj⟩

/-- The lexer of the model applies the rules. -/
theorem json_lexes : LexesAscii jsonLexRules (ruleLexer jsonLexRules) :=
  (ruleLexer_longest fun r hr text => find_plain (by revert r; decide) text).ascii

/-- `{"a": [1, null], "b": {}}` is a document. -/
theorem json_text_example : JsonDocument jsonText := by
  have hb : BlankText [32] := by simp [BlankText, BlankChar]
  have he : BlankText [] := by simp [BlankText]
  have q1 : QuotedText [34, 97, 34] := ⟨[97], rfl, by simp⟩
  have q2 : QuotedText [34, 98, 34] := ⟨[98], rfl, by simp⟩
  have e1 : JsonElements ([] ++ ([49] ++ ([] ++ 44 :: ([32] ++ ([110, 117, 108, 108] ++ []))))) :=
    .more he (.number (by simp) (by simp [DecimalDigit])) he (.one hb .null he)
  have f : JsonFields ([] ++ ([34, 97, 34] ++ ([] ++ 58 :: ([32] ++ (_ ++ ([] ++ 44 :: ([32] ++ ([34, 98, 34] ++ ([] ++
    58 :: ([32] ++ ((123 :: ([] ++ [125])) ++ []))))))))))) :=
    .more he q1 he hb (.block (.array e1)) he (.one hb q2 he hb (.block (.emptyObject he)) he)
  exact ⟨[], _, [], rfl, he, .object f, he⟩

example : ∃ file data, (∀ n, 340 ≤ n → (jsonDefinition (ruleLexer jsonLexRules)).parse n jsonText = .ok (file, data)) ∧
    ∀ m : Nat, file.ty m ≠ some ERROR :=
  C105_parses _ json_lexes jsonText (by unfold Ascii; decide) json_text_example

/-- `[1,]` is not a document: it is parsed with an error. -/
example : ¬ JsonDocument [91, 49, 44, 93] := by
  intro hj
  have key : (match (jsonDefinition (ruleLexer jsonLexRules)).parse 100 [91, 49, 44, 93] with
    | .ok (file, _) => file.nodes.any fun d => d.ty == ERROR
    | _ => false) = true := by decide +kernel
  split at key
  · rename_i file data h
    have hne := (C105_text _ json_lexes 100 _ (by unfold Ascii; decide) file data h).2 hj
    obtain ⟨d, hd, he⟩ := List.any_eq_true.1 key
    obtain ⟨m, hm, rfl⟩ := List.getElem_of_mem hd
    exact hne m (by simp [File.ty, File.data, hm]; simpa using he)
  · cases key

end Fall
