import Verif.Lemmas.JsonFile
import Verif.Props.Total
import Verif.Props.LexRules

/-!
C93: JSON is what the parser for JSON reads without errors.
-/

namespace Fall

open Spec

/-- The types of the tokens that are not whitespace. -/
def jsonTypesOf (tokens : List Token) : List NodeType := (tokens.filter fun t => !jsonIsWs t.ty).map (·.ty)

/-- C93. A parsed file has no ERROR, neither a node nor a token, if and only if its tokens are those of a JSON document:
an object or an array, with commas between fields and elements and none behind the last one. -/
theorem C93_json (lexer : Lexer Nat) (hp : Progress lexer) (n : Nat) (text : List Nat) (file : File Nat)
    (data : Definition.IncrementalData) (h : (jsonDefinition lexer).parse n text = .ok (file, data))
    (tokens : List Token) (ht : IsLexing lexer text tokens) :
    (∀ m : Nat, file.ty m ≠ some ERROR) ↔ ∃ v : Json, v.Proper ∧ v.Document ∧ jsonTypesOf tokens = v.tokens := by
  obtain ⟨t, kids, plain, h1, _, _, h4, h5⟩ := JsonParse.parse_iff hp h
  obtain rfl := h1.unique ht
  exact ⟨h4, fun ⟨v, hv, hd, hts⟩ => (h5 v hv hd hts).2⟩

/-- C93. The file of a document has a node for each primitive value, object, field and array, at its place, with the
tokens of it in it; whitespace is between them. -/
theorem C93_tree (lexer : Lexer Nat) (hp : Progress lexer) (n : Nat) (text : List Nat) (file : File Nat)
    (data : Definition.IncrementalData) (h : (jsonDefinition lexer).parse n text = .ok (file, data))
    (tokens : List Token) (ht : IsLexing lexer text tokens) (v : Json) (hv : v.Proper) (hd : v.Document)
    (hts : jsonTypesOf tokens = v.tokens) :
    ∃ ops, newFile text ops = some file ∧ Places jsonIsWs (.start 111 none :: (v.tree ++ [.fin])) tokens ops := by
  obtain ⟨t, kids, plain, h1, h2, h3, _, h5⟩ := JsonParse.parse_iff hp h
  obtain rfl := h1.unique ht
  obtain ⟨rfl, _⟩ := h5 v hv hd hts
  exact ⟨_, h2, h3⟩

/-- C93. A text that begins with a bracket is parsed, with errors if it is not a document; on any other text the parser
panics. -/
theorem C93_parses (lexer : Lexer Nat) (hp : Progress lexer) (text : List Nat) (tokens : List Token)
    (ht : IsLexing lexer text tokens) :
    if (jsonTypesOf tokens).head? = some 101 ∨ (jsonTypesOf tokens).head? = some 103 then
      ∃ file data, ∀ n, (text.length + 1) * 13 + 2 ≤ n → (jsonDefinition lexer).parse n text = .ok (file, data)
    else ∀ n, (text.length + 1) * 13 + 2 ≤ n → (jsonDefinition lexer).parse n text = .panic := by
  obtain ⟨ts, h1, h2, h3, h4⟩ := C10_lex_tiles lexer hp text
  obtain rfl := h2.unique ht
  have h1' : lex (jsonDefinition lexer).lexer text = some ts := h1
  have hin : Input (Env.new none (jsonDefinition lexer).grammar (jsonDefinition lexer).isWs text ts) _
      (jsonTypesOf ts) := input_start
  have hn : ∀ n, (text.length + 1) * 13 + 2 ≤ n → ((Env.new none (jsonDefinition lexer).grammar
      (jsonDefinition lexer).isWs text ts).nonWs.length + 1) * 13 + 2 ≤ n := by
    intro n hn
    have h5 : (Env.new none (jsonDefinition lexer).grammar (jsonDefinition lexer).isWs text ts).nonWs.length ≤ ts.length :=
      nonWs_length_le
    have h6 := length_le_sum h4
    omega
  split
  · rename_i hb
    obtain ⟨⟨es, ticks⟩, hs⟩ := JsonParse.parse_goes rfl rfl (Parser.envOk_new (Nat.le_of_eq h3)) hin hb _
      (hn _ (Nat.le_refl _))
    obtain ⟨t, kids, h5, h6⟩ := parseTokens_of_synParse (d := jsonDefinition lexer) (ty := 12) (body := 14) rfl
      (fun _ _ _ => Nat.zero_le _) h4 h3 (plainStrings_of_lexer (json_spaceless lexer) h2 none)
      (Linked.linksOk (by exact json_linked)) hs
    obtain ⟨f, h8, _⟩ := C14_build_consistent _ (forest_singleRoot t kids) text h5.symm
    refine ⟨f, ⟨ts, es⟩, fun m hm => ?_⟩
    have hm' := h6 m (by
      rcases synParse_le (Env.new none (jsonDefinition lexer).grammar (jsonDefinition lexer).isWs text ts) hm with h | h
      · rw [hs] at h; cases h
      · rw [h, hs])
    simp only [Definition.parse, h1', Result.ofOption, bind, Result.bind, hm', h8, pure]
  · rename_i hb
    intro n hle
    have hs := JsonParse.parse_panics rfl rfl hin hb n (hn n hle)
    simp only [Definition.parse, Definition.parseTokens, h1', Result.ofOption, bind, Result.bind, hs]
    cases (jsonDefinition lexer).fileTy <;> rfl

/-- C93. There is only one way to read the tokens. -/
theorem C93_unique (v w : Json) (hv : v.Proper) (hw : w.Proper) (h : v.tokens = w.tokens) : v = w :=
  (JsonParse.json_inj v w hv hw [] [] (by rw [h])).1

/-- `{"a": [1, null], "b": {}}` -/
def jsonText : List Nat :=
  [123, 34, 97, 34, 58, 32, 91, 49, 44, 32, 110, 117, 108, 108, 93, 44, 32, 34, 98, 34, 58, 32, 123, 125, 125]

/-- Its value. -/
def jsonValue : Json :=
  .object (.cons (.array (.cons (.primitive 110) (.cons (.primitive 107) .nil))) (.cons (.object .nil) .nil))

example : jsonValue.Proper ∧ jsonValue.Document ∧
    ((lex (ruleLexer jsonLexRules) jsonText).map jsonTypesOf = some jsonValue.tokens) ∧
    jsonValue.tokens = [101, 109, 105, 103, 110, 106, 107, 104, 106, 109, 105, 101, 102, 102] := by
  refine ⟨?_, trivial, by decide +kernel, by decide⟩
  simp [jsonValue, Json.Proper, Jsons.Proper]

/-- A number is not parsed. -/
example : (jsonDefinition (ruleLexer jsonLexRules)).parse 100 [49] = .panic := by decide +kernel

/-- `jsonText` is parsed, and has no ERROR. -/
example : ∃ file data, (jsonDefinition (ruleLexer jsonLexRules)).parse 100 jsonText = .ok (file, data) ∧
    ∀ d ∈ file.nodes, d.ty ≠ ERROR := by
  have key : (match (jsonDefinition (ruleLexer jsonLexRules)).parse 100 jsonText with
    | .ok (file, _) => file.nodes.all fun d => d.ty != ERROR
    | _ => false) = true := by decide +kernel
  split at key
  · rename_i file data h
    exact ⟨file, data, h, fun d hd => by simpa using List.all_eq_true.1 key d hd⟩
  · cases key

/-- A comma behind the last element, as in `[1,]`, is an error. -/
example : ∃ file data, (jsonDefinition (ruleLexer jsonLexRules)).parse 100 [91, 49, 44, 93] = .ok (file, data) ∧
    ∃ d ∈ file.nodes, d.ty = ERROR := by
  have key : (match (jsonDefinition (ruleLexer jsonLexRules)).parse 100 [91, 49, 44, 93] with
    | .ok (file, _) => file.nodes.any fun d => d.ty == ERROR
    | _ => false) = true := by decide +kernel
  split at key
  · rename_i file data h
    obtain ⟨d, hd, he⟩ := List.any_eq_true.1 key
    exact ⟨file, data, h, d, hd, by simpa using he⟩
  · cases key

end Fall
