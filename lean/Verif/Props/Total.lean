import Verif.Lemmas.Total
import Verif.Model.Languages
import Verif.Props.Static

/-!
When parsing cannot fail.
-/

namespace Fall

open Spec Convert

/-! C33: no panics. -/

/-- The parser does not panic on any text and tokens if the grammar is safe: what may be run exists, node types,
contexts and parameters are in range, parameters have values when they are used, nodes are not linked or replaced in
lookahead, what is linked begins with a node, and the start rule is public and cannot fail. -/
theorem C33_safe_no_panic {g : Grammar} (hs : Safe g) (isWs : NodeType → Bool) (text : List Nat) (tokens : List Token)
    (hlen : (tokens.map (·.len)).sum ≤ text.length) (n : Nat) : synParse (Env.new none g isWs text tokens) n ≠ .panic :=
  Parser.synParse_safe (Parser.envOk_new hlen) hs n

/-- A text is parsed to a lossless tree, whatever it is, if the grammar is safe and terminating, the nodes that
are to be moved into a following node have one, the lexer makes progress, the binder does not ask for more whitespace
than there is, and strings in the grammar do not contain whitespace. -/
theorem C33_parse_total (d : Definition) {R ty body : Nat} (hsafe : Safe d.grammar) (hlink : Linked d.grammar)
    (hterm : Terminating d.grammar R) (hstart : d.rules[0]? = some (.pub ty body false)) (hp : Progress d.lexer)
    (hb : BoundedBinder d.binder) (hs : SpacelessStrings d) (text : List Nat) :
    ∃ file data, (∀ n, (text.length + 1) * (R + 1) + 2 ≤ n → d.parse n text = .ok (file, data)) ∧
      ConsistentFile file ∧ file.text = text ∧ file.textOf 0 = some text ∧
      (∃ l leaves ts, file.subtree 0 = some l ∧ leaves = l.filter (fun m => file.children m == some []) ∧
        leaves.mapM file.textOf = some ts ∧ ts.flatten = text) ∧
      file.ty 0 = d.nodeTypes[ty]? := by
  obtain ⟨ts, h1, h2, h3, h4⟩ := C10_lex_tiles d.lexer hp text
  obtain ⟨t, kids, es, h5, h6⟩ := parseTokens_total hsafe hlink hterm hstart hb h4 h3 (plainStrings_of_lexer hs h2 none)
  obtain ⟨f, h8, _⟩ := C14_build_consistent _ (forest_singleRoot t kids) text h5.symm
  have key : ∀ n, (text.length + 1) * (R + 1) + 2 ≤ n → d.parse n text = .ok (f, ⟨ts, es⟩) := by
    intro n hn
    simp only [Definition.parse, h1, Result.ofOption, bind, Result.bind, h6 n hn, h8, pure]
  exact ⟨f, _, key, C31_parse_lossless d hp ty body hstart hb hs _ text f _ (key _ (Nat.le_refl _))⟩

example : ∃ g : Grammar, Safe g ∧ Linked g ∧ Terminating g 35 ∧ g.rules.length = 1417 :=
  ⟨rustGrammar, Check.rust_safe.1, Check.rust_safe.2, Check.rust_terminating, by decide +kernel⟩

/-- Grammars that break one of the conditions of `Safe` each, and a number of tokens. The types of nodes are 5 and 6,
tokens have type 6. -/
def unsafeGrammars : List (List Expr × Nat) := [
  -- the start rule may fail
  ([.pub 0 1 false, .token 1], 0),
  -- there is no such rule
  ([.pub 0 5 false], 0),
  -- there is no such type
  ([.pub 0 1 false, .opt 2, .token 7], 1),
  ([.pub 0 1 false, .opt 2, .contextualToken 7 [97]], 1),
  ([.pub 0 1 false, .opt 2, .pub 7 3 false, .any], 1),
  ([.pub 0 1 false, .opt 2, .pub 0 3 true, .pubReplace 7 4, .any], 1),
  ([.pub 0 1 false, .opt 2, .and [3, 5] none, .pub 0 4 false, .any, .prevIs [7]], 1),
  ([.pub 0 1 false, .opt 2, .pratt ⟨[3], [⟨7, 4, 1⟩], []⟩, .token 0, .any], 2),
  ([.pub 0 1 false, .opt 2, .pratt ⟨[3], [], [⟨7, 4, 1, false⟩]⟩, .pub 0 4 false, .any], 2),
  -- there are only 16 contexts
  ([.pub 0 1 false, .opt 2, .enter 16 3, .any], 1),
  ([.pub 0 1 false, .opt 2, .exit 16 3, .any], 1),
  ([.pub 0 1 false, .opt 2, .isIn 16], 1),
  -- there are only 16 parameters
  ([.pub 0 1 false, .opt 2, .call 3 [(16, 3)], .any], 1),
  -- an argument that does not exist
  ([.pub 0 1 false, .opt 2, .call 3 [(0, 9)], .any], 1),
  -- parameters without a value
  ([.pub 0 1 false, .opt 2, .var 0], 1),
  ([.pub 0 1 false, .opt 2, .call 3 [(0, 4)], .any, .var 1], 1),
  -- a node is replaced in lookahead
  ([.pub 0 1 false, .opt 2, .not 3, .pub 0 4 true, .pubReplace 1 5, .any], 1),
  -- nodes are linked in lookahead
  ([.pub 0 1 false, .opt 2, .not 3, .pratt ⟨[4], [], [⟨0, 5, 1, false⟩]⟩, .pub 0 5 false, .any], 2),
  ([.pub 0 1 false, .opt 2, .not 3, .inject 4 4, .pub 0 5 false, .any], 2),
  -- an operand or prefix that does not begin with a node
  ([.pub 0 1 false, .opt 2, .pratt ⟨[3], [], [⟨0, 3, 1, false⟩]⟩, .any], 2),
  ([.pub 0 1 false, .opt 2, .inject 3 4, .any, .pub 0 3 false], 2)]

/-- The conditions of `Safe` are needed: without them there are texts for which the parser panics, with any budget
that is large enough. -/
theorem C33_conditions_counterexample : ∀ x ∈ unsafeGrammars, ∀ n, 10 ≤ n →
    synParse (Env.new none ⟨[5, 6], x.1, 0⟩ (fun _ => false) (List.replicate x.2 97) (List.replicate x.2 ⟨6, 1⟩)) n =
      .panic := by
  have key : ∀ x ∈ unsafeGrammars, synParse (Env.new none ⟨[5, 6], x.1, 0⟩ (fun _ => false) (List.replicate x.2 97)
      (List.replicate x.2 ⟨6, 1⟩)) 10 = .panic := by decide +kernel
  intro x hx n hn
  rcases synParse_le (Env.new none ⟨[5, 6], x.1, 0⟩ (fun _ => false) (List.replicate x.2 97)
    (List.replicate x.2 ⟨6, 1⟩)) hn with h | h
  · rw [key x hx] at h; cases h
  · rw [h, key x hx]

/-- A definition with the given rules and one token for each byte. -/
def unlinked (rules : List Expr) : Definition := ⟨[5, 6], rules, fun _ _ _ => 0, fun _ => ⟨6, 1⟩, fun _ => false⟩

/-- The conditions of `Linked` are needed. A prefix without something to be put into is a dangling link, which panics
when the tree is built. An empty operand is linked to itself, and the tree is never finished. -/
theorem C33_links_counterexample :
    (unlinked [.pub 0 1 false, .opt 2, .inject 3 4, .pub 0 5 false, .opt 6, .any, .token 0]).parse 10 [97] = .panic ∧
    (unlinked [.pub 0 1 false, .opt 2, .inject 3 5, .pub 0 5 false, .any, .any]).parse 10 [97, 97] = .panic ∧
    (unlinked [.pub 0 1 false, .opt 2, .pratt ⟨[3], [], [⟨0, 4, 1, false⟩]⟩, .opt 5, .any, .pub 0 6 false,
      .token 0]).parse 10 [97] = .timeout := by
  refine ⟨?_, ?_, ?_⟩ <;> decide +kernel

/-! C34: the shipped grammars. -/

/-- For every text, parsing completes with the given budget, and gives a lossless tree with a root of type `root`. -/
def ParsesAll (d : Definition) (root : NodeType) (budget : List Nat → Nat) : Prop :=
  ∀ text : List Nat, ∃ file data, (∀ n, budget text ≤ n → d.parse n text = .ok (file, data)) ∧
    ConsistentFile file ∧ file.text = text ∧ file.textOf 0 = some text ∧
    (∃ l leaves ts, file.subtree 0 = some l ∧ leaves = l.filter (fun m => file.children m == some []) ∧
      leaves.mapM file.textOf = some ts ∧ ts.flatten = text) ∧
    file.ty 0 = some root

/-- Every text is parsed as a list of S-expressions to a lossless tree. -/
theorem C34_sexp_total (lexer : Lexer Nat) (hp : Progress lexer) :
    ParsesAll (sexpDefinition lexer) 104 fun text => (text.length + 1) * 10 + 2 := by
  intro text
  have hs : SpacelessStrings (sexpDefinition lexer) := by
    intro ty w h
    simp [sexpDefinition, Definition.plain, sexpGrammar, sexpRules] at h
  exact C33_parse_total (sexpDefinition lexer) (R := 9) Check.sexp_safe.1 Check.sexp_safe.2 Check.sexp_terminating
    (ty := 5) (body := 5) rfl hp (fun _ _ _ => Nat.zero_le _) hs text

/-- Every text is parsed as a grammar in Backus-Naur form to a lossless tree. -/
theorem C34_bnf_total (lexer : Lexer Nat) (hp : Progress lexer) :
    ParsesAll (bnfDefinition lexer) 105 fun text => (text.length + 1) * 11 + 2 := by
  intro text
  have hs : SpacelessStrings (bnfDefinition lexer) := by
    intro ty w h
    simp [bnfDefinition, Definition.plain, bnfGrammar, bnfRules] at h
  exact C33_parse_total (bnfDefinition lexer) (R := 10) Check.bnf_safe.1 Check.bnf_safe.2 Check.bnf_terminating
    (ty := 6) (body := 9) rfl hp (fun _ _ _ => Nat.zero_le _) hs text

/-- Every text is parsed as a grammar of the Fall language to a lossless tree. -/
theorem C34_fall_total (lexer : Lexer Nat) (hp : Progress lexer) (hw : BlankStart fallIsWs lexer) :
    ParsesAll (fallDefinition lexer) 131 fun text => (text.length + 1) * 17 + 2 := by
  intro text
  have hs : SpacelessStrings (fallDefinition lexer) := spaceless_of_visible (show visible fallGrammar.rules = true by decide +kernel) hw
  exact C33_parse_total (fallDefinition lexer) (R := 16) Check.fall_safe.1 Check.fall_safe.2 Check.fall_terminating
    (ty := 32) (body := 37) rfl hp (fun _ _ _ => Nat.zero_le _) hs text

/-- The binder of the parser for Rust is bounded. -/
theorem rustBinder_bounded : BoundedBinder rustBinder := by
  intro ty spaces leading
  unfold rustBinder
  split
  · exact Nat.zero_le _
  · split
    · refine Nat.le_trans (List.takeWhile_prefix _).length_le ?_
      simp
    · exact Nat.zero_le _

/-- Every text is parsed as a Rust file to a lossless tree. -/
theorem C34_rust_total (lexer : Lexer Nat) (hp : Progress lexer) (hw : BlankStart rustIsWs lexer) :
    ParsesAll (rustDefinition lexer) 192 fun text => (text.length + 1) * 36 + 2 := by
  intro text
  have hs : SpacelessStrings (rustDefinition lexer) := spaceless_of_visible (show visible rustGrammar.rules = true by decide +kernel) hw
  exact C33_parse_total (rustDefinition lexer) (R := 35) Check.rust_safe.1 Check.rust_safe.2 Check.rust_terminating
    (ty := 93) (body := 158) rfl hp rustBinder_bounded hs text

/-- A lexer with a token for each byte: 100 for spaces, 110 for others. -/
def byteLexer : Lexer Nat
  | 32 :: _ => ⟨100, 1⟩
  | _ => ⟨110, 1⟩

theorem byteLexer_progress : Progress byteLexer := by
  intro text h
  cases text with
  | nil => exact absurd rfl h
  | cons b rest => unfold byteLexer; split <;> simp

theorem byteLexer_blank (isWs : NodeType → Bool) (h : isWs 110 = false) : BlankStart isWs byteLexer := by
  intro b rest h1 _ _
  unfold byteLexer
  split
  · rename_i h
    cases h
    omega
  · exact h

example : Progress byteLexer ∧ BlankStart fallIsWs byteLexer ∧ BlankStart rustIsWs byteLexer :=
  ⟨byteLexer_progress, byteLexer_blank _ (by decide), byteLexer_blank _ (by decide)⟩

/-- The types of the nodes of a parsed text. -/
def typesOf : Result (File Nat × Definition.IncrementalData) → List NodeType
  | .ok (file, _) => file.nodes.map (·.ty)
  | _ => []

example : typesOf ((rustDefinition byteLexer).parse 110 [97, 32]) = [192, 202, 110, 100, 0] := by decide +kernel

/-- If the interpreter panics on the empty text, so does parsing. -/
theorem parse_empty_panics {d : Definition} {k n : Nat} (hn : k ≤ n)
    (h : synParse (Env.new none d.grammar d.isWs [] []) k = .panic) : d.parse n [] = .panic := by
  have hs : synParse (Env.new none d.grammar d.isWs [] []) n = .panic := by
    rcases synParse_le (Env.new none d.grammar d.isWs [] []) hn with h' | h'
    · rw [h] at h'; cases h'
    · rw [h', h]
  simp only [Definition.parse, Definition.parseTokens, show lex d.lexer [] = some [] from rfl, Result.ofOption, bind,
    Result.bind, hs]
  cases d.fileTy <;> rfl

/-- The shipped parsers for arithmetic, for the test of unusual constructs and for JSON panic on the empty text. -/
theorem C34_empty_text_counterexample (lexer : Lexer Nat) (n : Nat) (hn : 8 ≤ n) :
    (arithDefinition lexer).parse n [] = .panic ∧ (weirdDefinition lexer).parse n [] = .panic ∧
    (jsonDefinition lexer).parse n [] = .panic := by
  refine ⟨parse_empty_panics hn ?_, parse_empty_panics hn ?_, parse_empty_panics hn ?_⟩
  · exact show synParse (Env.new none arithGrammar arithIsWs [] []) 8 = .panic by decide +kernel
  · exact show synParse (Env.new none weirdGrammar weirdIsWs [] []) 8 = .panic by decide +kernel
  · exact show synParse (Env.new none jsonGrammar jsonIsWs [] []) 8 = .panic by decide +kernel

end Fall
