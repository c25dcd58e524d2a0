import Verif.Lemmas.Bnf
import Verif.Props.Promise

/-!
C97: grammars in Backus-Naur form are what the parser for them reads without errors.
C98: what the typed nodes of these grammars show.
-/

namespace Fall

open Spec

/-- The types of the tokens that are not whitespace. -/
def bnfTypesOf (tokens : List Token) : List NodeType := (tokens.filter fun t => !bnfIsWs t.ty).map (·.ty)

/-- C97. A parsed file has no ERROR, neither a node nor a token, if and only if its tokens are those of a grammar: a list
of productions, each with a name, an arrow and one or more alternatives of one or more symbols. -/
theorem C97_bnf (lexer : Lexer Nat) (hp : Progress lexer) (n : Nat) (text : List Nat) (file : File Nat)
    (data : Definition.IncrementalData) (h : (bnfDefinition lexer).parse n text = .ok (file, data))
    (tokens : List Token) (ht : IsLexing lexer text tokens) :
    (∀ m : Nat, file.ty m ≠ some ERROR) ↔ ∃ g : Bnf, g.Proper ∧ bnfTypesOf tokens = g.tokens := by
  obtain ⟨t, kids, plain, h1, _, _, h4, h5⟩ := Parser.Exact.parse_iff (d := bnfDefinition lexer) (ty := 6) (body := 9)
    BnfParse.exact rfl Check.bnf_safe.2 hp rfl (fun _ _ _ => Nat.zero_le _) (bnf_spaceless lexer) rfl h
  obtain rfl := IsLexing.unique h1 ht
  exact ⟨h4, fun ⟨g, hg, hts⟩ => (h5 g hg hts).2⟩

/-- C97. The file of a grammar has a node for each production, for what is behind its arrow, for each alternative and for
each symbol, at its place, with the tokens of it in it; whitespace is between them. A name in front of an arrow begins
a production, and is not a symbol of the one before. -/
theorem C97_tree (lexer : Lexer Nat) (hp : Progress lexer) (n : Nat) (text : List Nat) (file : File Nat)
    (data : Definition.IncrementalData) (h : (bnfDefinition lexer).parse n text = .ok (file, data))
    (tokens : List Token) (ht : IsLexing lexer text tokens) (g : Bnf) (hg : g.Proper)
    (hts : bnfTypesOf tokens = g.tokens) :
    ∃ ops, newFile text ops = some file ∧ Places bnfIsWs g.tree tokens ops := by
  obtain ⟨t, kids, plain, h1, h2, h3, _, h5⟩ := Parser.Exact.parse_iff (d := bnfDefinition lexer) (ty := 6) (body := 9)
    BnfParse.exact rfl Check.bnf_safe.2 hp rfl (fun _ _ _ => Nat.zero_le _) (bnf_spaceless lexer) rfl h
  obtain rfl := IsLexing.unique h1 ht
  obtain ⟨rfl, _⟩ := h5 g hg hts
  exact ⟨_, h2, h3⟩

/-- C97. There is only one way to read the tokens. -/
theorem C97_unique (g g' : Bnf) (hg : g.Proper) (hg' : g'.Proper) (h : g.tokens = g'.tokens) : g = g' :=
  BnfParse.grammar_inj hg hg' h

/-- The text `S -> E 'a' | 'b' E -> S`. -/
def bnfSample : List Nat :=
  [83, 32, 45, 62, 32, 69, 32, 39, 97, 39, 32, 124, 32, 39, 98, 39, 32, 69, 32, 45, 62, 32, 83]

/-- Its productions. -/
def bnfValue : Bnf := [[[104, 103], [103]], [[104]]]

example : bnfValue.Proper ∧ (lex (ruleLexer bnfLexRules) bnfSample).map bnfTypesOf = some bnfValue.tokens ∧
    bnfValue.tokens = [104, 101, 104, 103, 102, 103, 104, 101, 104] := by
  refine ⟨?_, by decide +kernel, by decide⟩
  simp [bnfValue, Bnf.Proper]

/-- Whether a parsed file has an ERROR. -/
def erroneous (r : Result (File Nat × Definition.IncrementalData)) : Option Bool :=
  match r with
  | .ok (file, _) => some (file.nodes.any fun d => d.ty == ERROR)
  | _ => none

/-- The text is parsed, and has no ERROR. -/
example : erroneous ((bnfDefinition (ruleLexer bnfLexRules)).parse 300 bnfSample) = some false := by decide +kernel

/-- No text is a grammar: the one without productions. -/
example : erroneous ((bnfDefinition (ruleLexer bnfLexRules)).parse 300 []) = some false := by decide +kernel

/-- `S ->` and `S -> E |` have errors: there is no alternative behind the arrow, and none behind the bar. -/
example : erroneous ((bnfDefinition (ruleLexer bnfLexRules)).parse 300 [83, 32, 45, 62]) = some true ∧
    erroneous ((bnfDefinition (ruleLexer bnfLexRules)).parse 300 [83, 32, 45, 62, 32, 69, 32, 124]) = some true := by
  constructor <;> decide +kernel

/-! ## The typed nodes -/

theorem astChildren_none {f : File α} {wrap : NodeType → Bool} {n : NodeId} {cs : List NodeId}
    (hcs : f.children n = some cs) (h : ∀ c, c ∈ cs → ∃ t, f.ty c = some t ∧ wrap t = false) :
    f.astChildren wrap n = some [] := by
  simp only [File.astChildren, hcs, bind, Option.bind]
  clear hcs
  induction cs with
  | nil => rfl
  | cons c cs ih =>
    obtain ⟨t, h1, h2⟩ := h c List.mem_cons_self
    simp only [File.ty, Option.map_eq_some_iff] at h1
    obtain ⟨d, h3, rfl⟩ := h1
    simp [File.filterNodes, h3, h2, ih fun x hx => h x (List.mem_cons_of_mem _ hx)]

section
variable {lexer : Lexer Nat} (hlex : LexesBy bnfLexRules lexer) {n : Nat} {text : List Nat} {file : File Nat}
  {data : Definition.IncrementalData} (h : (bnfDefinition lexer).parse n text = .ok (file, data))
include hlex h

theorem bnf_child {T : NodeType} {S : List NodeType} (bits : Nat)
    (hr : (bnfLexRules.any fun r => r.ty == T) = false)
    (hc : Check.bnfCert.promises bnfGrammar T S false bits = true) : HasChild file T S := by
  have hp := Check.promises_sound hc
  exact C64_child (bnfDefinition lexer) hlex.progress 6 9 rfl (fun _ _ _ => Nat.zero_le _) (bnf_spaceless lexer)
    Check.bnf_safe.2 T S false (neverLexed_rules hlex hp.error hr) hp n text file data h

theorem bnf_without {T : NodeType} {S : List NodeType} (bits : Nat) (hS : (S.all fun t => !bnfIsWs t) = true)
    (hT : (T == ERROR) = false) (hc : Check.bnfCert.bars bnfGrammar (T == ·) S bits = true) : NoChild file T S :=
  C64_without (bnfDefinition lexer) hlex.progress 6 9 rfl (fun _ _ _ => Nat.zero_le _) (bnf_spaceless lexer)
    Check.bnf_safe.2 (T == ·) S (fun t ht => show bnfIsWs t = false by simpa using List.all_eq_true.1 hS t ht)
    (fun hE => by rw [hT] at hE; cases hE) (Check.bars_sound hc) n text file data h T (by simp)

/-- C98. In every parsed grammar, productions have a head, and what is behind the arrow has an alternative, which has a
symbol, which has a token that names it. With `C98_counterexample` this is a part of what is expected of the typed
nodes: that they show alternatives and symbols as well. -/
theorem C98_bnf_partial : HasChild file 106 [104] ∧ HasChild file 107 [108] ∧ HasChild file 108 [109] ∧
    HasChild file 109 [103, 104] := by
  refine ⟨bnf_child hlex h 0x76ff8bfd ?_ ?_, bnf_child hlex h 2145714159 ?_ ?_, bnf_child hlex h 2134900703 ?_ ?_,
    bnf_child hlex h 117410813 ?_ ?_⟩ <;> decide +kernel

/-- C98. In no parsed grammar do the typed nodes show an alternative or a symbol: `Prod::alts` (`lang/bnf/src/bnf.rs`
124-126) asks for alternatives among the children of the production, but they are one level below, and
`Alt::symbols` (152-154) asks for tokens among the children of the alternative, but there is a node around each of
them. -/
theorem C98_counterexample (m : NodeId) :
    (file.ty m = some 106 → file.astChildren (· == 108) m = some []) ∧
      (file.ty m = some 108 → file.astChildren (fun t => t == 103 || t == 104) m = some []) := by
  have h1 : NoChild file 106 [108] := bnf_without hlex h 2031632 (by decide) (by decide) (by decide +kernel)
  have h2 : NoChild file 108 [103, 104] := bnf_without hlex h 2030072834 (by decide) (by decide) (by decide +kernel)
  have hk := (C31_parse_lossless (bnfDefinition lexer) hlex.progress 6 9 rfl (fun _ _ _ => Nat.zero_le _)
    (bnf_spaceless lexer) n text file data h).1
  have key : ∀ {T : NodeType} {S : List NodeType} (wrap : NodeType → Bool), NoChild file T S →
      (∀ t, wrap t = true → t ∈ S) → file.ty m = some T → file.astChildren wrap m = some [] := by
    intro T S wrap hn hw hm
    obtain ⟨d, hd, _⟩ := Option.map_eq_some_iff.1 hm
    have hcs : file.children m = some d.children := by simp [File.children, hd]
    refine astChildren_none hcs fun c hc => ?_
    have hn' := (child_spec hk.nodes ⟨_, hcs, hc⟩).2.2.1
    obtain ⟨t, ht⟩ : ∃ t, file.ty c = some t := ⟨_, by simp [File.ty, File.data, getElem_dat hn']; rfl⟩
    refine ⟨t, ht, ?_⟩
    have := hn m c t hm ⟨_, hcs, hc⟩ ht
    cases hb : wrap t with
    | false => rfl
    | true => exact (this (hw t hb)).elim
  exact ⟨key _ h1 (by simp), key _ h2 (by simp)⟩

end

/-- The text `S -> E 'a' | 'b' E -> S` has two productions with three alternatives and four symbols. -/
example : LexesBy bnfLexRules (ruleLexer bnfLexRules) ∧
    typesOf ((bnfDefinition (ruleLexer bnfLexRules)).parse 300 bnfSample) =
      [105, 106, 104, 100, 101, 100, 107, 108, 109, 104, 100, 109, 103, 100, 102, 100, 108, 109, 103, 100,
        106, 104, 100, 101, 100, 107, 108, 109, 104] :=
  ⟨ruleLexer_lexes _, by decide +kernel⟩

end Fall
