import Verif.Lemmas.FallReparse
import Verif.Lemmas.SynFuel
import Verif.Props.LexLookahead

/-!
C76: reparsing a file of the Fall language after an edit gives what parsing the new text gives.
-/

namespace Fall

open Spec Parser ReparseCert

/-- Reparsing with a lexer for all texts. -/
theorem reparse_all (lexer : Lexer Nat) (hp : Progress lexer) (hw : BlankStart fallIsWs lexer)
    (ht : FallTokens lexer) (n0 : Nat) (oldText newText : List Nat) (file : File Nat)
    (data : Definition.IncrementalData) (hold : (fallDefinition lexer).parse n0 oldText = .ok (file, data))
    (edit : TextEdit Nat) (ho : OrderedCopies 0 edit.ops) (ha : edit.apply (Text.ofBuf oldText) = some newText)
    (hr : RelexesTo lexer data.tokens edit newText) :
    (∀ n x, (fallDefinition lexer).parse n newText = .ok x →
      (fallDefinition lexer).reparse n oldText data edit = .ok x) ∧
    ∃ file' data', ∀ n, (newText.length + 1) * 17 + 2 ≤ n →
      (fallDefinition lexer).parse n newText = .ok (file', data') ∧
      (fallDefinition lexer).reparse n oldText data edit = .ok (file', data') := by
  have key : ∀ n x, (fallDefinition lexer).parse n newText = .ok x →
      (fallDefinition lexer).reparse n oldText data edit = .ok x := by
    rintro n ⟨file', data'⟩ hnew
    obtain ⟨hl, t, hsyn⟩ := Definition.parse_data hold
    obtain ⟨ts, region, h1, h2⟩ := hr
    obtain ⟨cache, h3⟩ := salvage_parse_total (ty := 32) (body := 37) (b := false)
      (show fallGrammar.rules[0]? = _ by decide +kernel) hsyn edit
    obtain ⟨h4, t', h5⟩ := Definition.parse_data hnew
    have h4 : lex lexer newText = some data'.tokens := h4
    rw [h2] at h4
    cases h4
    have hpos : ∀ text, text ≠ [] → 0 < (lexer text).len := fun text h => (hp text h).1
    have hs := FallReparse.fall_sound hw ht (C10_lex_sound lexer hpos oldText _ hl)
      (C10_lex_sound lexer hpos newText _ h2) hsyn ho ha h3
    have hG := simGrammar_sound
      (env := Env.new (some (cache, data.events)) fallGrammar fallIsWs newText data'.tokens)
      (env2 := Env.new none fallGrammar fallIsWs newText data'.tokens) fall_friendly hs rfl rfl
      (fun n _ _ _ _ _ _ h => ⟨n, h⟩) (fall_end (FallReparse.fall_eager rfl))
    rw [Definition.parse_eq h2] at hnew
    rw [Definition.reparse_eq ha h1 h3]
    rcases synParse_sim (pan := False) (K := (Env.new none fallGrammar fallIsWs newText data'.tokens).nonWs.length)
      (env1 := Env.new (some (cache, data.events)) fallGrammar fallIsWs newText data'.tokens)
      (env2 := Env.new none fallGrammar fallIsWs newText data'.tokens)
      (envSim_cache (Env.new none fallGrammar fallIsWs newText data'.tokens) _ _)
      ⟨noHits_none rfl, Or.inr (Or.inr (Or.inr fun e body f he h => by
        obtain ⟨rfl, _⟩ := fall_cached e body he
        exact h.2 rfl (by simp)))⟩ hG rfl rfl
      (fun z => ⟨by simp, fun _ => (by decide : 0 ∉ [2, 53, 3, 77])⟩) n h5 with ⟨h, _⟩ | ⟨t'', h6, _⟩
    · exact h.elim
    · rw [← hnew]
      show Definition.finish _ _ _ (synParse (Env.new (some (cache, data.events)) fallGrammar fallIsWs newText data'.tokens) n) =
        Definition.finish _ _ _ (synParse (Env.new none fallGrammar fallIsWs newText data'.tokens) n)
      have h5 : synParse (Env.new none fallGrammar fallIsWs newText data'.tokens) n = _ := h5
      rw [h6, h5]
      rfl
  refine ⟨key, ?_⟩
  obtain ⟨file', data', h, _⟩ := C34_fall_total lexer hp hw newText
  exact ⟨file', data', fun n hn => ⟨h n hn, key n _ (h n hn)⟩⟩

/-- Reparsing with more budget gives the same. -/
theorem reparse_le {d : Definition} {n m : Nat} (hn : n ≤ m) {text : List Nat} {data : Definition.IncrementalData}
    {edit : TextEdit Nat} {x : File Nat × Definition.IncrementalData} (h : d.reparse n text data edit = .ok x) :
    d.reparse m text data edit = .ok x := by
  unfold Definition.reparse at h ⊢
  obtain ⟨t, h1, h⟩ := Result.bind_ok.1 h
  obtain ⟨ts, h2, h⟩ := Result.bind_ok.1 h
  obtain ⟨c, h3, h⟩ := Result.bind_ok.1 h
  refine Result.bind_ok.2 ⟨t, h1, Result.bind_ok.2 ⟨ts, h2, Result.bind_ok.2 ⟨c, h3, ?_⟩⟩⟩
  rw [Definition.finish_eq] at h ⊢
  rcases synParse_le (Env.new (some (c, data.events)) d.grammar d.isWs t ts.1) hn with h4 | h4
  · rw [h4] at h
    unfold Definition.finish at h
    obtain ⟨_, _, h⟩ := Result.bind_ok.1 h
    cases h
  · rw [h4]
    exact h

theorem parse_congr {l1 l2 : Lexer Nat} {n : Nat} {text : List Nat} (h : lex l1 text = lex l2 text) :
    (fallDefinition l1).parse n text = (fallDefinition l2).parse n text := by
  unfold Definition.parse
  rw [show lex (fallDefinition l1).lexer text = lex (fallDefinition l2).lexer text from h]
  rfl

theorem reparse_congr {l1 l2 : Lexer Nat} {n : Nat} {text newText : List Nat} {data : Definition.IncrementalData}
    {edit : TextEdit Nat} (ha : edit.apply (Text.ofBuf text) = some newText)
    (h : relex l1 data.tokens edit newText = relex l2 data.tokens edit newText) :
    (fallDefinition l1).reparse n text data edit = (fallDefinition l2).reparse n text data edit := by
  unfold Definition.reparse
  simp only [ha, Result.ofOption, Bind.bind, Result.bind]
  rw [show relex (fallDefinition l1).lexer data.tokens edit newText =
    relex (fallDefinition l2).lexer data.tokens edit newText from h]
  rfl

/-- C76. For an ASCII file of the Fall language and an edit whose copies are in order, if relexing gives the tokens of
the new text, reparsing gives exactly the file and the data that parsing the new text from scratch gives, and it does
not panic: a budget that is enough for parsing is enough for reparsing. -/
theorem C76_reparse (lexer : Lexer Nat) (hl : LexesAscii fallLexRules lexer) (n0 : Nat) (oldText newText : List Nat)
    (hao : Ascii oldText) (han : Ascii newText) (file : File Nat)
    (data : Definition.IncrementalData) (hold : (fallDefinition lexer).parse n0 oldText = .ok (file, data))
    (edit : TextEdit Nat) (ho : OrderedCopies 0 edit.ops) (ha : edit.apply (Text.ofBuf oldText) = some newText)
    (hr : RelexesTo lexer data.tokens edit newText) :
    (∀ n x, (fallDefinition lexer).parse n newText = .ok x →
      (fallDefinition lexer).reparse n oldText data edit = .ok x) ∧
    ∃ file' data', ∀ n, (newText.length + 1) * 17 + 2 ≤ n →
      (fallDefinition lexer).parse n newText = .ok (file', data') ∧
      (fallDefinition lexer).reparse n oldText data edit = .ok (file', data') := by
  obtain ⟨l2, h2, hag⟩ := hl.extend
  have e1 : lex lexer newText = lex l2 newText := lex_congr ascii_drop hag han
  have e2 : relex lexer data.tokens edit newText = relex l2 data.tokens edit newText := relex_congr ascii_drop hag han
  rw [parse_congr (lex_congr ascii_drop hag hao)] at hold
  simp only [parse_congr e1, reparse_congr ha e2]
  refine reparse_all l2 h2.progress (h2.lexesBy.blankStart (by decide +kernel)) h2.fallTokens n0 oldText newText file
    data hold edit ho ha ?_
  unfold RelexesTo at hr ⊢
  rwa [e1, e2] at hr

/-- A lexer that applies the rules. -/
def fallLexer : Lexer Nat := ruleLexer (fallLexRules.map LexRule.calm)

theorem fallLexer_lexes : LexesAscii fallLexRules fallLexer := (calm_longest _).ascii

/-- `rule a{b}rule c{d}`. -/
def twoRules : List Nat := [114, 117, 108, 101, 32, 97, 123, 98, 125, 114, 117, 108, 101, 32, 99, 123, 100, 125]

/-- Adds a letter to the name of the first rule. -/
def renameEdit : TextEdit Nat := ⟨[.copy ⟨0, 6⟩, .insert [120], .copy ⟨6, 18⟩]⟩

/-- `rule ax{b}rule c{d}`. -/
def renamedRules : List Nat :=
  [114, 117, 108, 101, 32, 97, 120, 123, 98, 125, 114, 117, 108, 101, 32, 99, 123, 100, 125]

/-- The result of parsing `twoRules`. -/
def twoData : Definition.IncrementalData :=
  ⟨[⟨130, 4⟩, ⟨100, 1⟩, ⟨130, 1⟩, ⟨119, 1⟩, ⟨130, 1⟩, ⟨120, 1⟩, ⟨130, 4⟩, ⟨100, 1⟩, ⟨130, 1⟩, ⟨119, 1⟩, ⟨130, 1⟩,
    ⟨120, 1⟩],
   [.start 131 none, .start 132 none, .cached 76 11, .token 106 1, .token 130 1, .start 137 none, .token 119 1,
    .start 136 none, .start 135 none, .token 130 1, .fin, .fin, .token 120 1, .fin, .fin, .start 132 none,
    .cached 76 11, .token 106 1, .token 130 1, .start 137 none, .token 119 1, .start 136 none, .start 135 none,
    .token 130 1, .fin, .fin, .token 120 1, .fin, .fin, .fin]⟩

theorem twoRules_parse : ∃ file, (fallDefinition fallLexer).parse 400 twoRules = .ok (file, twoData) :=
  ok_eval (by decide +kernel)

/-- The conditions are met, with a rule that is reused after the edit. -/
example : LexesAscii fallLexRules fallLexer ∧ Ascii twoRules ∧
    (∃ file, (fallDefinition fallLexer).parse 400 twoRules = .ok (file, twoData)) ∧
    OrderedCopies 0 renameEdit.ops ∧
    renameEdit.apply (Text.ofBuf twoRules) = some renamedRules ∧ Ascii renamedRules ∧
    RelexesTo fallLexer twoData.tokens renameEdit renamedRules ∧
    (salvageSegments twoData.events twoData.tokens fallIsWs renameEdit).map (·.length) = some 1 := by
  refine ⟨fallLexer_lexes, by decide, twoRules_parse, by simp [renameEdit, OrderedCopies], rfl, by decide,
    ⟨[⟨130, 4⟩, ⟨100, 1⟩, ⟨130, 2⟩, ⟨119, 1⟩, ⟨130, 1⟩, ⟨120, 1⟩, ⟨130, 4⟩, ⟨100, 1⟩, ⟨130, 1⟩, ⟨119, 1⟩, ⟨130, 1⟩,
      ⟨120, 1⟩], 3, ?_, ?_⟩, ?_⟩
  all_goals decide +kernel

/-- C76. Without double quotes in the texts nothing has to be known about relexing. -/
theorem C76_unquoted (lexer : Lexer Nat) (hl : LexesAscii fallLexRules lexer) (n0 : Nat) (oldText newText : List Nat)
    (hao : Ascii oldText) (han : Ascii newText) (hqo : 34 ∉ oldText) (hqn : 34 ∉ newText) (file : File Nat)
    (data : Definition.IncrementalData) (hold : (fallDefinition lexer).parse n0 oldText = .ok (file, data))
    (edit : TextEdit Nat) (ho : OrderedCopies 0 edit.ops) (ha : edit.apply (Text.ofBuf oldText) = some newText) :
    (∀ n x, (fallDefinition lexer).parse n newText = .ok x →
      (fallDefinition lexer).reparse n oldText data edit = .ok x) ∧
    ∃ file' data', ∀ n, (newText.length + 1) * 17 + 2 ≤ n →
      (fallDefinition lexer).parse n newText = .ok (file', data') ∧
      (fallDefinition lexer).reparse n oldText data edit = .ok (file', data') :=
  C76_reparse lexer hl n0 oldText newText hao han file data hold edit ho ha
    (C77_relex.2.2.2.2.2.1 lexer hl oldText newText data.tokens edit hao han hqo hqn (Definition.parse_data hold).1 ha)

/-- The conditions are met. -/
example : LexesAscii fallLexRules fallLexer ∧ Ascii twoRules ∧ 34 ∉ twoRules ∧
    (∃ file, (fallDefinition fallLexer).parse 400 twoRules = .ok (file, twoData)) ∧
    OrderedCopies 0 renameEdit.ops ∧
    renameEdit.apply (Text.ofBuf twoRules) = some renamedRules ∧ Ascii renamedRules ∧ 34 ∉ renamedRules ∧
    (salvageSegments twoData.events twoData.tokens fallIsWs renameEdit).map (·.length) = some 1 :=
  ⟨fallLexer_lexes, by decide, by decide, twoRules_parse, by simp [renameEdit, OrderedCopies], rfl, by decide,
    by decide, by decide +kernel⟩

/-- C76. Whatever edits are made to an ASCII file of the Fall language, with any budgets, as long as relexing gives the
right tokens: the file an editor holds is the file of a parse of its text. -/
theorem C76_session (lexer : Lexer Nat) (hl : LexesAscii fallLexRules lexer)
    (text : List Nat) (file : File Nat) (data : Definition.IncrementalData)
    (h : RelexedSession (fallDefinition lexer) text file data) :
    ∃ n, (fallDefinition lexer).parse n text = .ok (file, data) := by
  have key : Ascii text ∧ ∃ n, (fallDefinition lexer).parse n text = .ok (file, data) := by
    induction h with
    | parse ha h => exact ⟨ha, _, h⟩
    | @edit n text file data text' file' data' edit _ hat ho ha hrl hr ih =>
      obtain ⟨hao, m, hm⟩ := ih
      obtain ⟨_, f, dt, h⟩ := C76_reparse lexer hl m text text' hao hat file data hm edit ho ha hrl
      obtain ⟨h1, h2⟩ := h (max n ((text'.length + 1) * 17 + 2)) (Nat.le_max_right _ _)
      have h3 := reparse_le (Nat.le_max_left n ((text'.length + 1) * 17 + 2)) hr
      rw [h2] at h3
      exact ⟨hat, _, h1.trans h3⟩
  exact key.2

/-- There are sessions with edits. -/
example : ∃ file data, RelexedSession (fallDefinition fallLexer) renamedRules file data := by
  obtain ⟨file, h⟩ := twoRules_parse
  have ha : renameEdit.apply (Text.ofBuf twoRules) = some renamedRules := rfl
  have hr : RelexesTo fallLexer twoData.tokens renameEdit renamedRules :=
    C77_relex.2.2.2.2.2.1 fallLexer fallLexer_lexes twoRules _ twoData.tokens renameEdit (by decide) (by decide)
      (by decide) (by decide) (Definition.parse_data h).1 ha
  have ho : OrderedCopies 0 renameEdit.ops := by simp [renameEdit, OrderedCopies]
  obtain ⟨_, file', data', h'⟩ := C76_reparse fallLexer fallLexer_lexes 400 twoRules _ (by decide) (by decide) file
    twoData h renameEdit ho ha hr
  exact ⟨file', data', .edit renameEdit (.parse (by decide) h) (by decide) ho ha hr (h' _ (Nat.le_refl _)).2⟩

/-- C76. With double quotes reparsing can give another file than parsing: deleting ` '` from `r# '""#'` makes a raw
string, but in the reparsed file there is still the name `r`. -/
theorem C76_quoted_counterexample :
    ∃ (n : Nat) (oldText newText : List Nat) (edit : TextEdit Nat) (file file1 file2 : File Nat)
      (data data1 data2 : Definition.IncrementalData), Ascii oldText ∧ Ascii newText ∧ OrderedCopies 0 edit.ops ∧
      (fallDefinition fallLexer).parse n oldText = .ok (file, data) ∧
      edit.apply (Text.ofBuf oldText) = some newText ∧
      (fallDefinition fallLexer).reparse n oldText data edit = .ok (file1, data1) ∧
      (fallDefinition fallLexer).parse n newText = .ok (file2, data2) ∧
      data1.tokens.length = 6 ∧ data2.tokens.length = 2 ∧ file1 ≠ file2 := by
  obtain ⟨f, h1⟩ := ok_eval (r := (fallDefinition fallLexer).parse 400 [114, 35, 32, 39, 34, 34, 35, 39])
    (y := ⟨[⟨130, 1⟩, ⟨118, 1⟩, ⟨100, 1⟩, ⟨128, 5⟩],
      [.start 131 none, .start ERROR none, .token 130 1, .token 118 1, .token 128 1, .fin, .fin]⟩) (by decide +kernel)
  obtain ⟨f1, h2, h2'⟩ := ok_eval_and (r := (fallDefinition fallLexer).reparse 400 [114, 35, 32, 39, 34, 34, 35, 39]
    ⟨[⟨130, 1⟩, ⟨118, 1⟩, ⟨100, 1⟩, ⟨128, 5⟩],
      [.start 131 none, .start ERROR none, .token 130 1, .token 118 1, .token 128 1, .fin, .fin]⟩
    ⟨[.copy ⟨0, 2⟩, .copy ⟨4, 8⟩]⟩) (p := fun f => f.nodes.length = 8)
    (y := ⟨[⟨130, 1⟩, ⟨118, 1⟩, ⟨ERROR, 1⟩, ⟨ERROR, 1⟩, ⟨118, 1⟩, ⟨ERROR, 1⟩],
      [.start 131 none, .start ERROR none, .token 130 1, .token 118 1, .token ERROR 1, .token ERROR 1, .token 118 1,
        .token ERROR 1, .fin, .fin]⟩) (by decide +kernel)
  obtain ⟨f2, h3, h3'⟩ := ok_eval_and (r := (fallDefinition fallLexer).parse 400 [114, 35, 34, 34, 35, 39])
    (p := fun f => f.nodes.length = 4) (y := ⟨[⟨129, 5⟩, ⟨ERROR, 1⟩],
      [.start 131 none, .start ERROR none, .token 129 1, .token ERROR 1, .fin, .fin]⟩) (by decide +kernel)
  refine ⟨400, _, _, _, f, f1, f2, _, _, _, by decide, by decide, by simp [OrderedCopies], h1, rfl, h2, h3, rfl, rfl, ?_⟩
  rintro rfl
  omega

end Fall
