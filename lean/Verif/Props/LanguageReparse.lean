import Verif.Props.FallReparse
import Verif.Spec.LanguageReparse
import Verif.Lemmas.FastParse

/-!
C78: which of the other shipped languages are reparsed correctly.
-/

namespace Fall

open Spec

/-- A language without cached rules. -/
theorem reparses_of {d : Lexer Nat → Definition} {rules : List LexRule} {ok : List Nat → Prop} {g : Grammar}
    (hl : ∀ lexer, (d lexer).lexer = lexer) (hg : ∀ lexer, (d lexer).rules = g.rules)
    (hno : (g.rules.all fun r => match r with | .cached _ => false | _ => true) = true)
    (hs : (match g.rules[0]? with | some (.pub _ _ _) => true | _ => false) = true) (hr : RelexesWhere rules ok) :
    ReparsesWhere d rules ok := by
  intro lexer h n0 oldText newText file data edit hao han hoo hon hold ha n
  obtain ⟨hlex, t, hsyn⟩ := Definition.parse_data hold
  rw [hl] at hlex
  obtain ⟨ts, region, h1, h2⟩ := hr lexer h oldText newText data.tokens edit hao han hoo hon hlex ha
  have hs' : ∃ ty body b, g.rules[0]? = some (.pub ty body b) := by
    split at hs
    · rename_i ty body b h0
      exact ⟨ty, body, b, h0⟩
    · cases hs
  obtain ⟨ty, body, b, hs'⟩ := hs'
  obtain ⟨cache, h3⟩ := salvage_parse_total (g := (d lexer).grammar) (ty := ty) (body := body) (b := b)
    (by show (d lexer).rules[0]? = _; rw [hg]; exact hs') hsyn edit
  rw [← hl lexer] at h1 h2
  rw [Definition.parse_eq h2, Definition.reparse_eq ha (by rw [hl] at h1 ⊢; exact h1) h3]
  congr 1
  refine (Parser.synParse_bare (env := Env.new (some (cache, data.events)) (d lexer).grammar (d lexer).isWs newText ts)
    (fun body hm => ?_) n).symm
  have hm : Expr.cached body ∈ (d lexer).rules := hm
  rw [hg] at hm
  have := List.all_eq_true.1 hno _ hm
  cases this

/-- C78. Reparsing an ASCII text after any edit gives exactly what parsing the new text gives, with the same panics:
for S-expressions, arithmetic, BNF and JSON, and for the language of the tests with raw strings if there is no double quote (34)
in the texts. -/
theorem C78_reparse :
    ReparsesWhere sexpDefinition sexpLexRules (fun _ => True) ∧
    ReparsesWhere arithDefinition arithLexRules (fun _ => True) ∧
    ReparsesWhere bnfDefinition bnfLexRules (fun _ => True) ∧
    ReparsesWhere jsonDefinition jsonLexRules (fun _ => True) ∧
    ReparsesWhere weirdDefinition weirdLexRules (fun text => 34 ∉ text) := by
  obtain ⟨h1, h2, h3, h4, h5, _⟩ := C77_relex
  refine ⟨reparses_of (g := sexpGrammar) (fun _ => rfl) (fun _ => rfl) (by decide +kernel) (by decide +kernel) h1,
    reparses_of (g := arithGrammar) (fun _ => rfl) (fun _ => rfl) (by decide +kernel) (by decide +kernel) h2,
    reparses_of (g := bnfGrammar) (fun _ => rfl) (fun _ => rfl) (by decide +kernel) (by decide +kernel) h3,
    reparses_of (g := jsonGrammar) (fun _ => rfl) (fun _ => rfl) (by decide +kernel) (by decide +kernel) h4,
    reparses_of (g := weirdGrammar) (fun _ => rfl) (fun _ => rfl) (by decide +kernel) (by decide +kernel) h5⟩

theorem jsonLexer_lexes : LexesAscii jsonLexRules (ruleLexer jsonLexRules) := by
  refine (ruleLexer_longest fun r hr text => find_plain ?_ text).ascii
  have : jsonLexRules.all (fun r => r.f.isNone) = true := by decide +kernel
  simpa using List.all_eq_true.1 this r hr

theorem parse_some {r : Result (File Nat × Definition.IncrementalData)} (h : r ≠ .panic ∧ r ≠ .timeout) :
    ∃ file data, r = .ok (file, data) := by
  cases r with
  | ok x => exact ⟨x.1, x.2, rfl⟩
  | panic => exact absurd rfl h.1
  | timeout => exact absurd rfl h.2

/-- The conditions are met by the edit that makes `{"a":[1]}` from `{}` -/
example : LexesAscii jsonLexRules (ruleLexer jsonLexRules) ∧ Ascii [123, 125] ∧
    (∃ file data, (jsonDefinition (ruleLexer jsonLexRules)).parse 100 [123, 125] = .ok (file, data)) ∧
    (⟨[.copy ⟨0, 1⟩, .insert [34, 97, 34, 58, 91, 49, 93], .copy ⟨1, 2⟩]⟩ : TextEdit Nat).apply
      (Text.ofBuf [123, 125]) = some [123, 34, 97, 34, 58, 91, 49, 93, 125] ∧
    Ascii [123, 34, 97, 34, 58, 91, 49, 93, 125] := by
  exact ⟨jsonLexer_lexes, by decide, parse_some (by decide +kernel), rfl, by decide⟩

/-- C78. Where this holds, the file an editor holds after any number of edits is the file of a parse of its text. -/
theorem C78_session (d : Lexer Nat → Definition) (rules : List LexRule) (ok : List Nat → Prop)
    (hd : ReparsesWhere d rules ok) (lexer : Lexer Nat) (hl : LexesAscii rules lexer) (text : List Nat)
    (file : File Nat) (data : Definition.IncrementalData)
    (h : SessionWhere (fun text => Ascii text ∧ ok text) (d lexer) text file data) :
    ∃ n, (d lexer).parse n text = .ok (file, data) := by
  have key : (Ascii text ∧ ok text) ∧ ∃ n, (d lexer).parse n text = .ok (file, data) := by
    induction h with
    | parse ha h => exact ⟨ha, _, h⟩
    | @edit n text file data text' file' data' edit _ hat ha hr ih =>
      obtain ⟨hao, m, hm⟩ := ih
      exact ⟨hat, n, by rw [← hr, hd lexer hl m text text' file data edit hao.1 hat.1 hao.2 hat.2 hm ha n]⟩
  exact key.2

/-- There are sessions with edits. -/
example : ∃ file data, SessionWhere (fun text => Ascii text ∧ True) (jsonDefinition (ruleLexer jsonLexRules))
    [123, 34, 97, 34, 58, 91, 49, 93, 125] file data := by
  obtain ⟨f1, d1, h1⟩ := parse_some (r := (jsonDefinition (ruleLexer jsonLexRules)).parse 100 [123, 125]) (by decide +kernel)
  obtain ⟨f2, d2, h2⟩ := parse_some (r := (jsonDefinition (ruleLexer jsonLexRules)).parse 100
    [123, 34, 97, 34, 58, 91, 49, 93, 125]) (by decide +kernel)
  have h3 := C78_reparse.2.2.2.1 _ jsonLexer_lexes 100 [123, 125] [123, 34, 97, 34, 58, 91, 49, 93, 125] f1 d1
    ⟨[.copy ⟨0, 1⟩, .insert [34, 97, 34, 58, 91, 49, 93], .copy ⟨1, 2⟩]⟩ (by decide) (by decide) trivial trivial h1 rfl 100
  exact ⟨f2, d2, .edit ⟨[.copy ⟨0, 1⟩, .insert [34, 97, 34, 58, 91, 49, 93], .copy ⟨1, 2⟩]⟩
    (.parse ⟨by decide, trivial⟩ h1) ⟨by decide, trivial⟩ rfl (h3.trans h2)⟩

/-- `fn f(){a<b>()}`. -/
def oneFn : List Nat := [102, 110, 32, 102, 40, 41, 123, 97, 60, 98, 62, 40, 41, 125]

/-- Makes `type T=X<[A;{fn f(){a<b>()}}]>;`. -/
def arrayEdit : TextEdit Nat :=
  ⟨[.insert [116, 121, 112, 101, 32, 84, 61, 88, 60, 91, 65, 59, 123], .copy ⟨0, 14⟩, .insert [125, 93, 62, 59]]⟩

/-- A lexer for Rust. -/
def rustLexer : Lexer Nat := ruleLexer (rustLexRules.map LexRule.calm)

/-- What parsing `oneFn` gives. -/
def oneFnData : Definition.IncrementalData :=
  ⟨[⟨107, 2⟩, ⟨100, 1⟩, ⟨191, 1⟩, ⟨136, 1⟩, ⟨137, 1⟩, ⟨138, 1⟩, ⟨191, 1⟩, ⟨140, 1⟩, ⟨191, 1⟩, ⟨141, 1⟩, ⟨136, 1⟩,
    ⟨137, 1⟩, ⟨139, 1⟩],
   [.start 192 none, .cached 193 36, .start 197 none, .token 107 1, .token 191 1, .token 136 1, .token 137 1,
    .start 262 none, .token 138 1, .start 266 none, .start 252 (some 7), .start 221 none, .start 223 none,
    .token 191 1, .fin, .fin, .fin, .start 293 (some 10), .token 140 1, .start 252 none, .start 221 none,
    .start 223 none, .token 191 1, .fin, .fin, .fin, .fin, .start 293 none, .token 141 1, .start 255 none,
    .token 136 1, .token 137 1, .fin, .fin, .fin, .token 139 1, .fin, .fin, .fin]⟩

/-- `type T=X<[A;{fn f(){a<b>()}}]>;`. -/
def arrayFn : List Nat :=
  [116, 121, 112, 101, 32, 84, 61, 88, 60, 91, 65, 59, 123, 102, 110, 32, 102, 40, 41, 123, 97, 60, 98, 62, 40, 41,
    125, 125, 93, 62, 59]

/-- Whether a comparison (293) is parsed. -/
def compares : Result (File Nat × Definition.IncrementalData) → Bool
  | .ok (_, data) => data.events.contains (.start 293 none)
  | _ => false

/-- The events of a parse of Rust. -/
def rustEvents (cache : Option (CacheMap × List Event)) (text : List Nat) (tokens : List Token) :
    Result (List Event × Nat) :=
  synParseBy (lookPieces 100 rustPieces) (Env.new cache rustGrammar rustIsWs text tokens) 300

theorem rustEvents_eq (cache : Option (CacheMap × List Event)) (text : List Nat) (tokens : List Token) :
    synParse (Env.new cache (rustDefinition rustLexer).grammar (rustDefinition rustLexer).isWs text tokens) 300 =
      rustEvents cache text tokens :=
  (synParseBy_eq (env := Env.new cache rustGrammar rustIsWs text tokens) rust_look 300).symm

theorem oneFn_parse : ∃ file, (rustDefinition rustLexer).parse 300 oneFn = .ok (file, oneFnData) := by
  rw [Definition.parse_eq (tokens := oneFnData.tokens) (by decide +kernel), rustEvents_eq]
  exact ok_eval (by decide +kernel)

/-- The tokens of `arrayFn`. -/
def arrayFnTokens : List Token :=
  [⟨119, 4⟩, ⟨100, 1⟩, ⟨191, 1⟩, ⟨152, 1⟩, ⟨191, 1⟩, ⟨140, 1⟩, ⟨142, 1⟩, ⟨191, 1⟩, ⟨157, 1⟩, ⟨138, 1⟩, ⟨107, 2⟩,
   ⟨100, 1⟩, ⟨191, 1⟩, ⟨136, 1⟩, ⟨137, 1⟩, ⟨138, 1⟩, ⟨191, 1⟩, ⟨140, 1⟩, ⟨191, 1⟩, ⟨141, 1⟩, ⟨136, 1⟩, ⟨137, 1⟩,
   ⟨139, 1⟩, ⟨139, 1⟩, ⟨143, 1⟩, ⟨141, 1⟩, ⟨157, 1⟩]

theorem arrayFn_reparse : compares ((rustDefinition rustLexer).reparse 300 oneFn oneFnData arrayEdit) = true := by
  rw [Definition.reparse_eq (newText := arrayFn) (tokens := arrayFnTokens) (region := 18)
    (cache := [((13, 193), 2, 36, 12)]) (by decide +kernel) (by decide +kernel) (by decide +kernel), rustEvents_eq]
  decide +kernel

theorem arrayFn_parse : compares ((rustDefinition rustLexer).parse 300 arrayFn) = false := by
  rw [Definition.parse_eq (tokens := arrayFnTokens) (by decide +kernel), rustEvents_eq]
  decide +kernel

/-- C78. For Rust this does not hold, even without quotes: in the arguments of a type, also deep inside of them, `a<b>`
is a path with arguments. A function that has been parsed in another place, where this is a comparison, is taken over
as it is. -/
theorem C78_rust_counterexample : ¬ ReparsesWhere rustDefinition rustLexRules (fun text => 34 ∉ text ∧ 39 ∉ text) := by
  intro h
  obtain ⟨f, h1⟩ := oneFn_parse
  have ha : arrayEdit.apply (Text.ofBuf oneFn) = some arrayFn := by decide +kernel
  have h2 := h rustLexer (calm_longest _).ascii 300 oneFn arrayFn f oneFnData arrayEdit (by decide) (by decide) (by decide)
    (by decide) h1 ha 300
  have h3 := arrayFn_reparse
  rw [h2, arrayFn_parse] at h3
  cases h3

/-- `fn f(){a>b}`. -/
def greaterFn : List Nat := [102, 110, 32, 102, 40, 41, 123, 97, 62, 98, 125]

/-- Makes `type T=X<[A;{fn f(){a>b}}]>;`. -/
def greaterEdit : TextEdit Nat :=
  ⟨[.insert [116, 121, 112, 101, 32, 84, 61, 88, 60, 91, 65, 59, 123], .copy ⟨0, 11⟩, .insert [125, 93, 62, 59]]⟩

/-- `type T=X<[A;{fn f(){a>b}}]>;`. -/
def greaterType : List Nat :=
  [116, 121, 112, 101, 32, 84, 61, 88, 60, 91, 65, 59, 123, 102, 110, 32, 102, 40, 41, 123, 97, 62, 98, 125, 125, 93, 62,
    59]

/-- What parsing `greaterFn` gives. -/
def greaterData : Definition.IncrementalData :=
  ⟨[⟨107, 2⟩, ⟨100, 1⟩, ⟨191, 1⟩, ⟨136, 1⟩, ⟨137, 1⟩, ⟨138, 1⟩, ⟨191, 1⟩, ⟨141, 1⟩, ⟨191, 1⟩, ⟨139, 1⟩],
   [.start 192 none, .cached 193 29, .start 197 none, .token 107 1, .token 191 1, .token 136 1, .token 137 1,
    .start 262 none, .token 138 1, .start 266 none, .start 252 (some 7), .start 221 none, .start 223 none,
    .token 191 1, .fin, .fin, .fin, .start 293 none, .token 141 1, .start 252 none, .start 221 none,
    .start 223 none, .token 191 1, .fin, .fin, .fin, .fin, .fin, .token 139 1, .fin, .fin, .fin]⟩

/-- The tokens of `greaterType`. -/
def greaterTokens : List Token :=
  [⟨119, 4⟩, ⟨100, 1⟩, ⟨191, 1⟩, ⟨152, 1⟩, ⟨191, 1⟩, ⟨140, 1⟩, ⟨142, 1⟩, ⟨191, 1⟩, ⟨157, 1⟩, ⟨138, 1⟩, ⟨107, 2⟩,
   ⟨100, 1⟩, ⟨191, 1⟩, ⟨136, 1⟩, ⟨137, 1⟩, ⟨138, 1⟩, ⟨191, 1⟩, ⟨141, 1⟩, ⟨191, 1⟩, ⟨139, 1⟩, ⟨139, 1⟩, ⟨143, 1⟩,
   ⟨141, 1⟩, ⟨157, 1⟩]

/-- C78. Editing a Rust file can even panic where parsing the new text does not: the function is put into the arguments
of a type. The first `>` ends these, so that the function taken over from the old file is longer than the part of the
input in which it is looked for. -/
theorem C78_rust_panic_counterexample :
    ∃ (n : Nat) (oldText newText : List Nat) (edit : TextEdit Nat) (file file' : File Nat)
      (data data' : Definition.IncrementalData), LexesAscii rustLexRules rustLexer ∧ Ascii oldText ∧ Ascii newText ∧
      OrderedCopies 0 edit.ops ∧ (rustDefinition rustLexer).parse n oldText = .ok (file, data) ∧
      edit.apply (Text.ofBuf oldText) = some newText ∧ relex rustLexer data.tokens edit newText = some (data'.tokens, 18) ∧
      (rustDefinition rustLexer).parse n newText = .ok (file', data') ∧
      (rustDefinition rustLexer).reparse n oldText data edit = .panic := by
  have h1 : ∃ file, (rustDefinition rustLexer).parse 300 greaterFn = .ok (file, greaterData) := by
    rw [Definition.parse_eq (tokens := greaterData.tokens) (by decide +kernel), rustEvents_eq]
    exact ok_eval (by decide +kernel)
  have h2 : ∃ file data', (rustDefinition rustLexer).parse 300 greaterType = .ok (file, data') := by
    refine parse_some ?_
    rw [Definition.parse_eq (tokens := greaterTokens) (by decide +kernel), rustEvents_eq]
    decide +kernel
  have h3 : (rustDefinition rustLexer).reparse 300 greaterFn greaterData greaterEdit = .panic := by
    have hc : rustEvents (some ([((13, 193), 2, 29, 9)], greaterData.events)) greaterType greaterTokens = .panic := by
      decide +kernel
    rw [Definition.reparse_eq (newText := greaterType) (tokens := greaterTokens) (region := 18)
      (cache := [((13, 193), 2, 29, 9)]) (by decide +kernel) (by decide +kernel) (by decide +kernel), rustEvents_eq, hc]
    rfl
  obtain ⟨f, h1⟩ := h1
  obtain ⟨f', d', h2⟩ := h2
  have ht : d'.tokens = greaterTokens := by
    have := (Definition.parse_data h2).1
    have e : lex rustLexer greaterType = some greaterTokens := by decide +kernel
    rw [show lex (rustDefinition rustLexer).lexer greaterType = lex rustLexer greaterType from rfl, e] at this
    exact (Option.some.inj this).symm
  exact ⟨300, greaterFn, greaterType, greaterEdit, f, f', greaterData, d', (calm_longest _).ascii, by decide, by decide,
    by simp [OrderedCopies, greaterEdit], h1, by decide +kernel, by rw [ht]; decide +kernel, h2, h3⟩

end Fall
