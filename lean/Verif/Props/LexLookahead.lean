import Verif.Lemmas.RustTokens

/-!
C77: for which texts of the shipped languages relexing gives the right tokens.
-/

namespace Fall

open Spec

instance (text : List Nat) : Decidable (Ascii text) := inferInstanceAs (Decidable (∀ b ∈ text, b < 128))

/-- C77. With lexers that take the longest token, relexing ASCII texts after any edit gives the tokens of the new text:
always for S-expressions, arithmetic, BNF and JSON; for Fall and the language of the tests with raw strings if there is no double
quote (34) in the texts; and for Rust if there is neither a double quote nor a quote (39). -/
theorem C77_relex :
    RelexesWhere sexpLexRules (fun _ => True) ∧ RelexesWhere arithLexRules (fun _ => True) ∧
    RelexesWhere bnfLexRules (fun _ => True) ∧ RelexesWhere jsonLexRules (fun _ => True) ∧
    RelexesWhere weirdLexRules (fun text => 34 ∉ text) ∧ RelexesWhere fallLexRules (fun text => 34 ∉ text) ∧
    RelexesWhere rustLexRules (fun text => 34 ∉ text ∧ 39 ∉ text) := by
  have all : ∀ {rules : List LexRule}, rules.all (fun r => r.f.isNone) = true →
      Re.convexB (Re.reach 5 [rules.map (·.re)]) = true → (rules.map (·.re)).isEmpty = false →
      RelexesWhere rules fun _ => True := by
    intro rules hf hc hne
    refine relexesWhere_of fun lexer hl oldText newText tokens edit _ _ hold hedit => ?_
    exact relex_correct lexer hl.progress (hl.lookahead (fun r hr => by simpa using List.all_eq_true.1 hf r hr) hc
      (Re.reach_mem (List.mem_singleton.2 rfl) hne)) oldText newText tokens hold edit hedit
  have hdrop : ∀ (b : Nat) (x : List Nat) n, b ∉ x → b ∉ x.drop n := fun b x n h hc => h (List.mem_of_mem_drop hc)
  -- rules that are left out need a byte that is not there
  have out : ∀ {rules : List LexRule} {keep : LexRule → Bool} {bytes : List Nat},
      rules.all (fun r => keep r || bytes.any fun b => r.re.has b) = true → ∀ {text : List Nat},
      (∀ b ∈ bytes, b ∉ text) → ∀ r ∈ rules, keep r = false → ∀ n, ¬ FindsHere r text n := by
    intro rules keep bytes hc text ht r hr hk n
    have := List.all_eq_true.1 hc r hr
    rw [hk, Bool.false_or, List.any_eq_true] at this
    obtain ⟨b, hb, h⟩ := this
    exact finds_has h (ht b hb)
  refine ⟨all (by decide +kernel) (by decide +kernel) rfl, all (by decide +kernel) (by decide +kernel) rfl,
    all (by decide +kernel) (by decide +kernel) rfl, all (by decide +kernel) (by decide +kernel) rfl, ?_, ?_, ?_⟩
  · refine relexesWhere_of fun lexer hl oldText newText tokens edit ho hn hold hedit => ?_
    refine relex_plain hl (keep := fun r => r.f.isNone) (fun l2 h2 => h2.lookahead (fun r hr => by simpa using (List.mem_filter.1 hr).2)
      (sets := Re.reach 5 [(weirdLexRules.filter fun r => r.f.isNone).map (·.re)]) (by decide +kernel)
      (Re.reach_mem (List.mem_singleton.2 rfl) rfl)) (P := fun text => 34 ∉ text) (hdrop 34)
      (fun text ht => out (bytes := [34]) (by decide +kernel) (by simpa using ht)) ho hn hold hedit
  · refine relexesWhere_of fun lexer hl oldText newText tokens edit ho hn hold hedit => ?_
    refine relex_plain hl (keep := fun r => r.f.isNone) (fun l2 h2 => h2.lookahead (fun r hr => FallTokens.plain_f hr)
      FallTokens.sets_convex FallTokens.sets_start) (P := fun text => 34 ∉ text) (hdrop 34)
      (fun text ht => out (bytes := [34]) (by decide +kernel) (by simpa using ht)) ho hn hold hedit
  · refine relexesWhere_of fun lexer hl oldText newText tokens edit ho hn hold hedit => ?_
    refine relex_plain hl (keep := RustTokens.keep) RustTokens.lookahead (P := fun text => 34 ∉ text ∧ 39 ∉ text)
      (fun x n h => ⟨hdrop 34 x n h.1, hdrop 39 x n h.2⟩) 
      (fun text ht => out (bytes := [34, 39]) (by decide +kernel) (by simpa using ht)) ho hn hold hedit

/-- The conditions can be met, and edits can do much: here pieces are copied in reverse order. -/
example : LexesAscii rustLexRules (ruleLexer (rustLexRules.map LexRule.calm)) ∧
    -- `a/*x*/b` becomes `b=a/*x*/`
    lex (ruleLexer (rustLexRules.map LexRule.calm)) [97, 47, 42, 120, 42, 47, 98] = some [⟨191, 1⟩, ⟨102, 5⟩, ⟨191, 1⟩] ∧
    (⟨[.copy ⟨6, 7⟩, .insert [61], .copy ⟨0, 6⟩]⟩ : TextEdit Nat).apply (Text.ofBuf [97, 47, 42, 120, 42, 47, 98]) =
      some [98, 61, 97, 47, 42, 120, 42, 47] ∧
    (relex (ruleLexer (rustLexRules.map LexRule.calm)) [⟨191, 1⟩, ⟨102, 5⟩, ⟨191, 1⟩]
      ⟨[.copy ⟨6, 7⟩, .insert [61], .copy ⟨0, 6⟩]⟩ [98, 61, 97, 47, 42, 120, 42, 47]).map (·.1) =
      some [⟨191, 1⟩, ⟨152, 1⟩, ⟨191, 1⟩, ⟨102, 5⟩] :=
  ⟨(calm_longest _).ascii, by decide +kernel, by decide +kernel, by decide +kernel⟩

/-- The same for JSON: `[1,"a"]` with a quote more. -/
example : LexesAscii jsonLexRules (ruleLexer jsonLexRules) ∧
    lex (ruleLexer jsonLexRules) [91, 49, 44, 34, 97, 34, 93] = some [⟨103, 1⟩, ⟨110, 1⟩, ⟨106, 1⟩, ⟨109, 3⟩, ⟨104, 1⟩] ∧
    (relex (ruleLexer jsonLexRules) [⟨103, 1⟩, ⟨110, 1⟩, ⟨106, 1⟩, ⟨109, 3⟩, ⟨104, 1⟩]
      ⟨[.copy ⟨0, 1⟩, .insert [34], .copy ⟨1, 7⟩]⟩ [91, 34, 49, 44, 34, 97, 34, 93]).map (·.1) =
      some [⟨103, 1⟩, ⟨109, 4⟩, ⟨0, 1⟩, ⟨0, 1⟩, ⟨104, 1⟩] := by
  refine ⟨(ruleLexer_longest fun r hr text => find_plain ?_ text).ascii, by decide +kernel, by decide +kernel⟩
  have : jsonLexRules.all (fun r => r.f.isNone) = true := by decide +kernel
  simpa using List.all_eq_true.1 this r hr

/-- C77. The conditions are needed. In a Fall file, deleting ` '` from `r# '""#'` makes a raw string, but the token `r`
is taken over. In a Rust file with a quote, adding another to `'{}` makes a character, but the token `'` is taken over;
and with a double quote, adding another to `"a\" b` makes a longer string, but the string before is taken over. -/
theorem C77_relex_counterexample :
    ¬ RelexesWhere fallLexRules (fun _ => True) ∧ ¬ RelexesWhere rustLexRules (fun text => 34 ∉ text) ∧
    ¬ RelexesWhere rustLexRules (fun text => 39 ∉ text) := by
  have wrong : ∀ {rules : List LexRule} {ok : List Nat → Prop} (old new : List Nat) (tokens : List Token)
      (edit : TextEdit Nat), Ascii old → Ascii new → ok old → ok new → lex (ruleLexer (rules.map LexRule.calm)) old = some tokens →
      edit.apply (Text.ofBuf old) = some new →
      (relex (ruleLexer (rules.map LexRule.calm)) tokens edit new).map (·.1) ≠
        lex (ruleLexer (rules.map LexRule.calm)) new → ¬ RelexesWhere rules ok := by
    intro rules ok old new tokens edit a1 a2 h1 h2 h3 h4 h5 h
    obtain ⟨ts, region, h6, h7⟩ := h _ (calm_longest rules).ascii old new tokens edit a1 a2 h1 h2 h3 h4
    rw [h6, h7] at h5
    exact h5 rfl
  refine ⟨wrong [114, 35, 32, 39, 34, 34, 35, 39] [114, 35, 34, 34, 35, 39] [⟨130, 1⟩, ⟨118, 1⟩, ⟨100, 1⟩, ⟨128, 5⟩]
      ⟨[.copy ⟨0, 2⟩, .copy ⟨4, 8⟩]⟩ (by decide) (by decide) trivial trivial (by decide +kernel) (by decide +kernel) (by decide +kernel),
    wrong [39, 123, 125] [39, 123, 125, 39] [⟨186, 1⟩, ⟨138, 1⟩, ⟨139, 1⟩] ⟨[.copy ⟨0, 3⟩, .insert [39]]⟩ (by decide)
      (by decide) (by decide) (by decide) (by decide +kernel) (by decide +kernel) (by decide +kernel),
    wrong [34, 97, 92, 34, 32, 98] [34, 97, 92, 34, 32, 98, 34] [⟨189, 4⟩, ⟨100, 1⟩, ⟨191, 1⟩]
      ⟨[.copy ⟨0, 6⟩, .insert [34]]⟩ (by decide) (by decide) (by decide) (by decide) (by decide +kernel) (by decide +kernel) (by decide +kernel)⟩

end Fall
