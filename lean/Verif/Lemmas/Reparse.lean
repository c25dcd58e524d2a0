import Verif.Lemmas.Salvage
import Verif.Lemmas.Cache
import Verif.Props.Lex

/-! Reparsing compared with parsing. -/

namespace Fall

open Spec

namespace Result

theorem bind_ok {r : Result β} {f : β → Result γ} {y : γ} :
    r >>= f = .ok y ↔ ∃ x, r = .ok x ∧ f x = .ok y := by
  cases r <;> simp [Bind.bind, Result.bind]

theorem ofOption_ok {o : Option β} {x : β} : Result.ofOption o = .ok x ↔ o = some x := by
  cases o <;> simp [Result.ofOption]

end Result

namespace Definition

variable {d : Definition} {n : Nat} {text newText : List Nat} {file : File Nat} {data : IncrementalData}

/-- The last two steps of parsing. -/
def finish (d : Definition) (text : List Nat) (tokens : List Token) (r : Result (List Event × Nat)) :
    Result (File Nat × IncrementalData) := do
  let fileTy ← Result.ofOption d.fileTy
  let (events, _) ← r
  let ops ← (d.convertor fileTy).convert text tokens events
  let file ← .ofOption (newFile text ops)
  pure (file, ⟨tokens, events⟩)

theorem finish_eq {tokens : List Token} (prev : Option (CacheMap × List Event)) :
    (do
      let (ops, events) ← d.parseTokens n prev text tokens
      let file ← Result.ofOption (newFile text ops)
      pure (file, IncrementalData.mk tokens events)) =
    d.finish text tokens (synParse (Env.new prev d.grammar d.isWs text tokens) n) := by
  unfold parseTokens finish
  cases d.fileTy with
  | none => rfl
  | some t =>
    cases synParse (Env.new prev d.grammar d.isWs text tokens) n with
    | panic => rfl
    | timeout => rfl
    | ok x =>
      obtain ⟨es, k⟩ := x
      simp only [Result.ofOption, bind, Result.bind]
      cases (d.convertor t).convert text tokens es <;> rfl

theorem parse_eq {tokens : List Token} (h : lex d.lexer text = some tokens) :
    d.parse n text = d.finish text tokens (synParse (Env.new none d.grammar d.isWs text tokens) n) := by
  rw [← finish_eq]
  unfold parse
  rw [h]
  rfl

theorem reparse_eq {tokens : List Token} {region : Nat} {edit : TextEdit Nat} {cache : CacheMap}
    (ha : edit.apply (Text.ofBuf text) = some newText)
    (hr : relex d.lexer data.tokens edit newText = some (tokens, region))
    (hs : salvageSegments data.events data.tokens d.isWs edit = some cache) :
    d.reparse n text data edit = d.finish newText tokens
      (synParse (Env.new (some (cache, data.events)) d.grammar d.isWs newText tokens) n) := by
  rw [← finish_eq]
  unfold reparse
  simp only [ha, Result.ofOption, Bind.bind, Result.bind, hr, hs]

theorem parse_data (h : d.parse n text = .ok (file, data)) :
    lex d.lexer text = some data.tokens ∧
      ∃ t, synParse (Env.new none d.grammar d.isWs text data.tokens) n = .ok (data.events, t) := by
  have h0 := h
  unfold parse at h
  obtain ⟨tokens, h1, _⟩ := Result.bind_ok.1 h
  rw [Result.ofOption_ok] at h1
  rw [parse_eq h1] at h0
  unfold finish at h0
  obtain ⟨ft, _, h0⟩ := Result.bind_ok.1 h0
  obtain ⟨⟨es, t⟩, h2, h0⟩ := Result.bind_ok.1 h0
  obtain ⟨ops, _, h0⟩ := Result.bind_ok.1 h0
  obtain ⟨f, _, h0⟩ := Result.bind_ok.1 h0
  cases h0
  exact ⟨h1, t, h2⟩

/-- The result of `finish` does not depend on the number of ticks. -/
theorem finish_ticks {tokens : List Token} {es : List Event} {t t' : Nat} :
    d.finish text tokens (.ok (es, t)) = d.finish text tokens (.ok (es, t')) := rfl

end Definition

end Fall
