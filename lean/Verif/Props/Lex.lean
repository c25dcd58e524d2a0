import Verif.Lemmas.Lex

/-!
Property theorems for lexing: C10 - C13.
-/

namespace Fall
open Spec

/-- C10. Lexing with a progressing lexer terminates without panic; the tokens are what the lexer
says at their offsets, are not empty and their lengths sum to the text length. -/
theorem C10_lex_tiles (lexer : Lexer α) (hp : Progress lexer) (text : List α) :
    ∃ ts, lex lexer text = some ts ∧ IsLexing lexer text ts ∧
      (ts.map (·.len)).sum = text.length ∧ ∀ t ∈ ts, 0 < t.len := by
  obtain ⟨ts, h⟩ := IsLexing.exists hp text
  refine ⟨ts, ?_, h, h.sum, ?_⟩
  · have := lexLoop_eq h text.length (Nat.le_refl _) []
    simpa [lex] using this
  · clear hp
    induction ts generalizing text with
    | nil => simp
    | cons t ts ih =>
      obtain ⟨h1, h2, h3, h4⟩ := h
      intro u hu
      rcases List.mem_cons.1 hu with rfl | hu
      · exact h2
      · exact ih _ h4 u hu

/-- C10. Conversely, whatever `lex` returns is a tokenization, for every lexer whose tokens are
never empty (otherwise the loop may not terminate). -/
theorem C10_lex_sound (lexer : Lexer α) (hp : ∀ text, text ≠ [] → 0 < (lexer text).len)
    (text : List α) (ts : List Token) (h : lex lexer text = some ts) : IsLexing lexer text ts := by
  have main : ∀ (fuel : Nat) (text : List α) (acc ts : List Token),
      lexLoop lexer fuel text acc = some ts → ∃ us, ts = acc ++ us ∧ IsLexing lexer text us := by
    intro fuel
    induction fuel with
    | zero =>
      intro text acc ts h
      unfold lexLoop at h
      split at h
      · rename_i he
        cases h
        exact ⟨[], by simp, by simpa [IsLexing] using he⟩
      · simp at h
    | succ fuel ih =>
      intro text acc ts h
      unfold lexLoop at h
      split at h
      · rename_i he
        cases h
        exact ⟨[], by simp, by simpa [IsLexing] using he⟩
      · rename_i he
        simp only [Lexer.step] at h
        split at h
        · rename_i hl
          simp only [Option.bind_some] at h
          obtain ⟨us, rfl, hus⟩ := ih _ _ _ h
          exact ⟨lexer text :: us, by simp, rfl, hp text (by simpa using he), hl, hus⟩
        · simp at h
  obtain ⟨us, h1, h2⟩ := main text.length text [] ts h
  simp at h1
  rwa [h1]

/-- A lexer for the examples: runs of the same symbol are tokens (typed by the symbol). It needs
one symbol of lookahead. -/
def runLexer : Lexer Nat
  | [] => ⟨1, 0⟩
  | c :: rest => ⟨c + 1, 1 + (rest.takeWhile (· == c)).length⟩

theorem runLexer_progress : Progress runLexer := by
  intro text h
  cases text with
  | nil => simp at h
  | cons c rest =>
    simp only [runLexer, List.length_cons]
    have := (List.takeWhile_prefix (· == c) (l := rest)).length_le
    omega

theorem runLexer_lookahead : OneByteLookahead runLexer := by
  intro text text' hty h
  clear hty
  cases text with
  | nil =>
    simp [runLexer] at h
    cases text' with
    | nil => rfl
    | cons c r => simp at h
  | cons c rest =>
    cases text' with
    | nil => simp [runLexer] at h
    | cons d rest' =>
      have e : 1 + (rest.takeWhile (· == c)).length + 1 = (rest.takeWhile (· == c)).length + 1 + 1 := by
        omega
      simp only [runLexer, e, List.take_succ_cons, List.cons.injEq] at h ⊢
      obtain ⟨rfl, h⟩ := h
      suffices hs : (rest'.takeWhile (· == c)).length = (rest.takeWhile (· == c)).length by
        rw [hs]
      clear e
      induction rest generalizing rest' with
      | nil =>
        cases rest' with
        | nil => rfl
        | cons x r => simp at h
      | cons y r ih =>
        cases rest' with
        | nil => simp at h
        | cons x r' =>
          by_cases hy : y = c
          · subst hy
            simp at h
            obtain ⟨rfl, h⟩ := h
            simp [ih r' h]
          · simp [hy] at h
            simp [← h, hy]

example : Progress runLexer ∧ lex runLexer [3, 3, 4, 3] = some [⟨4, 2⟩, ⟨5, 1⟩, ⟨4, 1⟩] :=
  ⟨runLexer_progress, by decide⟩


/-- What `relex` returns when the old tokens are the tokens of the old text: both parts. -/
theorem relex_correct (lexer : Lexer α) (hp : Progress lexer)
    (hla : OneByteLookahead lexer) (oldText newText : List α) (oldTokens : List Token)
    (hold : lex lexer oldText = some oldTokens) (edit : TextEdit α)
    (hedit : edit.apply (Text.ofBuf oldText) = some newText) :
    ∃ ts region, relex lexer oldTokens edit newText = some (ts, region) ∧
      lex lexer newText = some ts := by
  obtain ⟨ts, e, hts, _, _⟩ := C10_lex_tiles lexer hp newText
  unfold relex
  split
  · exact ⟨ts, 0, by simp [e], e⟩
  · rename_i herr
    rw [apply_eq (Text.ofBuf_wf _) (Text.asStr_ofBuf _)] at hedit
    have hlex := C10_lex_sound lexer (fun t h => (hp t h).1) oldText oldTokens hold
    have h0 : RelexInv lexer oldTokens oldText newText ⟨oldTokens, 0, [], 0, [], 0⟩ := by
      refine ⟨trivial, by simp, by simp, by simpa using hlex, by simp, ?_, ⟨[], by simp, by simp, by simp⟩⟩
      intro t ht hty
      apply herr
      simp only [List.any_eq_true]
      exact ⟨t, ht, by simp [hty]⟩
    obtain ⟨s, e1, i1⟩ := relexOps_inv hp hla (newText.length + oldTokens.length) edit.ops [] h0
      hedit (by simp) (Nat.le_refl _)
    simp only [List.length_nil] at e1
    obtain ⟨us, hus⟩ := Spec.IsLexing.exists hp (newText.drop s.newLen)
    have hall : IsLexing lexer newText (s.new ++ us) := by
      apply i1.new.append
      rw [← i1.newLen]; exact hus
    have hrl : s.reused ≤ newText.length := by
      obtain ⟨sub, g1, g2, g3⟩ := i1.ghost
      have := i1.newLe
      have h2 : (sub.map (·.len)).sum ≤ (s.new.map (·.len)).sum := sublist_sum_le g1
      have := i1.newLen
      omega
    refine ⟨ts, newText.length - s.reused, ?_, e⟩
    simp only [e1, Option.bind_some, i1.newLe, if_true]
    rw [lexLoop_eq hus _ (by simp)]
    simp only [Option.bind_some, hrl, if_true]
    rw [hts.unique hall]

/-- C11. Relexing the tokens of the old text through an edit gives the tokens of the new text, for
every edit script that can be applied, and never panics. -/
theorem C11_relex_eq_lex (lexer : Lexer α) (hp : Progress lexer)
    (hla : OneByteLookahead lexer) (oldText newText : List α) (oldTokens : List Token)
    (hold : lex lexer oldText = some oldTokens) (edit : TextEdit α)
    (hedit : edit.apply (Text.ofBuf oldText) = some newText) :
    (relex lexer oldTokens edit newText).map (·.1) = lex lexer newText ∧
      (relex lexer oldTokens edit newText).isSome := by
  obtain ⟨ts, region, h1, h2⟩ := relex_correct lexer hp hla oldText newText oldTokens hold edit hedit
  simp [h1, h2]

/-- A chain of edits, each relexed from the tokens of the previous step. -/
def relexChain (lexer : Lexer α) :
    List (TextEdit α) → List α → List Token → Option (List α × List Token)
  | [], text, tokens => some (text, tokens)
  | e :: es, text, tokens =>
    (e.apply (Text.ofBuf text)).bind fun text' =>
    (relex lexer tokens e text').bind fun r =>
    relexChain lexer es text' r.1

/-- C11. The same after any number of edits: incremental tokens never drift from the text. -/
theorem C11_relex_chain (lexer : Lexer α) (hp : Progress lexer)
    (hla : OneByteLookahead lexer) (edits : List (TextEdit α)) (text finalText : List α)
    (tokens finalTokens : List Token) (h : lex lexer text = some tokens)
    (hchain : relexChain lexer edits text tokens = some (finalText, finalTokens)) :
    lex lexer finalText = some finalTokens := by
  induction edits generalizing text tokens with
  | nil => simp [relexChain] at hchain; obtain ⟨rfl, rfl⟩ := hchain; exact h
  | cons e es ih =>
    simp only [relexChain, Option.bind_eq_some_iff] at hchain
    obtain ⟨text', h1, r, h2, h3⟩ := hchain
    obtain ⟨ts, region, h4, h5⟩ := relex_correct lexer hp hla text text' tokens h e h1
    rw [h4] at h2
    cases h2
    exact ih text' ts h5 h3

/-- The hypotheses are met by a lexer with real lookahead, a script with reordered and overlapping
copies, and a text. -/
example : Progress runLexer ∧ OneByteLookahead runLexer ∧
    lex runLexer [3, 3, 4, 3] = some [⟨4, 2⟩, ⟨5, 1⟩, ⟨4, 1⟩] ∧
    (⟨[.copy ⟨2, 4⟩, .insert [3], .copy ⟨0, 4⟩]⟩ : TextEdit Nat).apply (Text.ofBuf [3, 3, 4, 3]) =
      some [4, 3, 3, 3, 3, 4, 3] ∧
    relex runLexer [⟨4, 2⟩, ⟨5, 1⟩, ⟨4, 1⟩] ⟨[.copy ⟨2, 4⟩, .insert [3], .copy ⟨0, 4⟩]⟩
      [4, 3, 3, 3, 3, 4, 3] = some ([⟨5, 1⟩, ⟨4, 4⟩, ⟨5, 1⟩, ⟨4, 1⟩], 6) :=
  ⟨runLexer_progress, runLexer_lookahead, by decide, by decide, by decide⟩

/-- A lexer that looks two bytes past the token it returns. -/
def farLexer : Lexer Nat
  | 1 :: 1 :: 2 :: _ => ⟨2, 3⟩
  | [] => ⟨1, 0⟩
  | _ => ⟨1, 1⟩

/-- C12. With more than one byte of lookahead, relexing may differ from lexing: a progressing
lexer, a text without error tokens and an edit for which the results are different. -/
theorem C12_lookahead_counterexample :
    ∃ (lexer : Lexer Nat) (oldText newText : List Nat) (oldTokens ts us : List Token)
      (edit : TextEdit Nat) (region : Nat),
      Progress lexer ∧ lex lexer oldText = some oldTokens ∧ (∀ t ∈ oldTokens, t.ty ≠ ERROR) ∧
      edit.apply (Text.ofBuf oldText) = some newText ∧
      relex lexer oldTokens edit newText = some (ts, region) ∧
      lex lexer newText = some us ∧ ts ≠ us := by
  refine ⟨farLexer, [1, 1, 3], [1, 1, 2], [⟨1, 1⟩, ⟨1, 1⟩, ⟨1, 1⟩], [⟨1, 1⟩, ⟨1, 1⟩, ⟨1, 1⟩],
    [⟨2, 3⟩], ⟨[.copy ⟨0, 2⟩, .insert [2]]⟩, 2, ?_, by decide, by decide, by decide, by decide,
    by decide, by decide⟩
  intro text h
  unfold farLexer
  split
  · simp
  · simp at h
  · simp
    cases text with
    | nil => simp at h
    | cons a b => simp

/-- C12. Two bytes of lookahead are already too much: this is the exact boundary of C11. -/
theorem C12_two_bytes_not_enough :
    ∃ (lexer : Lexer Nat), Progress lexer ∧
      (∀ text text', text.take ((lexer text).len + 2) = text'.take ((lexer text).len + 2) →
        lexer text' = lexer text) ∧
      ∃ (oldText newText : List Nat) (oldTokens ts us : List Token)
        (edit : TextEdit Nat) (region : Nat),
      lex lexer oldText = some oldTokens ∧ (∀ t ∈ oldTokens, t.ty ≠ ERROR) ∧
      edit.apply (Text.ofBuf oldText) = some newText ∧
      relex lexer oldTokens edit newText = some (ts, region) ∧
      lex lexer newText = some us ∧ ts ≠ us := by
  refine ⟨farLexer, ?_, ?_, [1, 1, 3], [1, 1, 2], [⟨1, 1⟩, ⟨1, 1⟩, ⟨1, 1⟩],
    [⟨1, 1⟩, ⟨1, 1⟩, ⟨1, 1⟩],
    [⟨2, 3⟩], ⟨[.copy ⟨0, 2⟩, .insert [2]]⟩, 2, by decide, by decide, by decide, by decide,
    by decide, by decide⟩
  · intro text h
    unfold farLexer
    split
    · simp
    · simp at h
    · simp
      cases text with
      | nil => simp at h
      | cons a b => simp
  · intro text text' h
    by_cases h0 : text = []
    · subst h0
      cases text' with
      | nil => rfl
      | cons a b => simp [farLexer] at h
    · have hge : 3 ≤ (farLexer text).len + 2 := by
        unfold farLexer
        split <;> simp_all
      have h3 : text.take 3 = text'.take 3 := by
        have := congrArg (List.take 3) h
        simpa [List.take_take, Nat.min_eq_left hge] using this
      have key : ∀ t : List Nat, farLexer t = farLexer (t.take 3) := by
        intro t
        match t with
        | [] => rfl
        | [a] => rfl
        | [a, b] => rfl
        | a :: b :: c :: r =>
          simp only [List.take_succ_cons, List.take_zero]
          unfold farLexer
          by_cases ha : a = 1 ∧ b = 1 ∧ c = 2
          · obtain ⟨rfl, rfl, rfl⟩ := ha; rfl
          · split <;> split <;> simp_all
      rw [key text', key text, h3]

/-- C13. For every lexer, token list, edit and text: the reported region is at most the new length,
and unless an error token forces a full relex (which is reported as `0`) it is the new length minus
the length of some tokens that are, in order, both in the old and in the new token list. -/
theorem C13_region_accounts (lexer : Lexer α) (oldTokens newTokens : List Token)
    (edit : TextEdit α) (newText : List α) (region : Nat)
    (h : relex lexer oldTokens edit newText = some (newTokens, region)) :
    region ≤ newText.length ∧
    ((∃ t ∈ oldTokens, t.ty = ERROR) → region = 0 ∧ lex lexer newText = some newTokens) ∧
    ((∀ t ∈ oldTokens, t.ty ≠ ERROR) → ∃ kept : List Token, kept.Sublist oldTokens ∧
      kept.Sublist newTokens ∧ region + (kept.map (·.len)).sum = newText.length) := by
  unfold relex at h
  split at h
  · rename_i herr
    simp only [Option.map_eq_some_iff, Prod.mk.injEq] at h
    obtain ⟨ts, h1, rfl, rfl⟩ := h
    simp only [List.any_eq_true] at herr
    obtain ⟨t, ht, hty⟩ := herr
    refine ⟨by simp, fun _ => ⟨rfl, h1⟩, fun hall => ?_⟩
    exact absurd (by simpa using hty) (hall t ht)
  · rename_i herr
    simp only [Option.bind_eq_some_iff] at h
    obtain ⟨s, h1, h2⟩ := h
    split at h2
    · simp only [Option.bind_eq_some_iff] at h2
      obtain ⟨new, h3, h4⟩ := h2
      split at h4
      · rename_i hle
        simp only [Option.some.injEq, Prod.mk.injEq] at h4
        obtain ⟨rfl, rfl⟩ := h4
        have hg : Ghost oldTokens s := relexOps_ghost (oldTokens := oldTokens)
          (s := ⟨oldTokens, 0, [], 0, [], 0⟩) ⟨[], by simp, by simp, by simp⟩ h1
        obtain ⟨sub, g1, g2, g3⟩ := hg
        refine ⟨by omega, ?_, fun _ => ⟨sub, (List.sublist_append_left _ _).trans g2,
          g1.trans (lexLoop_prefix h3).sublist, by omega⟩⟩
        rintro ⟨t, ht, hty⟩
        exact absurd (List.any_eq_true.2 ⟨t, ht, by simp [hty]⟩) herr
      · simp at h4
    · simp at h2

example : relex runLexer [⟨4, 2⟩, ⟨5, 1⟩, ⟨4, 1⟩] ⟨[.copy ⟨0, 4⟩, .insert [3]]⟩
    [3, 3, 4, 3, 3] = some ([⟨4, 2⟩, ⟨5, 1⟩, ⟨4, 2⟩], 2) := by decide

/-- C13. Appending to a text relexes only the last old token and the appended bytes. -/
theorem C13_append_relexes_last_token (lexer : Lexer α) (hp : Progress lexer)
    (hla : OneByteLookahead lexer) (oldText added : List α) (init : List Token) (last : Token)
    (hold : lex lexer oldText = some (init ++ [last]))
    (hne : ∀ t ∈ init ++ [last], t.ty ≠ ERROR) :
    ∃ ts, relex lexer (init ++ [last])
      ⟨[.copy ⟨0, oldText.length⟩, .insert added]⟩ (oldText ++ added) =
        some (ts, last.len + added.length) := by
  have hed : (⟨[.copy ⟨0, oldText.length⟩, .insert added]⟩ : TextEdit α).apply
      (Text.ofBuf oldText) = some (oldText ++ added) := by
    rw [apply_eq (Text.ofBuf_wf _) (Text.asStr_ofBuf _)]
    simp [applyOps, opBytes, bytes]
  obtain ⟨ts, region, h1, _⟩ := relex_correct lexer hp hla oldText _ _ hold _ hed
  refine ⟨ts, ?_⟩
  rw [h1]
  have hlex := C10_lex_sound lexer (fun t h => (hp t h).1) oldText _ hold
  have hsum := hlex.sum
  have hpos : ∀ t ∈ init ++ [last], 0 < t.len := by
    obtain ⟨us, e, _, _, h⟩ := C10_lex_tiles lexer hp oldText
    rw [hold] at e; cases e; exact h
  have hlast := hpos last (by simp)
  unfold relex at h1
  rw [if_neg (by
    simp only [List.any_eq_true, not_exists, not_and, beq_iff_eq]
    exact hne)] at h1
  simp only [Option.bind_eq_some_iff] at h1
  obtain ⟨s, e1, e2⟩ := h1
  simp only [relexOps, Nat.zero_le, if_true, List.drop_zero] at e1
  have l0 : ∀ (f : Nat) (s : RelexState α), lexTo lexer 0 f s = some s := by
    intro f s; unfold lexTo; simp
  have k0 : ∀ (f : Nat) (s : RelexState α), skipTo 0 f s = some s := by
    intro f s; unfold skipTo; simp
  simp only [l0, k0, Option.bind_some] at e1
  have hlen : 0 < oldText.length := by simp at hsum; omega
  obtain ⟨r1, r2⟩ := reuse_all (old := init ++ [last]) (stop := oldText.length) (by simp)
    (s := (⟨init ++ [last], 0, [], 0, oldText ++ added, 0⟩ : RelexState α)) hpos (by simpa using hsum)
  have hsync : ∀ f, syncLoop lexer 0 ⟨0, oldText.length⟩ (f + 1)
      (⟨init ++ [last], 0, [], 0, oldText ++ added, 0⟩ : RelexState α) =
      some (reuse oldText.length (init ++ [last]) ⟨init ++ [last], 0, [], 0, oldText ++ added, 0⟩) := by
    intro f
    unfold syncLoop
    simp only [TextRange.len, Nat.not_lt_zero, or_self, if_false, Nat.sub_zero]
    rw [if_neg (by omega)]
    rw [Nat.compare_eq_eq.2 rfl]
    simp only
    unfold syncLoop
    simp only [TextRange.len, Nat.not_lt_zero, or_self, if_false, Nat.sub_zero]
    have hc := Nat.le_of_eq r2.symm
    simp only [ge_iff_le, hc, or_true, if_true]
  have hfu : (oldText ++ added).length + (init ++ [last]).length =
      ((oldText ++ added).length + init.length) + 1 := by simp; omega
  rw [hfu, hsync] at e1
  simp only [Option.bind_some, Option.some.injEq] at e1
  rw [← e1] at e2
  split at e2
  · simp only [Option.bind_eq_some_iff] at e2
    obtain ⟨new, _, e3⟩ := e2
    split at e3
    · simp only [Option.some.injEq, Prod.mk.injEq] at e3 ⊢
      refine ⟨trivial, ?_⟩
      rw [← e3.2, r1]
      simp at hsum ⊢
      omega
    · simp at e3
  · simp at e2

example : Progress runLexer ∧ OneByteLookahead runLexer ∧
    lex runLexer [3, 3, 4, 3] = some ([⟨4, 2⟩, ⟨5, 1⟩] ++ [⟨4, 1⟩]) ∧
    (∀ t ∈ [⟨4, 2⟩, ⟨5, 1⟩] ++ [(⟨4, 1⟩ : Token)], t.ty ≠ ERROR) :=
  ⟨runLexer_progress, runLexer_lookahead, by decide, by decide⟩

end Fall
