import Verif.Lemmas.FallTokens
import Verif.Lemmas.RelexCongr
import Verif.Props.Lex

/-! Texts where only some of the rules find tokens. -/

namespace Fall

open Spec

theorem Spec.LongestFirst.filter {rules : List LexRule} {text : List Nat} {t : Token} (keep : LexRule → Bool)
    (hno : ∀ r ∈ rules, keep r = false → ∀ n, ¬ FindsHere r text n) (h : LongestFirst rules text t) :
    LongestFirst (rules.filter keep) text t := by
  obtain ⟨A, r, B, rfl, h2, h3, h4, h5⟩ := h
  have hr : keep r = true := by
    cases hk : keep r with
    | true => rfl
    | false => exact absurd h3 (hno r (by simp) hk _)
  refine ⟨A.filter keep, r, B.filter keep, by simp [hr], h2, h3, fun q hq => h4 q (List.mem_filter.1 hq).1,
    fun q hq => h5 q ?_⟩
  rcases List.mem_cons.1 hq with rfl | hq
  · simp
  · exact List.mem_cons_of_mem _ (List.mem_filter.1 hq).1

theorem ascii_drop (x : List Nat) (n : Nat) (h : Ascii x) : Ascii (x.drop n) := fun b hb => h b (List.mem_of_mem_drop hb)

/-- A lexer for ASCII texts is as good as one for all texts. -/
theorem Spec.LexesAscii.extend {rules : List LexRule} {lexer : Lexer Nat} (h : LexesAscii rules lexer) :
    ∃ l2, LexesLongest rules l2 ∧ ∀ text, Ascii text → lexer text = l2 text := by
  classical
  have h0 := calm_longest rules
  refine ⟨fun text => if Ascii text then lexer text else ruleLexer (rules.map LexRule.calm) text,
    ⟨fun text hne => ?_, fun text hex => ?_, fun text hex => ?_⟩, fun text ht => by simp [ht]⟩
  all_goals
    by_cases hp : Ascii text
    · simp only [hp, if_true]
      first | exact h.progress text hne | exact h.found text hp hex | exact h.error text hp hex
    · simp only [hp, if_false]
      first | exact h0.progress text hne | exact h0.found text hex | exact h0.error text hex

theorem Spec.LexesLongest.ascii {rules : List LexRule} {lexer : Lexer Nat} (h : LexesLongest rules lexer) :
    LexesAscii rules lexer := ⟨h.progress, fun text _ => h.found text, fun text _ => h.error text⟩

/-- It is enough to look at lexers for all texts. -/
theorem relexesWhere_of {rules : List LexRule} {ok : List Nat → Prop}
    (h : ∀ lexer, LexesLongest rules lexer → ∀ oldText newText tokens edit, ok oldText → ok newText →
      lex lexer oldText = some tokens → TextEdit.apply edit (Text.ofBuf oldText) = some newText →
      RelexesTo lexer tokens edit newText) : RelexesWhere rules ok := by
  intro lexer hl oldText newText tokens edit ha1 ha2 ho hn hold hedit
  obtain ⟨l2, h2, hag⟩ := hl.extend
  obtain ⟨ts, region, h3, h4⟩ := h l2 h2 oldText newText tokens edit ho hn
    (by rw [← lex_congr ascii_drop hag ha1]; exact hold) hedit
  exact ⟨ts, region, by rw [relex_congr ascii_drop hag ha2]; exact h3, by rw [lex_congr ascii_drop hag ha2]; exact h4⟩

/-- Relexing texts where only some rules find tokens, and these look at no more than one byte after a token. -/
theorem relex_plain {rules : List LexRule} {lexer : Lexer Nat} (h : LexesLongest rules lexer)
    {keep : LexRule → Bool} (hla : ∀ lexer, LexesLongest (rules.filter keep) lexer → OneByteLookahead lexer)
    {P : List Nat → Prop}
    (hP : ∀ x n, P x → P (x.drop n)) (hno : ∀ text, P text → ∀ r ∈ rules, keep r = false → ∀ n, ¬ FindsHere r text n)
    {oldText newText : List Nat} (ho : P oldText) (hn : P newText) {tokens : List Token}
    (hold : lex lexer oldText = some tokens) {edit : TextEdit Nat}
    (hedit : edit.apply (Text.ofBuf oldText) = some newText) : RelexesTo lexer tokens edit newText := by
  classical
  let l2 : Lexer Nat := fun text => if P text then lexer text else ruleLexer ((rules.filter keep).map LexRule.calm) text
  have h0 := calm_longest (rules.filter keep)
  have hag : ∀ x, P x → lexer x = l2 x := fun x hx => by simp [l2, hx]
  have h2 : LexesLongest (rules.filter keep) l2 := by
    refine ⟨fun text hne => ?_, fun text hex => ?_, fun text hex => ?_⟩
    · by_cases hp : P text
      · rw [← hag text hp]; exact h.progress text hne
      · simp only [l2, hp, if_false]; exact h0.progress text hne
    · by_cases hp : P text
      · rw [← hag text hp]
        obtain ⟨r, hr, n, hn⟩ := hex
        exact (h.found text ⟨r, (List.mem_filter.1 hr).1, n, hn⟩).filter keep (hno text hp)
      · simp only [l2, hp, if_false]; exact h0.found text hex
    · by_cases hp : P text
      · rw [← hag text hp]
        refine h.error text fun ⟨r, hr, n, hn⟩ => ?_
        cases hk : keep r with
        | true => exact hex ⟨r, List.mem_filter.2 ⟨hr, hk⟩, n, hn⟩
        | false => exact hno text hp r hr hk n hn
      · simp only [l2, hp, if_false]; exact h0.error text hex
  obtain ⟨ts, region, h3, h4⟩ := relex_correct l2 h2.progress (hla l2 h2) oldText newText tokens
    (by rw [← lex_congr hP hag ho]; exact hold) edit hedit
  exact ⟨ts, region, by rw [relex_congr hP hag hn]; exact h3, by rw [lex_congr hP hag hn]; exact h4⟩

/-- All strings that are described have the byte. -/
def Re.has (b : Nat) : Re → Bool
  | .never => true
  | .empty => false
  | .set ranges => ranges.all fun r => r.1 == b && r.2 == b
  | .seq x y => x.has b || y.has b
  | .alt x y => x.has b && y.has b
  | .star _ => false

theorem Re.has_mem {b : Nat} {r : Re} {s : List Nat} (h : r.has b = true) (hm : Matches r s) : b ∈ s := by
  induction hm with
  | empty => cases h
  | @set c lo hi ranges h1 h2 h3 =>
    have := List.all_eq_true.1 h _ h1
    simp only [Bool.and_eq_true, beq_iff_eq] at this
    simp
    omega
  | seq _ _ ih1 ih2 =>
    simp only [Re.has, Bool.or_eq_true] at h
    rcases h with h | h
    · exact List.mem_append_left _ (ih1 h)
    · exact List.mem_append_right _ (ih2 h)
  | left _ ih =>
    simp only [Re.has, Bool.and_eq_true] at h
    exact ih h.1
  | right _ ih =>
    simp only [Re.has, Bool.and_eq_true] at h
    exact ih h.2
  | starNil => cases h
  | starCons => cases h

/-- A rule finds nothing in texts without a byte it needs. -/
theorem finds_has {r : LexRule} {b : Nat} (hb : r.re.has b = true) {text : List Nat} (ht : b ∉ text) {n : Nat} :
    ¬ FindsHere r text n := by
  intro h
  have key : ∃ k, Matches r.re (text.take k) := by
    have := h.2.2
    unfold Finds at this
    split at this
    · exact ⟨n, this⟩
    · exact this.1
  obtain ⟨k, hk⟩ := key
  exact ht (List.mem_of_mem_take (Re.has_mem hb hk))

end Fall
