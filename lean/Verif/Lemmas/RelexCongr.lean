import Verif.Model.Lex

/-! Lexing with lexers that agree on some texts. -/

namespace Fall

variable {α : Type u} {l1 l2 : Lexer α} {P : List α → Prop} (hP : ∀ x n, P x → P (x.drop n))
  (hag : ∀ x, P x → l1 x = l2 x)

include hP hag

theorem lexLoop_congr {fuel : Nat} {text : List α} {result : List Token} (h : P text) :
    lexLoop l1 fuel text result = lexLoop l2 fuel text result := by
  induction fuel generalizing text result with
  | zero => unfold lexLoop; rfl
  | succ fuel ih =>
    unfold lexLoop
    split
    · rfl
    · simp only [Lexer.step, ← hag text h]
      split
      · exact ih (hP _ _ h)
      · rfl

theorem lex_congr {text : List α} (h : P text) : lex l1 text = lex l2 text := lexLoop_congr hP hag h

theorem stepNew_congr {s : RelexState α} (h : P s.txt) :
    s.stepNew l1 = s.stepNew l2 ∧ ∀ s', s.stepNew l2 = some s' → P s'.txt := by
  unfold RelexState.stepNew Lexer.step
  rw [hag _ h]
  refine ⟨rfl, fun s' hs => ?_⟩
  simp only at hs
  split at hs
  · cases hs; exact hP _ _ h
  · cases hs

theorem lexTo_congr {e fuel : Nat} {s : RelexState α} (h : P s.txt) :
    lexTo l1 e fuel s = lexTo l2 e fuel s ∧ ∀ s', lexTo l2 e fuel s = some s' → P s'.txt := by
  induction fuel generalizing s with
  | zero =>
    unfold lexTo
    split
    · exact ⟨rfl, fun _ hs => by cases hs⟩
    · exact ⟨rfl, fun _ hs => by cases hs; exact h⟩
  | succ fuel ih =>
    unfold lexTo
    split
    · obtain ⟨h1, h2⟩ := stepNew_congr hP hag h
      simp only
      rw [h1]
      cases hs : s.stepNew l2 with
      | none => exact ⟨rfl, fun _ h => by cases h⟩
      | some s' => exact ih (h2 s' hs)
    · exact ⟨rfl, fun _ hs => by cases hs; exact h⟩

omit hP hag in
theorem skipOld_txt {s s' : RelexState α} (h : s.skipOld = some s') : s'.txt = s.txt := by
  unfold RelexState.skipOld at h
  split at h
  · cases h
  · cases h; rfl

omit hP hag in
theorem skipTo_txt {e fuel : Nat} {s s' : RelexState α} (h : skipTo e fuel s = some s') : s'.txt = s.txt := by
  induction fuel generalizing s with
  | zero =>
    unfold skipTo at h
    split at h <;> cases h
    rfl
  | succ fuel ih =>
    unfold skipTo at h
    split at h
    · simp only [Option.bind_eq_some_iff] at h
      obtain ⟨s1, h1, h2⟩ := h
      rw [ih h2, skipOld_txt h1]
    · cases h; rfl

omit hP hag in
theorem reuse_txt {stop : Nat} {old : List Token} {s : RelexState α} : (reuse stop old s).txt = s.txt := by
  induction old generalizing s with
  | nil => rfl
  | cons t old ih =>
    unfold reuse
    simp only
    split
    · rfl
    · rw [ih]

theorem syncLoop_congr {e fuel : Nat} {range : TextRange} {s : RelexState α} (h : P s.txt) :
    syncLoop l1 e range fuel s = syncLoop l2 e range fuel s := by
  induction fuel generalizing s with
  | zero => unfold syncLoop; rfl
  | succ fuel ih =>
    unfold syncLoop
    split
    · rfl
    · simp only
      split
      · rfl
      · split
        · obtain ⟨h1, h2⟩ := stepNew_congr hP hag h
          rw [h1]
          cases hs : s.stepNew l2 with
          | none => rfl
          | some s' => exact ih (h2 s' hs)
        · exact ih (by rw [reuse_txt]; exact h)
        · cases hs : s.skipOld with
          | none => rfl
          | some s' => exact ih (by rw [skipOld_txt hs]; exact h)

theorem relexOps_congr {newText : List α} {fuel e : Nat} {ops : List (TextEditOp α)} {s : RelexState α}
    (h : P newText) : relexOps l1 newText fuel ops e s = relexOps l2 newText fuel ops e s := by
  induction ops generalizing e s with
  | nil => rfl
  | cons op ops ih =>
    cases op with
    | insert buf => exact ih
    | copy range =>
      unfold relexOps
      split
      · obtain ⟨h1, h2⟩ := lexTo_congr (e := e) (fuel := fuel) hP hag
          (s := { s with txt := newText.drop s.newLen }) (hP _ _ h)
        rw [h1]
        cases hs : lexTo l2 e fuel { s with txt := newText.drop s.newLen } with
        | none => rfl
        | some s1 =>
          simp only [Option.bind_some]
          cases hs2 : skipTo range.start fuel s1 with
          | none => rfl
          | some s2 =>
            simp only [Option.bind_some]
            rw [syncLoop_congr hP hag (by rw [skipTo_txt hs2]; exact h2 s1 hs)]
            cases syncLoop l2 e range fuel s2 with
            | none => rfl
            | some s3 => exact ih
      · rfl

/-- Relexing looks at the new text only. -/
theorem relex_congr {tokens : List Token} {edit : TextEdit α} {newText : List α} (h : P newText) :
    relex l1 tokens edit newText = relex l2 tokens edit newText := by
  unfold relex
  simp only
  rw [lex_congr hP hag h, relexOps_congr hP hag h]
  split
  · rfl
  · cases relexOps l2 newText (newText.length + tokens.length) edit.ops 0 ⟨tokens, 0, [], 0, [], 0⟩ with
    | none => rfl
    | some s =>
      simp only [Option.bind_some]
      rw [lexLoop_congr hP hag (hP _ _ h)]

end Fall
