import Verif.Spec.Lines

/-!
Lemmas about lines and about symbol search.
-/

namespace Fall

open Spec

@[simp] theorem utf8Len_nil : utf8Len [] = 0 := rfl

@[simp] theorem utf8Len_cons (c : Char) (s : List Char) : utf8Len (c :: s) = c.utf8Size + utf8Len s := rfl

@[simp] theorem utf8Len_append (s t : List Char) : utf8Len (s ++ t) = utf8Len s + utf8Len t := by
  simp [utf8Len]

namespace Lines

theorem newlinesFrom_get (text : List Char) (curr k x : Nat) :
    (newlinesFrom curr text)[k]? = some x ↔
      ∃ a b, text = a ++ '\n' :: b ∧ a.count '\n' = k ∧ x = curr + utf8Len a + 1 := by
  induction text generalizing curr k with
  | nil => simp [newlinesFrom]
  | cons c cs ih =>
    by_cases hc : c = '\n'
    · subst hc
      have h1 : ('\n' : Char).utf8Size = 1 := by decide
      simp only [newlinesFrom, if_true, h1]
      cases k with
      | zero =>
        simp only [List.getElem?_cons_zero, Option.some.injEq]
        constructor
        · rintro rfl
          exact ⟨[], cs, rfl, rfl, rfl⟩
        · rintro ⟨a, b, h2, h3, h4⟩
          cases a with
          | nil => simpa using h4.symm
          | cons a as =>
            simp only [List.cons_append, List.cons.injEq] at h2
            rw [← h2.1] at h3
            simp at h3
      | succ k =>
        rw [List.getElem?_cons_succ, ih]
        constructor
        · rintro ⟨a, b, h2, h3, h4⟩
          refine ⟨'\n' :: a, b, by simp [h2], by simp [h3], ?_⟩
          simp only [utf8Len_cons, h1]
          omega
        · rintro ⟨a, b, h2, h3, h4⟩
          cases a with
          | nil => simp at h3
          | cons a as =>
            simp only [List.cons_append, List.cons.injEq] at h2
            rw [← h2.1] at h3 h4
            refine ⟨as, b, h2.2, by simpa using h3, ?_⟩
            simp only [utf8Len_cons, h1] at h4
            omega
    · simp only [newlinesFrom, if_neg hc, ih]
      constructor
      · rintro ⟨a, b, h2, h3, h4⟩
        refine ⟨c :: a, b, by simp [h2], by simp [List.count_cons, hc, h3], ?_⟩
        simp only [utf8Len_cons]
        omega
      · rintro ⟨a, b, h2, h3, h4⟩
        cases a with
        | nil => simp at h2; exact absurd h2.1 hc
        | cons a as =>
          simp only [List.cons_append, List.cons.injEq] at h2
          rw [← h2.1] at h3 h4
          refine ⟨as, b, h2.2, by simpa [List.count_cons, hc] using h3, ?_⟩
          simp only [utf8Len_cons] at h4
          omega

theorem newlinesFrom_sorted (text : List Char) (curr : Nat) :
    (newlinesFrom curr text).Pairwise (· ≤ ·) ∧ ∀ x ∈ newlinesFrom curr text, curr ≤ x := by
  induction text generalizing curr with
  | nil => simp [newlinesFrom]
  | cons c cs ih =>
    obtain ⟨h1, h2⟩ := ih (curr + c.utf8Size)
    simp only [newlinesFrom]
    split
    · refine ⟨List.pairwise_cons.2 ⟨h2, h1⟩, fun x hx => ?_⟩
      rcases List.mem_cons.1 hx with rfl | hx
      · omega
      · have := h2 x hx
        omega
    · exact ⟨h1, fun x hx => by have := h2 x hx; omega⟩

/-- The line number `k` begins after `k` newlines. -/
theorem starts_get (text : List Char) (k x : Nat) :
    (LineIndex.new text).newlines[k]? = some x ↔
      ∃ before rest, text = before ++ rest ∧ before.count '\n' = k ∧
        (before = [] ∨ ∃ b, before = b ++ ['\n']) ∧ x = utf8Len before := by
  cases k with
  | zero =>
    simp only [LineIndex.new, List.getElem?_cons_zero, Option.some.injEq]
    constructor
    · rintro rfl
      exact ⟨[], text, rfl, rfl, Or.inl rfl, rfl⟩
    · rintro ⟨before, rest, -, h2, rfl | ⟨b, rfl⟩, h4⟩
      · exact h4.symm
      · simp at h2
  | succ k =>
    simp only [LineIndex.new, List.getElem?_cons_succ, newlinesFrom_get]
    have h1 : ('\n' : Char).utf8Size = 1 := by decide
    constructor
    · rintro ⟨a, b, h2, h3, h4⟩
      exact ⟨a ++ ['\n'], b, by simp [h2], by simp [h3], Or.inr ⟨a, rfl⟩, by simp [h1]; omega⟩
    · rintro ⟨before, rest, h2, h3, rfl | ⟨b, rfl⟩, h4⟩
      · simp at h3
      · exact ⟨b, rest, by simpa using h2, by simpa using h3, by simpa [h1] using h4⟩

theorem starts_sorted (text : List Char) : (LineIndex.new text).newlines.Pairwise (· ≤ ·) :=
  List.pairwise_cons.2 ⟨fun _ _ => Nat.zero_le _, (newlinesFrom_sorted text 0).1⟩

theorem lt_countP {l : List Nat} (h : l.Pairwise (· ≤ ·)) {i x y : Nat} (hi : l[i]? = some y) :
    i < l.countP (decide <| · ≤ x) ↔ y ≤ x := by
  induction l generalizing i with
  | nil => simp at hi
  | cons a l ih =>
    rw [List.pairwise_cons] at h
    by_cases ha : a ≤ x
    · rw [List.countP_cons_of_pos (by simpa using ha)]
      cases i with
      | zero => simp at hi; subst hi; simp [ha]
      | succ i =>
        rw [List.getElem?_cons_succ] at hi
        have := ih h.2 hi
        omega
    · rw [List.countP_cons_of_neg (by simpa using ha)]
      have h0 : l.countP (decide <| · ≤ x) = 0 := by
        rw [List.countP_eq_zero]
        intro z hz
        have := h.1 z hz
        simp
        omega
      rw [h0]
      have : a ≤ y := by
        cases i with
        | zero => simp at hi; omega
        | succ i => exact h.1 y (List.mem_of_getElem? hi)
      omega

theorem translate_iff {f : List Nat → Nat → Nat} (hf : UpperBound f) (text : List Char) (offset n col : Nat) :
    (LineIndex.new text).translate f offset = some ⟨n, col⟩ ↔
      ∃ x, (LineIndex.new text).newlines[n]? = some x ∧ offset = x + col ∧
        ∀ y, (LineIndex.new text).newlines[n + 1]? = some y → offset < y := by
  have hs := starts_sorted text
  have h0 : (LineIndex.new text).newlines[0]? = some 0 := rfl
  simp only [LineIndex.translate, hf _ _ hs]
  generalize (LineIndex.new text).newlines = l at hs h0
  generalize hu : l.countP (decide <| · ≤ offset) = u
  have hpos : 0 < u := by rw [← hu]; exact (lt_countP hs h0).2 (Nat.zero_le _)
  have hle : u ≤ l.length := by rw [← hu]; exact List.countP_le_length
  rw [if_neg (by omega)]
  obtain ⟨x, hx⟩ : ∃ x, l[u - 1]? = some x := ⟨l[u - 1], List.getElem?_eq_getElem (by omega)⟩
  have hxo : x ≤ offset := (lt_countP hs hx).1 (by rw [hu]; omega)
  simp only [hx, Option.bind_eq_bind, Option.bind_some]
  rw [if_neg (by omega)]
  constructor
  · intro h
    simp only [Option.some.injEq, LineCol.mk.injEq] at h
    obtain ⟨rfl, rfl⟩ := h
    refine ⟨x, hx, by omega, fun y hy => ?_⟩
    have := (lt_countP (x := offset) hs hy)
    omega
  · rintro ⟨x', h1, h2, h3⟩
    have h4 := (lt_countP (x := offset) hs h1).2 (by omega)
    have h5 : u = n + 1 := by
      rw [hu] at h4
      rcases Nat.lt_or_ge (n + 1) u with h | h
      · obtain ⟨y, hy⟩ : ∃ y, l[n + 1]? = some y := ⟨l[n + 1], List.getElem?_eq_getElem (by omega)⟩
        have h6 := (lt_countP (x := offset) hs hy).1 (by omega)
        have := h3 y hy
        omega
      · omega
    subst h5
    simp only [Nat.add_sub_cancel] at hx ⊢
    rw [hx] at h1
    simp only [Option.some.injEq] at h1
    subst h1
    simp
    omega

/-- A string up to its first newline. -/
theorem first_newline (s : List Char) : '\n' ∉ s ∨ ∃ l r, s = l ++ '\n' :: r ∧ '\n' ∉ l := by
  induction s with
  | nil => simp
  | cons c s ih =>
    by_cases hc : c = '\n'
    · exact Or.inr ⟨[], s, by simp [hc], by simp⟩
    · rcases ih with h | ⟨l, r, h1, h2⟩
      · exact Or.inl (by simp [h, Ne.symm hc])
      · exact Or.inr ⟨c :: l, r, by simp [h1], by simp [h2, Ne.symm hc]⟩

theorem append_count_eq {a b c d : List Char} (h : a ++ b = c ++ d) (hn : a.count '\n' = c.count '\n')
    (ha : a = [] ∨ ∃ b, a = b ++ ['\n']) (hc : c = [] ∨ ∃ b, c = b ++ ['\n']) : a = c := by
  rcases List.append_eq_append_iff.1 h with ⟨e, h1, h2⟩ | ⟨e, h1, h2⟩
  · subst h1
    rw [List.count_append] at hn
    have he : '\n' ∉ e := List.count_eq_zero.1 (by omega)
    rcases List.eq_nil_or_concat e with rfl | ⟨e', x, rfl⟩
    · simp
    · rcases hc with hc | ⟨b, hb⟩
      · simp at hc
      · rw [List.concat_eq_append, ← List.append_assoc] at hb
        obtain ⟨-, h3⟩ := List.append_inj' hb rfl
        simp at h3
        subst h3
        simp at he
  · subst h1
    rw [List.count_append] at hn
    have he : '\n' ∉ e := List.count_eq_zero.1 (by omega)
    rcases List.eq_nil_or_concat e with rfl | ⟨e', x, rfl⟩
    · simp
    · rcases ha with hc | ⟨b, hb⟩
      · simp at hc
      · rw [List.concat_eq_append, ← List.append_assoc] at hb
        obtain ⟨-, h3⟩ := List.append_inj' hb rfl
        simp at h3
        subst h3
        simp at he

theorem isAt_iff (text : List Char) (offset n col : Nat) :
    IsAt text offset n col ↔
      ∃ x, (LineIndex.new text).newlines[n]? = some x ∧ offset = x + col ∧
        ∀ y, (LineIndex.new text).newlines[n + 1]? = some y → offset < y := by
  have hnl : ('\n' : Char).utf8Size = 1 := by decide
  constructor
  · rintro ⟨before, line, after, ⟨h1, h2, h3, h4⟩, h5, h6⟩
    refine ⟨utf8Len before, (starts_get _ _ _).2 ⟨before, line ++ after, by simpa using h1, h2, h3, rfl⟩, h5, ?_⟩
    intro y hy
    obtain ⟨b', r', g1, g2, g3, g4⟩ := (starts_get _ _ _).1 hy
    rcases h4 with ⟨h4, h7⟩ | ⟨l, rfl, h4⟩
    · exfalso
      subst h7
      have hc := congrArg (List.count '\n') (h1.symm.trans g1)
      have := List.count_eq_zero.2 h4
      simp only [List.count_append, List.count_nil] at hc
      omega
    · have hb : before ++ (l ++ ['\n']) = b' := append_count_eq (b := after) (d := r')
        (by rw [← g1, h1])
        (by simp [h2, g2, List.count_eq_zero.2 h4])
        (Or.inr ⟨before ++ l, by simp⟩) g3
      rcases h6 with h6 | ⟨h6, -⟩
      · subst g4
        rw [← hb]
        simp only [utf8Len_append] at h6 ⊢
        omega
      · simp at h6
  · rintro ⟨x, hx, h2, h3⟩
    obtain ⟨before, rest, g1, g2, g3, g4⟩ := (starts_get _ _ _).1 hx
    rcases first_newline rest with h | ⟨l, r, h4, h5⟩
    · exact ⟨before, rest, [], ⟨by simp [g1], g2, g3, Or.inl ⟨h, rfl⟩⟩, by omega, Or.inr ⟨h, rfl⟩⟩
    · refine ⟨before, l ++ ['\n'], r, ⟨by simp [g1, h4], g2, g3, Or.inr ⟨l, rfl, h5⟩⟩, by omega, Or.inl ?_⟩
      have := h3 _ ((starts_get text (n + 1) _).2 ⟨before ++ (l ++ ['\n']), r, by simp [g1, h4],
        by simp [g2, List.count_eq_zero.2 h5], Or.inr ⟨before ++ l, by simp⟩, rfl⟩)
      simp only [utf8Len_append] at this ⊢
      omega

theorem translate_total {f : List Nat → Nat → Nat} (hf : UpperBound f) (text : List Char) (offset : Nat) :
    ∃ lc, (LineIndex.new text).translate f offset = some lc := by
  have hs := starts_sorted text
  have h0 : (LineIndex.new text).newlines[0]? = some 0 := rfl
  simp only [LineIndex.translate, hf _ _ hs]
  generalize (LineIndex.new text).newlines = l at hs h0
  generalize hu : l.countP (decide <| · ≤ offset) = u
  have hpos : 0 < u := by rw [← hu]; exact (lt_countP hs h0).2 (Nat.zero_le _)
  have hle : u ≤ l.length := by rw [← hu]; exact List.countP_le_length
  rw [if_neg (by omega)]
  obtain ⟨x, hx⟩ : ∃ x, l[u - 1]? = some x := ⟨l[u - 1], List.getElem?_eq_getElem (by omega)⟩
  have hxo : x ≤ offset := (lt_countP hs hx).1 (by rw [hu]; omega)
  simp only [hx, Option.bind_eq_bind, Option.bind_some]
  rw [if_neg (by omega)]
  exact ⟨_, rfl⟩

end Lines

namespace FstSubSeq

theorem accept_le (a : FstSubSeq) {s : Nat} (h : s ≤ a.query.length) (b : UInt8) :
    s ≤ a.accept s b ∧ a.accept s b ≤ a.query.length := by
  unfold accept
  split
  · split <;> omega
  · omega

/-- The automaton in state `s` looks for the rest of the query. -/
theorem run_iff (a : FstSubSeq) (name : List UInt8) (s : Nat) (h : s ≤ a.query.length) :
    a.isMatch (name.foldl a.accept s) = true ↔ (a.query.drop s).Sublist name := by
  induction name generalizing s with
  | nil =>
    simp [isMatch, List.drop_eq_nil_iff]
    omega
  | cons b name ih =>
    rw [List.foldl_cons, ih _ (a.accept_le h b).2]
    unfold accept
    split
    · rename_i hlt
      rw [List.drop_eq_getElem_cons hlt]
      split
      · rename_i hb
        rw [hb]
        exact List.cons_sublist_cons.symm
      · rename_i hb
        rw [← List.drop_eq_getElem_cons hlt]
        constructor
        · exact fun h => h.cons b
        · intro h
          rw [List.drop_eq_getElem_cons hlt] at h ⊢
          cases h with
          | cons _ h => exact h
          | cons_cons => exact absurd rfl hb
    · rw [List.drop_eq_nil_of_le (by omega)]
      simp

end FstSubSeq

end Fall
