import Verif.Spec.ArithText
import Verif.Spec.Arith
import Verif.Lemmas.Parens

/-!
Texts of arithmetic expressions and their tokens.
-/

namespace Fall

open Spec

namespace ArithWritten

/-- The type of the token of one character. -/
def sign (c : Nat) : Option NodeType :=
  if c = 43 then some 102 else if c = 45 then some 103 else if c = 42 then some 104 else if c = 47 then some 105
  else if c = 33 then some 106 else if c = 40 then some 107 else if c = 41 then some 108 else none

/-- The tokens of a text that are not white space; the flag says that the character before is a digit. -/
def emit : Bool → List Nat → List NodeType
  | _, [] => []
  | inNumber, c :: cs =>
    if 48 ≤ c ∧ c ≤ 57 then (if inNumber then emit true cs else 101 :: emit true cs)
    else match sign c with
      | some ty => ty :: emit false cs
      | none => emit false cs

/-- Characters of arithmetic expressions. -/
def Allowed (c : Nat) : Prop := DecimalDigit c ∨ BlankChar c ∨ ∃ ty, sign c = some ty

theorem sign_cases {c : Nat} {ty : NodeType} (h : sign c = some ty) :
    c = 43 ∧ ty = 102 ∨ c = 45 ∧ ty = 103 ∨ c = 42 ∧ ty = 104 ∨ c = 47 ∧ ty = 105 ∨ c = 33 ∧ ty = 106 ∨
      c = 40 ∧ ty = 107 ∨ c = 41 ∧ ty = 108 := by
  unfold sign at h
  split at h
  · simp_all
  split at h
  · simp_all
  split at h
  · simp_all
  split at h
  · simp_all
  split at h
  · simp_all
  split at h
  · simp_all
  split at h
  · simp_all
  · cases h

theorem sign_blank {c : Nat} (h : BlankChar c) : sign c = none ∧ ¬ (48 ≤ c ∧ c ≤ 57) := by
  refine ⟨?_, by unfold BlankChar at h; omega⟩
  cases hs : sign c with
  | none => rfl
  | some ty => have := sign_cases hs; unfold BlankChar at h; omega

theorem sign_digit {c : Nat} {ty : NodeType} (h : sign c = some ty) : ¬ (48 ≤ c ∧ c ≤ 57) := by
  have := sign_cases h
  omega

theorem emit_sign {c : Nat} {ty : NodeType} (h : sign c = some ty) (f : Bool) (cs : List Nat) :
    emit f (c :: cs) = ty :: emit false cs := by
  simp only [emit, if_neg (sign_digit h), h]

theorem emit_blank {c : Nat} (h : BlankChar c) (f : Bool) (cs : List Nat) : emit f (c :: cs) = emit false cs := by
  simp only [emit, if_neg (sign_blank h).2, (sign_blank h).1]

theorem emit_digits : (ds : List Nat) → (∀ d ∈ ds, DecimalDigit d) → (rest : List Nat) → emit true (ds ++ rest) = emit true rest
  | [], _, _ => rfl
  | d :: ds, h, rest => by
    have hd : 48 ≤ d ∧ d ≤ 57 := h d (by simp)
    simp only [List.cons_append, emit, if_pos hd, if_true]
    exact emit_digits ds (fun x hx => h x (by simp [hx])) rest

theorem emit_number {ds : List Nat} (hne : ds ≠ []) (h : ∀ d ∈ ds, DecimalDigit d) (rest : List Nat) :
    emit false (ds ++ rest) = 101 :: emit true rest := by
  cases ds with
  | nil => exact absurd rfl hne
  | cons d ds =>
    have hd : 48 ≤ d ∧ d ≤ 57 := h d (by simp)
    simp only [List.cons_append, emit, if_pos hd, Bool.false_eq_true, if_false]
    rw [emit_digits ds (fun x hx => h x (by simp [hx]))]

theorem emit_true {rest : List Nat} (h : ∀ c, rest.head? = some c → ¬ DecimalDigit c) : emit true rest = emit false rest := by
  cases rest with
  | nil => rfl
  | cons c cs =>
    have : ¬ (48 ≤ c ∧ c ≤ 57) := h c rfl
    simp only [emit, if_neg this]

theorem emit_append (f : Bool) : (a : List Nat) → (c : Nat) → (b : List Nat) → ¬ (48 ≤ c ∧ c ≤ 57) →
    emit f (a ++ c :: b) = emit f a ++ emit false (c :: b)
  | [], c, b, h => by
    cases f
    · rfl
    · exact emit_true fun c' hc => by cases hc; exact h
  | x :: a, c, b, h => by
    simp only [List.cons_append, emit]
    by_cases hx : 48 ≤ x ∧ x ≤ 57
    · simp only [if_pos hx]
      have := emit_append true a c b h
      cases f
      · simp [this, emit]
      · simp [this, emit]
    · simp only [if_neg hx]
      have := emit_append false a c b h
      split
      · simp [this, emit]
      · simp [this, emit]

/-- The tokens of the text of an expression. -/
theorem emit_text {s : List Nat} (h : ArithText s) : ∃ a : Arith, emit false s = a.tokens := by
  have one : ∀ {c : Nat} {ty : NodeType} {s t : List Nat}, sign c = some ty →
      emit false (s ++ c :: t) = emit false s ++ ty :: emit false t := fun hs => by
    rw [emit_append _ _ _ _ (sign_digit hs), emit_sign hs]
  induction h with
  | number hne h => exact ⟨.num, by simpa [emit, Arith.tokens] using emit_number hne h []⟩
  | before hc _ ih => rw [emit_blank hc]; exact ih
  | after hc _ ih =>
    rw [emit_append _ _ _ _ (sign_blank hc).2, emit_blank hc]
    simpa [emit] using ih
  | plus _ _ ih1 ih2 =>
    obtain ⟨a, ha⟩ := ih1; obtain ⟨b, hb⟩ := ih2
    exact ⟨.sum false a b, by rw [one (ty := 102) rfl, ha, hb]; rfl⟩
  | minus _ _ ih1 ih2 =>
    obtain ⟨a, ha⟩ := ih1; obtain ⟨b, hb⟩ := ih2
    exact ⟨.sum true a b, by rw [one (ty := 103) rfl, ha, hb]; rfl⟩
  | times _ _ ih1 ih2 =>
    obtain ⟨a, ha⟩ := ih1; obtain ⟨b, hb⟩ := ih2
    exact ⟨.prod false a b, by rw [one (ty := 104) rfl, ha, hb]; rfl⟩
  | over _ _ ih1 ih2 =>
    obtain ⟨a, ha⟩ := ih1; obtain ⟨b, hb⟩ := ih2
    exact ⟨.prod true a b, by rw [one (ty := 105) rfl, ha, hb]; rfl⟩
  | neg _ ih =>
    obtain ⟨a, ha⟩ := ih
    exact ⟨.neg a, by rw [emit_sign (ty := 103) rfl, ha]; rfl⟩
  | fact _ ih =>
    obtain ⟨a, ha⟩ := ih
    exact ⟨.fact a, by rw [one (ty := 106) rfl, ha]; rfl⟩
  | paren _ ih =>
    obtain ⟨a, ha⟩ := ih
    exact ⟨.paren a, by rw [emit_sign (ty := 107) rfl, one (ty := 108) rfl, ha]; rfl⟩

theorem allowed_text {s : List Nat} (h : ArithText s) : ∀ c ∈ s, Allowed c := by
  have sg : ∀ {c : Nat} {ty : NodeType}, sign c = some ty → Allowed c := fun h => .inr (.inr ⟨_, h⟩)
  have bin : ∀ {c : Nat} {ty : NodeType} {s t : List Nat}, sign c = some ty → (∀ c ∈ s, Allowed c) →
      (∀ c ∈ t, Allowed c) → ∀ x ∈ s ++ c :: t, Allowed x := fun hs h1 h2 x hx => by
    rcases List.mem_append.1 hx with hx | hx
    · exact h1 x hx
    · rcases List.mem_cons.1 hx with rfl | hx
      · exact sg hs
      · exact h2 x hx
  induction h with
  | number _ h => exact fun c hc => .inl (h c hc)
  | before hb _ ih =>
    intro x hx
    rcases List.mem_cons.1 hx with rfl | hx
    · exact .inr (.inl hb)
    · exact ih x hx
  | after hb _ ih =>
    intro x hx
    rcases List.mem_append.1 hx with hx | hx
    · exact ih x hx
    · cases List.mem_singleton.1 hx; exact .inr (.inl hb)
  | plus _ _ ih1 ih2 => exact bin (ty := 102) rfl ih1 ih2
  | minus _ _ ih1 ih2 => exact bin (ty := 103) rfl ih1 ih2
  | times _ _ ih1 ih2 => exact bin (ty := 104) rfl ih1 ih2
  | over _ _ ih1 ih2 => exact bin (ty := 105) rfl ih1 ih2
  | neg _ ih =>
    intro x hx
    rcases List.mem_cons.1 hx with rfl | hx
    · exact sg (ty := 103) rfl
    · exact ih x hx
  | fact _ ih => exact bin (ty := 106) rfl ih (by simp)
  | paren _ ih =>
    intro x hx
    rcases List.mem_cons.1 hx with rfl | hx
    · exact sg (ty := 107) rfl
    · exact bin (ty := 108) rfl ih (by simp) x hx

/-- What a token of the type looks like. -/
def Looks (ty : NodeType) (s : List Nat) : Prop :=
  if ty = 100 then ∀ c ∈ s, BlankChar c
  else if ty = 101 then s ≠ [] ∧ ∀ c ∈ s, DecimalDigit c
  else ∃ c, s = [c] ∧ sign c = some ty

/-- Tokens with their texts. -/
def types (ps : List (NodeType × List Nat)) : List NodeType := (ps.map (·.1)).filter fun ty => !arithIsWs ty

/-- The text of tokens. -/
def textOf (ps : List (NodeType × List Nat)) : List Nat := (ps.map (·.2)).flatten

theorem types_split {ps : List (NodeType × List Nat)} {a b : List NodeType} (h : types ps = a ++ b) :
    ∃ p q, ps = p ++ q ∧ types p = a ∧ types q = b := by
  obtain ⟨l1, l2, e1, e2, e3⟩ := List.filter_eq_append_iff.1 h
  obtain ⟨p, q, rfl, rfl, rfl⟩ := List.map_eq_append_iff.1 e1
  exact ⟨p, q, rfl, e2, e3⟩

theorem text_after : (s t : List Nat) → (∀ c ∈ t, BlankChar c) → ArithText s → ArithText (s ++ t)
  | s, [], _, hs => by simpa using hs
  | s, c :: t, h, hs => by
    have := text_after (s ++ [c]) t (fun x hx => h x (by simp [hx])) (.after (h c (by simp)) hs)
    simpa using this

theorem text_before : (s t : List Nat) → (∀ c ∈ t, BlankChar c) → ArithText s → ArithText (t ++ s)
  | s, [], _, hs => hs
  | s, c :: t, h, hs => .before (h c (by simp)) (text_before s t (fun x hx => h x (by simp [hx])) hs)

theorem blanks {ps : List (NodeType × List Nat)} (hl : ∀ p ∈ ps, Looks p.1 p.2) (h : types ps = []) :
    ∀ c ∈ textOf ps, BlankChar c := by
  intro c hc
  obtain ⟨s, hs, hc⟩ := List.mem_flatten.1 hc
  obtain ⟨p, hp, rfl⟩ := List.mem_map.1 hs
  have h1 := List.filter_eq_nil_iff.1 h p.1 (List.mem_map.2 ⟨p, hp, rfl⟩)
  have h2 : p.1 = 100 := by simpa [arithIsWs] using h1
  have h3 := hl p hp
  simp only [Looks, if_pos h2] at h3
  exact h3 c hc

/-- A single token, with the white space around it. -/
theorem single {ps : List (NodeType × List Nat)} {ty : NodeType} (hl : ∀ p ∈ ps, Looks p.1 p.2)
    (h : types ps = [ty]) : ∃ x s y, textOf ps = x ++ (s ++ y) ∧ (∀ c ∈ x, BlankChar c) ∧ (∀ c ∈ y, BlankChar c) ∧
      Looks ty s ∧ ty ≠ 100 := by
  obtain ⟨l1, l2, e1, e2, e3, e4⟩ := List.filter_eq_cons_iff.1 h
  obtain ⟨p, q, rfl, rfl, e5⟩ := List.map_eq_append_iff.1 e1
  obtain ⟨m, q, rfl, rfl, rfl⟩ := List.map_eq_cons_iff.1 e5
  refine ⟨textOf p, m.2, textOf q, by simp [textOf], blanks (fun x hx => hl x (by simp [hx])) ?_,
    blanks (fun x hx => hl x (by simp [hx])) e4, hl m (by simp), by rintro h; rw [h] at e3; simp [arithIsWs] at e3⟩
  refine List.filter_eq_nil_iff.2 fun a ha => e2 a ha

theorem signs {ps : List (NodeType × List Nat)} {ty : NodeType} {c : Nat} (hl : ∀ p ∈ ps, Looks p.1 p.2)
    (h : types ps = [ty]) (hc : sign c = some ty) : ∃ x y, textOf ps = x ++ c :: y ∧ (∀ c ∈ x, BlankChar c) ∧
      ∀ c ∈ y, BlankChar c := by
  obtain ⟨x, s, y, h1, h2, h3, h4, h5⟩ := single hl h
  have hty : ty ≠ 101 := by rintro rfl; have := sign_cases hc; simp at this
  simp only [Looks, if_neg h5, if_neg hty] at h4
  obtain ⟨c', rfl, hc'⟩ := h4
  obtain rfl : c' = c := by
    rcases sign_cases hc with ⟨rfl, rfl⟩ | ⟨rfl, rfl⟩ | ⟨rfl, rfl⟩ | ⟨rfl, rfl⟩ | ⟨rfl, rfl⟩ | ⟨rfl, rfl⟩ | ⟨rfl, rfl⟩ <;>
      (have := sign_cases hc'; simp at this; exact this)
  exact ⟨x, y, by simpa using h1, h2, h3⟩

theorem text_of_tokens : (a : Arith) → (ps : List (NodeType × List Nat)) → (∀ p ∈ ps, Looks p.1 p.2) →
    types ps = a.tokens → ArithText (textOf ps)
  | .num, ps, hl, h => by
    obtain ⟨x, s, y, h1, h2, h3, h4, _⟩ := single hl h
    rw [h1]
    simp only [Looks] at h4
    exact text_before _ _ h2 (text_after _ _ h3 (.number h4.1 h4.2))
  | .paren a, ps, hl, h => by
    obtain ⟨p, q, rfl, h1, h2⟩ := types_split (a := [107]) (b := a.tokens ++ [108]) h
    obtain ⟨q, r, rfl, h2, h3⟩ := types_split h2
    obtain ⟨x, y, e1, b1, b2⟩ := signs (c := 40) (fun p hp => hl p (by simp [hp])) h1 rfl
    obtain ⟨x', y', e2, b3, b4⟩ := signs (c := 41) (fun p hp => hl p (by simp [hp])) h3 rfl
    have ih := text_of_tokens a q (fun p hp => hl p (by simp [hp])) h2
    have := text_before _ _ b1 (text_after _ _ b4 (.paren (text_after _ _ b3 (text_before _ _ b2 ih))))
    simp only [textOf, List.map_append, List.flatten_append] at e1 e2 this ⊢
    rw [e1, e2]
    simpa using this
  | .neg a, ps, hl, h => by
    obtain ⟨p, q, rfl, h1, h2⟩ := types_split (a := [103]) (b := a.tokens) h
    obtain ⟨x, y, e1, b1, b2⟩ := signs (c := 45) (fun p hp => hl p (by simp [hp])) h1 rfl
    have ih := text_of_tokens a q (fun p hp => hl p (by simp [hp])) h2
    have := text_before _ _ b1 (.neg (text_before _ _ b2 ih))
    simp only [textOf, List.map_append, List.flatten_append] at e1 this ⊢
    rw [e1]
    simpa using this
  | .fact a, ps, hl, h => by
    obtain ⟨p, q, rfl, h1, h2⟩ := types_split (a := a.tokens) (b := [106]) h
    obtain ⟨x, y, e1, b1, b2⟩ := signs (c := 33) (fun p hp => hl p (by simp [hp])) h2 rfl
    have ih := text_of_tokens a p (fun p hp => hl p (by simp [hp])) h1
    have := text_after _ _ b2 (.fact (text_after _ _ b1 ih))
    simp only [textOf, List.map_append, List.flatten_append] at e1 this ⊢
    rw [e1]
    simpa using this
  | .sum m a b, ps, hl, h => by
    obtain ⟨p, q, rfl, h1, h2⟩ := types_split (a := a.tokens) (b := (if m then 103 else 102) :: b.tokens) h
    obtain ⟨q, r, rfl, h2, h3⟩ := types_split (a := [if m then 103 else 102]) (b := b.tokens) h2
    obtain ⟨x, y, e1, b1, b2⟩ := signs (c := if m then 45 else 43) (fun p hp => hl p (by simp [hp])) h2
      (by cases m <;> rfl)
    have i1 := text_after _ _ b1 (text_of_tokens a p (fun p hp => hl p (by simp [hp])) h1)
    have i2 := text_before _ _ b2 (text_of_tokens b r (fun p hp => hl p (by simp [hp])) h3)
    simp only [textOf, List.map_append, List.flatten_append] at e1 i1 i2 ⊢
    rw [e1]
    cases m
    · simpa using ArithText.plus i1 i2
    · simpa using ArithText.minus i1 i2
  | .prod m a b, ps, hl, h => by
    obtain ⟨p, q, rfl, h1, h2⟩ := types_split (a := a.tokens) (b := (if m then 105 else 104) :: b.tokens) h
    obtain ⟨q, r, rfl, h2, h3⟩ := types_split (a := [if m then 105 else 104]) (b := b.tokens) h2
    obtain ⟨x, y, e1, b1, b2⟩ := signs (c := if m then 47 else 42) (fun p hp => hl p (by simp [hp])) h2
      (by cases m <;> rfl)
    have i1 := text_after _ _ b1 (text_of_tokens a p (fun p hp => hl p (by simp [hp])) h1)
    have i2 := text_before _ _ b2 (text_of_tokens b r (fun p hp => hl p (by simp [hp])) h3)
    simp only [textOf, List.map_append, List.flatten_append] at e1 i1 i2 ⊢
    rw [e1]
    cases m
    · simpa using ArithText.times i1 i2
    · simpa using ArithText.over i1 i2

theorem star_digits : (ds : List Nat) → (∀ x ∈ ds, DecimalDigit x) → Matches (.star .digit) ds
  | [], _ => .starNil
  | d :: ds, h => by
    have : Matches (.star .digit) ([d] ++ ds) := .starCons
      (.left (.set (lo := 48) (hi := 57) (by simp) (h d (by simp)).1 (h d (by simp)).2))
      (star_digits ds fun x hx => h x (by simp [hx]))
    exact this

theorem digits_match (d : Nat) (ds : List Nat) (h : ∀ x ∈ d :: ds, DecimalDigit x) : Matches (.plus .digit) (d :: ds) := by
  have : Matches (.plus .digit) ([d] ++ ds) := .seq
    (.left (.set (lo := 48) (hi := 57) (by simp) (h d (by simp)).1 (h d (by simp)).2))
    (star_digits ds fun x hx => h x (by simp [hx]))
  exact this

/-- One step of a lexer for arithmetic. -/
theorem step {lexer : Lexer Nat} (hl : LexesAscii arithLexRules lexer) {text : List Nat} (ha : Ascii text)
    (hne : text ≠ []) (h0 : 0 < (lexer text).len) :
    (Looks (lexer text).ty (text.take (lexer text).len) ∧ (lexer text).ty ≠ ERROR ∧
      ((lexer text).ty = 101 → ∀ c, (text.drop (lexer text).len).head? = some c → ¬ DecimalDigit c)) ∨
    ((lexer text).ty = ERROR ∧ ∃ c ∈ text, ¬ Allowed c) := by
  by_cases hf : ∃ r ∈ arithLexRules, ∃ n, FindsHere r text n
  · left
    obtain ⟨before, r, after, hr, hty, ⟨h1, h2, h3⟩, -, hmax⟩ := hl.found text ha hf
    have hmem : r ∈ arithLexRules := by rw [hr]; simp
    have hasc : ∀ c ∈ text.take (lexer text).len, c < 128 := fun c hc => ha c (List.mem_of_mem_take hc)
    have one : ∀ {c : Nat} {ty : NodeType}, sign c = some ty → r.ty = ty →
        Matches (.set [(c, c)]) (text.take (lexer text).len) →
        (Looks (lexer text).ty (text.take (lexer text).len) ∧ (lexer text).ty ≠ ERROR ∧
          ((lexer text).ty = 101 → ∀ c, (text.drop (lexer text).len).head? = some c → ¬ DecimalDigit c)) := by
      intro c ty hs ht hm
      rw [← hty, ht]
      have hn : ty ≠ 100 ∧ ty ≠ 101 ∧ ty ≠ ERROR := by
        refine ⟨?_, ?_, ?_⟩ <;> · rintro rfl; have := sign_cases hs; simp [ERROR] at this
      refine ⟨?_, hn.2.2, fun h => absurd h hn.2.1⟩
      simp only [Looks, if_neg hn.1, if_neg hn.2.1]
      generalize text.take (lexer text).len = s at hm
      cases hm with
      | set g1 g2 g3 =>
        simp at g1; obtain ⟨rfl, rfl⟩ := g1
        exact ⟨_, rfl, by rw [← hs]; congr 1; omega⟩
    simp only [arithLexRules, List.mem_cons, List.not_mem_nil, or_false] at hmem
    rcases hmem with rfl | rfl | rfl | rfl | rfl | rfl | rfl | rfl | rfl
    · have e : (lexer text).ty = 100 := hty.symm
      rw [e]
      refine ⟨?_, by decide, fun h => by simp at h⟩
      simp only [Looks, if_true]
      intro c hc
      obtain ⟨p, hp, h4, h5⟩ := Parens.mem_ranges (show Matches (.plus .blank) _ from h3) c hc
      have := hasc c hc
      simp [Parens.ranges, Re.plus, Re.blank, Re.wide] at hp
      unfold BlankChar
      rcases hp with rfl | rfl | rfl | rfl | rfl | rfl <;> simp only at * <;> omega
    · have e : (lexer text).ty = 101 := hty.symm
      rw [e]
      have hd : ∀ c ∈ text.take (lexer text).len, DecimalDigit c := by
        intro c hc
        obtain ⟨p, hp, h4, h5⟩ := Parens.mem_ranges (show Matches (.plus .digit) _ from h3) c hc
        have := hasc c hc
        simp [Parens.ranges, Re.plus, Re.digit, Re.wide] at hp
        unfold DecimalDigit
        rcases hp with rfl | rfl | rfl | rfl <;> simp only at * <;> omega
      refine ⟨?_, by decide, fun _ c hc hdc => ?_⟩
      · simp only [Looks]
        refine ⟨fun h => ?_, hd⟩
        have := congrArg List.length h
        simp at this
        rcases this with h | h
        · omega
        · exact hne h
      · have hlen : (lexer text).len < text.length := by
          rcases Nat.lt_or_ge (lexer text).len text.length with h | h
          · exact h
          · rw [List.drop_eq_nil_of_le h] at hc; cases hc
        have htake : text.take ((lexer text).len + 1) = text.take (lexer text).len ++ [c] := by
          rw [List.take_succ_eq_append_getElem hlen]
          rw [List.head?_drop, List.getElem?_eq_getElem hlen] at hc
          cases hc
          rfl
        have hm : FindsHere ⟨101, .plus .digit, none⟩ text ((lexer text).len + 1) := by
          refine ⟨by omega, by omega, ?_⟩
          show Matches (.plus .digit) _
          rw [htake]
          have hall : ∀ x ∈ text.take (lexer text).len ++ [c], DecimalDigit x := fun x hx =>
            (List.mem_append.1 hx).elim (hd x) fun hx => by cases List.mem_singleton.1 hx; exact hdc
          generalize text.take (lexer text).len ++ [c] = s at htake hall
          cases s with
          | nil => simp at htake; exact absurd htake hne
          | cons d ds => exact digits_match d ds hall
        have := hmax _ (by simp) _ hm
        omega
    · exact one (c := 43) rfl rfl h3
    · exact one (c := 45) rfl rfl h3
    · exact one (c := 42) rfl rfl h3
    · exact one (c := 47) rfl rfl h3
    · exact one (c := 33) rfl rfl h3
    · exact one (c := 40) rfl rfl h3
    · exact one (c := 41) rfl rfl h3
  · right
    refine ⟨hl.error text ha hf, ?_⟩
    cases text with
    | nil => exact absurd rfl hne
    | cons c cs =>
      refine ⟨c, by simp, fun hc => hf ?_⟩
      have key : ∀ r ∈ arithLexRules, r.f = none → Matches r.re [c] → ∃ r ∈ arithLexRules, ∃ n, FindsHere r (c :: cs) n :=
        fun r hr hf hm => ⟨r, hr, 1, by omega, by simp, by simp only [Finds, hf]; exact hm⟩
      have self : ∀ x, c = x → Matches (.set [(x, x)]) [c] := fun x h =>
        .set (lo := x) (hi := x) (by simp) (by omega) (by omega)
      rcases hc with h | h | ⟨ty, h⟩
      · exact key ⟨101, .plus .digit, none⟩ (by simp [arithLexRules]) rfl
          (Parens.plus_one (lo := 48) (hi := 57) (by simp) h.1 h.2)
      · rcases h with h | h
        · exact key ⟨100, .plus .blank, none⟩ (by simp [arithLexRules]) rfl
            (Parens.plus_one (lo := 9) (hi := 13) (by simp) h.1 h.2)
        · exact key ⟨100, .plus .blank, none⟩ (by simp [arithLexRules]) rfl
            (Parens.plus_one (lo := 32) (hi := 32) (by simp) (by omega) (by omega))
      · rcases sign_cases h with h | h | h | h | h | h | h
        · exact key ⟨102, .text [43], none⟩ (by simp [arithLexRules]) rfl (self _ h.1)
        · exact key ⟨103, .text [45], none⟩ (by simp [arithLexRules]) rfl (self _ h.1)
        · exact key ⟨104, .text [42], none⟩ (by simp [arithLexRules]) rfl (self _ h.1)
        · exact key ⟨105, .text [47], none⟩ (by simp [arithLexRules]) rfl (self _ h.1)
        · exact key ⟨106, .text [33], none⟩ (by simp [arithLexRules]) rfl (self _ h.1)
        · exact key ⟨107, .text [40], none⟩ (by simp [arithLexRules]) rfl (self _ h.1)
        · exact key ⟨108, .text [41], none⟩ (by simp [arithLexRules]) rfl (self _ h.1)

/-- The tokens of a text that are not white space. -/
def significant (tokens : List Token) : List NodeType := (tokens.filter fun t => !arithIsWs t.ty).map (·.ty)

theorem significant_cons (t : Token) (ts : List Token) :
    significant (t :: ts) = if t.ty = 100 then significant ts else t.ty :: significant ts := by
  by_cases h : t.ty = 100 <;> simp [significant, h, arithIsWs]

theorem emit_looks {ty : NodeType} {s rest : List Nat} (h : Looks ty s)
    (hr : ty = 101 → ∀ c, rest.head? = some c → ¬ DecimalDigit c) :
    emit false (s ++ rest) = if ty = 100 then emit false rest else ty :: emit false rest := by
  unfold Looks at h
  split at h
  · rename_i e
    rw [if_pos e]
    clear e hr
    induction s with
    | nil => rfl
    | cons c s ih => rw [List.cons_append, emit_blank (h c (by simp))]; exact ih fun x hx => h x (by simp [hx])
  · rename_i e
    rw [if_neg e]
    split at h
    · rename_i e
      rw [emit_number h.1 h.2, emit_true (hr e), e]
    · obtain ⟨c, rfl, hc⟩ := h
      exact emit_sign hc _ _

/-- The tokens of a text of the characters of expressions. -/
theorem lexing {lexer : Lexer Nat} (hl : LexesAscii arithLexRules lexer) : (tokens : List Token) → (text : List Nat) →
    Ascii text → IsLexing lexer text tokens →
    ((∀ c ∈ text, Allowed c) → significant tokens = emit false text) ∧
    ((∀ t ∈ tokens, t.ty ≠ ERROR) → ∃ ps : List (NodeType × List Nat), (∀ p ∈ ps, Looks p.1 p.2) ∧
      types ps = significant tokens ∧ textOf ps = text)
  | [], text, _, h => by
    obtain rfl : text = [] := h
    exact ⟨fun _ => rfl, fun _ => ⟨[], by simp, rfl, rfl⟩⟩
  | t :: ts, text, ha, h => by
    obtain ⟨rfl, h1, h2, h3⟩ := h
    obtain ⟨ih1, ih2⟩ := lexing hl ts _ (ascii_drop text _ ha) h3
    have hne : text ≠ [] := by rintro rfl; simp at h2; omega
    have hsplit := List.take_append_drop (lexer text).len text
    rcases step hl ha hne h1 with ⟨hk, hn, hr⟩ | ⟨he, c, hc, hno⟩
    · refine ⟨fun hall => ?_, fun hne => ?_⟩
      · have := emit_looks hk hr
        rw [hsplit] at this
        rw [this, significant_cons, ih1 fun c hc => hall c (List.mem_of_mem_drop hc)]
      · obtain ⟨ps, g1, g2, g3⟩ := ih2 fun t ht => hne t (by simp [ht])
        refine ⟨((lexer text).ty, text.take (lexer text).len) :: ps, ?_, ?_, ?_⟩
        · intro p hp
          rcases List.mem_cons.1 hp with rfl | hp
          · exact hk
          · exact g1 p hp
        · rw [significant_cons, ← g2]
          by_cases h : (lexer text).ty = 100 <;> simp [types, h, arithIsWs]
        · show text.take (lexer text).len ++ textOf ps = text
          rw [g3, hsplit]
    · exact ⟨fun hall => absurd (hall c hc) hno, fun h => absurd he (h _ (by simp))⟩

theorem types_arith : (a : Arith) → ∀ t ∈ a.tokens, t ≠ ERROR
  | .num, t, h => by simp [Arith.tokens] at h; simp [h, ERROR]
  | .paren a, t, h => by
    simp only [Arith.tokens, List.mem_cons, List.mem_append, List.not_mem_nil, or_false] at h
    rcases h with rfl | h | rfl
    · decide
    · exact types_arith a t h
    · decide
  | .neg a, t, h => by
    rcases List.mem_cons.1 h with rfl | h
    · decide
    · exact types_arith a t h
  | .fact a, t, h => by
    rcases List.mem_append.1 h with h | h
    · exact types_arith a t h
    · cases List.mem_singleton.1 h; decide
  | .sum m a b, t, h => by
    rcases List.mem_append.1 h with h | h
    · exact types_arith a t h
    · rcases List.mem_cons.1 h with rfl | h
      · cases m <;> decide
      · exact types_arith b t h
  | .prod m a b, t, h => by
    rcases List.mem_append.1 h with h | h
    · exact types_arith a t h
    · rcases List.mem_cons.1 h with rfl | h
      · cases m <;> decide
      · exact types_arith b t h

end ArithWritten

end Fall
