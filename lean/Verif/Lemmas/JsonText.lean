import Verif.Spec.JsonText
import Verif.Spec.Json
import Verif.Lemmas.ArithText

/-!
Texts of JSON documents and their tokens.
-/

namespace Fall

open Spec

namespace JsonWritten

/-- The type of the token of one character. -/
def sign (c : Nat) : Option Nat :=
  if c = 123 then some 101 else if c = 125 then some 102 else if c = 91 then some 103 else if c = 93 then some 104
  else if c = 58 then some 105 else if c = 44 then some 106 else none

theorem sign_cases {c ty : Nat} (h : sign c = some ty) :
    c = 123 ∧ ty = 101 ∨ c = 125 ∧ ty = 102 ∨ c = 91 ∧ ty = 103 ∨ c = 93 ∧ ty = 104 ∨ c = 58 ∧ ty = 105 ∨
      c = 44 ∧ ty = 106 := by
  unfold sign at h
  split at h
  · simp_all
  split at h
  · simp_all
  split at h
  · simp_all
  split at h
  · simp_all
  split at h
  · simp_all
  split at h
  · simp_all
  · cases h

/-- The type of a token, by its first character. -/
def kind (c : Nat) : Nat :=
  if 9 ≤ c ∧ c ≤ 13 ∨ c = 32 then 100 else if 48 ≤ c ∧ c ≤ 57 then 110 else if c = 110 then 107
  else if c = 116 ∨ c = 102 then 108 else if c = 34 then 109 else (sign c).getD 0

/-- What a token of the type looks like. -/
def Looks (ty : Nat) (s : List Nat) : Prop :=
  (ty = 100 ∧ s ≠ [] ∧ BlankText s) ∨ (∃ c, s = [c] ∧ sign c = some ty) ∨ (ty = 107 ∧ s = [110, 117, 108, 108]) ∨
  (ty = 108 ∧ (s = [116, 114, 117, 101] ∨ s = [102, 97, 108, 115, 101])) ∨ (ty = 109 ∧ QuotedText s) ∨
  (ty = 110 ∧ s ≠ [] ∧ ∀ d ∈ s, DecimalDigit d)

theorem Looks.head {ty : Nat} {s : List Nat} (h : Looks ty s) : ∃ c t, s = c :: t ∧ kind c = ty := by
  rcases h with ⟨rfl, h, hb⟩ | ⟨c, rfl, h⟩ | ⟨rfl, rfl⟩ | ⟨rfl, rfl | rfl⟩ | ⟨rfl, t, rfl, _⟩ | ⟨rfl, h, hb⟩
  · cases s with
    | nil => exact absurd rfl h
    | cons c t => exact ⟨c, t, rfl, if_pos (hb c (by simp))⟩
  · refine ⟨c, [], rfl, ?_⟩
    rcases sign_cases h with ⟨rfl, rfl⟩ | ⟨rfl, rfl⟩ | ⟨rfl, rfl⟩ | ⟨rfl, rfl⟩ | ⟨rfl, rfl⟩ | ⟨rfl, rfl⟩ <;> rfl
  · exact ⟨_, _, rfl, rfl⟩
  · exact ⟨_, _, rfl, rfl⟩
  · exact ⟨_, _, rfl, rfl⟩
  · exact ⟨_, _, rfl, rfl⟩
  · cases s with
    | nil => exact absurd rfl h
    | cons c t =>
      have hc : 48 ≤ c ∧ c ≤ 57 := hb c (by simp)
      refine ⟨c, t, rfl, ?_⟩
      unfold kind
      rw [if_neg (by omega), if_pos hc]

theorem Looks.ne_nil {ty : Nat} {s : List Nat} (h : Looks ty s) : s ≠ [] := by
  obtain ⟨c, t, rfl, _⟩ := h.head
  simp

/-- Only blanks and numbers can be continued. -/
theorem Looks.longer {ty ty' : Nat} {s t : List Nat} (h : Looks ty s) (h' : Looks ty' (s ++ t)) :
    ty' = ty ∧ (t = [] ∨ ∃ c, t.head? = some c ∧ (ty = 100 ∧ BlankChar c ∨ ty = 110 ∧ DecimalDigit c)) := by
  have hty : ty' = ty := by
    obtain ⟨c, u, rfl, rfl⟩ := h.head
    obtain ⟨c', u', e, rfl⟩ := h'.head
    cases e
    rfl
  subst hty
  refine ⟨rfl, ?_⟩
  have run : ∀ {P : Nat → Prop}, (∀ c ∈ s ++ t, P c) → t = [] ∨ ∃ c, t.head? = some c ∧ P c := fun hp => by
    cases t with
    | nil => exact .inl rfl
    | cons c t => exact .inr ⟨c, rfl, hp c (by simp)⟩
  rcases h' with ⟨rfl, _, hb⟩ | ⟨c, e, _⟩ | ⟨rfl, e⟩ | ⟨rfl, e⟩ | ⟨rfl, u, e, hu⟩ | ⟨rfl, _, hb⟩
  · rcases run hb with h | ⟨c, h1, h2⟩
    · exact .inl h
    · exact .inr ⟨c, h1, .inl ⟨rfl, h2⟩⟩
  · obtain ⟨c', u, rfl, _⟩ := h.head
    left
    simp at e
    exact e.2.2
  · left
    rcases h with ⟨h, _⟩ | ⟨c, _, h⟩ | ⟨_, rfl⟩ | ⟨h, _⟩ | ⟨h, _⟩ | ⟨h, _⟩ <;>
      first | (have := sign_cases h; omega) | (exfalso; omega) | simpa using e
  · left
    rcases h with ⟨h, _⟩ | ⟨c, _, h⟩ | ⟨h, _⟩ | ⟨_, rfl | rfl⟩ | ⟨h, _⟩ | ⟨h, _⟩ <;>
      first | (have := sign_cases h; omega) | (exfalso; omega) | simpa using e
  · left
    rcases h with ⟨h, _⟩ | ⟨c, _, h⟩ | ⟨h, _⟩ | ⟨h, _⟩ | ⟨_, w, rfl, hw⟩ | ⟨h, _⟩
    · exfalso; omega
    · have := sign_cases h; omega
    · exfalso; omega
    · exfalso; omega
    · have e : w ++ 34 :: t = u ++ [34] := by simpa using e
      clear run
      induction w generalizing u with
      | nil =>
        cases u with
        | nil => simpa using e
        | cons x u => simp at e; exact absurd e.1.symm (hu x (by simp))
      | cons y w ih =>
        cases u with
        | nil => simp at e
        | cons x u =>
          simp at e
          exact ih u (fun c hc => hu c (by simp [hc])) (fun c hc => hw c (by simp [hc])) (by simpa using e.2) e.2
    · exfalso; omega
  · rcases run hb with h | ⟨c, h1, h2⟩
    · exact .inl h
    · exact .inr ⟨c, h1, .inr ⟨rfl, h2⟩⟩

/-! ## What the rules match -/

theorem text_eq : (bs : List Nat) → {s : List Nat} → Matches (.text bs) s → s = bs
  | [], s, h => by cases h; rfl
  | [b], s, h => by
    cases h with
    | set h1 h2 h3 => simp at h1; obtain ⟨rfl, rfl⟩ := h1; congr 1; omega
  | b :: b' :: bs, s, h => by
    cases h with
    | seq h1 h2 =>
      rw [text_eq (b' :: bs) h2]
      cases h1 with
      | set h1 h2 h3 => simp at h1; obtain ⟨rfl, rfl⟩ := h1; simp; omega

theorem text_matches : (bs : List Nat) → Matches (.text bs) bs
  | [] => .empty
  | [b] => .set (lo := b) (hi := b) (by simp) (Nat.le_refl _) (Nat.le_refl _)
  | b :: b' :: bs => by
    have : Matches (.text (b :: b' :: bs)) ([b] ++ (b' :: bs)) :=
      .seq (.set (lo := b) (hi := b) (by simp) (Nat.le_refl _) (Nat.le_refl _)) (text_matches (b' :: bs))
    exact this

theorem star_wide {rs : List (Nat × Nat)} : (s : List Nat) → (∀ c ∈ s, ∃ p ∈ rs, p.1 ≤ c ∧ c ≤ p.2) →
    Matches (.star (.wide rs)) s
  | [], _ => .starNil
  | c :: s, h => by
    obtain ⟨⟨lo, hi⟩, hp, h1, h2⟩ := h c (by simp)
    have : Matches (.star (.wide rs)) ([c] ++ s) :=
      .starCons (.left (.set hp h1 h2)) (star_wide s fun x hx => h x (by simp [hx]))
    exact this

theorem plus_wide {rs : List (Nat × Nat)} {s : List Nat} (hne : s ≠ []) (h : ∀ c ∈ s, ∃ p ∈ rs, p.1 ≤ c ∧ c ≤ p.2) :
    Matches (.plus (.wide rs)) s := by
  cases s with
  | nil => exact absurd rfl hne
  | cons c s =>
    obtain ⟨⟨lo, hi⟩, hp, h1, h2⟩ := h c (by simp)
    have : Matches (.plus (.wide rs)) ([c] ++ s) :=
      .seq (.left (.set hp h1 h2)) (star_wide s fun x hx => h x (by simp [hx]))
    exact this

theorem no_quote {s : List Nat} (h : Matches (.star (.not [34])) s) : ∀ c ∈ s, c ≠ 34 := by
  intro c hc e
  subst e
  obtain ⟨p, hp, h1, h2⟩ := Parens.mem_ranges h 34 hc
  simp only [Parens.ranges, Re.not, Re.wide, Re.plus, List.mem_append, List.mem_map, List.mem_filter, List.mem_range,
    List.mem_cons, List.not_mem_nil, or_false] at hp
  rcases hp with ⟨b, ⟨_, hb⟩, rfl⟩ | rfl | rfl
  · simp only at h1 h2
    obtain rfl : b = 34 := by omega
    simp at hb
  · simp at h1
  · simp at h1

theorem quote_free {s : List Nat} (ha : ∀ c ∈ s, c < 128) (h : ∀ c ∈ s, c ≠ 34) : Matches (.star (.not [34])) s :=
  star_wide s fun c hc => ⟨(c, c), List.mem_map.2 ⟨c, List.mem_filter.2 ⟨List.mem_range.2 (ha c hc), by
    have := h c hc
    simp [this]⟩, rfl⟩, Nat.le_refl _, Nat.le_refl _⟩

/-- Which rule finds which token. -/
theorem found {r : LexRule} (hr : r ∈ jsonLexRules) {s : List Nat} (ha : ∀ c ∈ s, c < 128) (hne : s ≠ [])
    (h : Matches r.re s) : Looks r.ty s := by
  simp only [jsonLexRules, List.mem_cons, List.not_mem_nil, or_false] at hr
  rcases hr with rfl | rfl | rfl | rfl | rfl | rfl | rfl | rfl | rfl | rfl | rfl
  · refine .inl ⟨rfl, hne, fun c hc => ?_⟩
    obtain ⟨p, hp, h4, h5⟩ := Parens.mem_ranges (show Matches (.plus .blank) _ from h) c hc
    have := ha c hc
    simp [Parens.ranges, Re.plus, Re.blank, Re.wide] at hp
    unfold BlankChar
    rcases hp with rfl | rfl | rfl | rfl | rfl | rfl <;> simp only at * <;> omega
  · exact .inr (.inl ⟨123, text_eq _ h, rfl⟩)
  · exact .inr (.inl ⟨125, text_eq _ h, rfl⟩)
  · exact .inr (.inl ⟨91, text_eq _ h, rfl⟩)
  · exact .inr (.inl ⟨93, text_eq _ h, rfl⟩)
  · exact .inr (.inl ⟨58, text_eq _ h, rfl⟩)
  · exact .inr (.inl ⟨44, text_eq _ h, rfl⟩)
  · exact .inr (.inr (.inl ⟨rfl, text_eq _ h⟩))
  · refine .inr (.inr (.inr (.inl ⟨rfl, ?_⟩)))
    cases h with
    | left h => exact .inl (text_eq _ h)
    | right h => exact .inr (text_eq _ h)
  · refine .inr (.inr (.inr (.inr (.inl ⟨rfl, ?_⟩))))
    obtain ⟨x, y, rfl, h1, h2⟩ := Re.seq_iff.1 h
    obtain ⟨y, z, rfl, h4, h3⟩ := Re.seq_iff.1 h2
    obtain rfl := text_eq _ h1
    obtain rfl := text_eq _ h3
    exact ⟨y, rfl, no_quote h4⟩
  · refine .inr (.inr (.inr (.inr (.inr ⟨rfl, hne, fun c hc => ?_⟩))))
    obtain ⟨p, hp, h4, h5⟩ := Parens.mem_ranges (show Matches (.plus .digit) _ from h) c hc
    have := ha c hc
    simp [Parens.ranges, Re.plus, Re.digit, Re.wide] at hp
    unfold DecimalDigit
    rcases hp with rfl | rfl | rfl | rfl <;> simp only at * <;> omega

theorem finds {ty : Nat} {s : List Nat} (ha : ∀ c ∈ s, c < 128) (h : Looks ty s) :
    ∃ r ∈ jsonLexRules, r.f = none ∧ Matches r.re s := by
  rcases h with ⟨rfl, hne, hb⟩ | ⟨c, rfl, h⟩ | ⟨rfl, rfl⟩ | ⟨rfl, rfl | rfl⟩ | ⟨rfl, t, rfl, ht⟩ | ⟨rfl, hne, hb⟩
  · refine ⟨⟨100, .plus .blank, none⟩, by simp [jsonLexRules], rfl, plus_wide hne fun c hc => ?_⟩
    rcases hb c hc with h | h
    · exact ⟨(9, 13), by simp, h⟩
    · exact ⟨(32, 32), by simp, by simp [h]⟩
  · rcases sign_cases h with ⟨rfl, rfl⟩ | ⟨rfl, rfl⟩ | ⟨rfl, rfl⟩ | ⟨rfl, rfl⟩ | ⟨rfl, rfl⟩ | ⟨rfl, rfl⟩
    · exact ⟨⟨101, .text [123], none⟩, by simp [jsonLexRules], rfl, text_matches _⟩
    · exact ⟨⟨102, .text [125], none⟩, by simp [jsonLexRules], rfl, text_matches _⟩
    · exact ⟨⟨103, .text [91], none⟩, by simp [jsonLexRules], rfl, text_matches _⟩
    · exact ⟨⟨104, .text [93], none⟩, by simp [jsonLexRules], rfl, text_matches _⟩
    · exact ⟨⟨105, .text [58], none⟩, by simp [jsonLexRules], rfl, text_matches _⟩
    · exact ⟨⟨106, .text [44], none⟩, by simp [jsonLexRules], rfl, text_matches _⟩
  · exact ⟨⟨107, .text [110, 117, 108, 108], none⟩, by simp [jsonLexRules], rfl, text_matches _⟩
  · exact ⟨⟨108, .alt (.text [116, 114, 117, 101]) (.text [102, 97, 108, 115, 101]), none⟩, by simp [jsonLexRules], rfl,
      .left (text_matches _)⟩
  · exact ⟨⟨108, .alt (.text [116, 114, 117, 101]) (.text [102, 97, 108, 115, 101]), none⟩, by simp [jsonLexRules], rfl,
      .right (text_matches _)⟩
  · refine ⟨⟨109, .seq (.text [34]) (.seq (.star (.not [34])) (.text [34])), none⟩, by simp [jsonLexRules], rfl, ?_⟩
    have : Matches (.seq (.text [34]) (.seq (.star (.not [34])) (.text [34]))) ([34] ++ (t ++ [34])) :=
      .seq (text_matches _) (.seq (quote_free (fun c hc => ha c (by simp [hc])) ht) (text_matches _))
    exact this
  · exact ⟨⟨110, .plus .digit, none⟩, by simp [jsonLexRules], rfl, plus_wide hne fun c hc => ⟨(48, 57), by simp, hb c hc⟩⟩

theorem plain_rules : ∀ r ∈ jsonLexRules, r.f = none := by decide

/-- A token that is not an error looks as its type says. -/
theorem step {lexer : Lexer Nat} (hl : LexesAscii jsonLexRules lexer) {text : List Nat} (ha : Ascii text)
    (he : (lexer text).ty ≠ ERROR) : Looks (lexer text).ty (text.take (lexer text).len) ∧
      ∀ r ∈ jsonLexRules, ∀ n, FindsHere r text n → n ≤ (lexer text).len := by
  by_cases hf : ∃ r ∈ jsonLexRules, ∃ n, FindsHere r text n
  · have hlong := hl.found text ha hf
    refine ⟨?_, fun r hr n hn => hlong.max hr hn⟩
    obtain ⟨before, r, after, hr, hty, ⟨h1, h2, h3⟩, -⟩ := hlong
    have hmem : r ∈ jsonLexRules := by rw [hr]; simp
    rw [← hty]
    refine found hmem (fun c hc => ha c (List.mem_of_mem_take hc)) (fun h => ?_) ?_
    · have := congrArg List.length h
      rw [List.length_take, List.length_nil] at this
      omega
    · simpa only [Finds, plain_rules r hmem] using h3
  · exact absurd (hl.error text ha hf) he

/-- A token that is not continued is found. -/
theorem next {lexer : Lexer Nat} (hl : LexesAscii jsonLexRules lexer) {ty : Nat} {s rest : List Nat}
    (ha : Ascii (s ++ rest)) (h : Looks ty s)
    (hr : ∀ c, rest.head? = some c → (ty = 100 → ¬ BlankChar c) ∧ (ty = 110 → ¬ DecimalDigit c)) :
    lexer (s ++ rest) = ⟨ty, s.length⟩ := by
  obtain ⟨r, hrm, hf, hm⟩ := finds (fun c hc => ha c (by simp [hc])) h
  have hpos : 0 < s.length := List.length_pos_iff.2 h.ne_nil
  have hfind : FindsHere r (s ++ rest) s.length := ⟨hpos, by simp, by simp only [Finds, hf]; simpa using hm⟩
  have hlong := hl.found _ ha ⟨r, hrm, _, hfind⟩
  have he : (lexer (s ++ rest)).ty ≠ ERROR := by
    obtain ⟨before, q, after, hq, hty, -⟩ := hlong
    rw [← hty]
    have : q ∈ jsonLexRules := by rw [hq]; simp
    revert this
    clear hq hty
    revert q
    decide
  obtain ⟨h1, h2⟩ := step hl ha he
  have hle := h2 r hrm _ hfind
  rw [List.take_append, List.take_of_length_le hle] at h1
  obtain ⟨e1, e2⟩ := h.longer h1
  have hn : (lexer (s ++ rest)).len ≤ (s ++ rest).length := by
    obtain ⟨before, q, after, hq, hty, ⟨_, h, _⟩, -⟩ := hlong
    exact h
  rw [List.length_append] at hn
  have hlen : (lexer (s ++ rest)).len = s.length := by
    rcases e2 with e2 | ⟨c, hc, e2⟩
    · have := congrArg List.length e2
      rw [List.length_take, List.length_nil] at this
      omega
    · exfalso
      have hc' : rest.head? = some c := by
        cases rest with
        | nil => simp at hc
        | cons x rest =>
          cases hk : (lexer (s ++ x :: rest)).len - s.length with
          | zero => rw [hk] at hc; simp at hc
          | succ k => rw [hk] at hc; simpa using hc
      rcases e2 with ⟨e, hb⟩ | ⟨e, hb⟩
      · exact (hr c hc').1 e hb
      · exact (hr c hc').2 e hb
  cases hx : lexer (s ++ rest)
  rw [hx] at e1 hlen
  simp only at e1 hlen
  rw [e1, hlen]

/-! ## Tokens with their texts -/

/-- The text of tokens. -/
def textOf (ps : List (Nat × List Nat)) : List Nat := (ps.map (·.2)).flatten

/-- The types of tokens that are not white space. -/
def types (ps : List (Nat × List Nat)) : List Nat := (ps.map (·.1)).filter fun ty => !jsonIsWs ty

/-- The tokens look as their types say. -/
def Good (ps : List (Nat × List Nat)) : Prop := ∀ p ∈ ps, Looks p.1 p.2

/-- No number is continued by a number. -/
def Loose : List (Nat × List Nat) → Prop
  | [] => True
  | p :: ps => (p.1 = 110 → ∀ c, (textOf ps).head? = some c → ¬ DecimalDigit c) ∧ Loose ps

/-- No number is continued by a number, and no blanks by blanks. -/
def Apart : List (Nat × List Nat) → Prop
  | [] => True
  | p :: ps => (∀ c, (textOf ps).head? = some c → (p.1 = 100 → ¬ BlankChar c) ∧ (p.1 = 110 → ¬ DecimalDigit c)) ∧ Apart ps

theorem textOf_append (ps qs : List (Nat × List Nat)) : textOf (ps ++ qs) = textOf ps ++ textOf qs := by simp [textOf]

theorem types_append (ps qs : List (Nat × List Nat)) : types (ps ++ qs) = types ps ++ types qs := by simp [types]

theorem textOf_cons (p : Nat × List Nat) (ps : List (Nat × List Nat)) : textOf (p :: ps) = p.2 ++ textOf ps := rfl

theorem types_cons (p : Nat × List Nat) (ps : List (Nat × List Nat)) :
    types (p :: ps) = if p.1 = 100 then types ps else p.1 :: types ps := by
  by_cases h : p.1 = 100 <;> simp [types, h, jsonIsWs]

theorem Good.append {ps qs : List (Nat × List Nat)} (h1 : Good ps) (h2 : Good qs) : Good (ps ++ qs) :=
  fun p hp => (List.mem_append.1 hp).elim (h1 p) (h2 p)

theorem Good.cons {p : Nat × List Nat} {ps : List (Nat × List Nat)} (h1 : Looks p.1 p.2) (h2 : Good ps) :
    Good (p :: ps) := fun q hq => by
  rcases List.mem_cons.1 hq with rfl | hq
  · exact h1
  · exact h2 q hq

theorem Loose.append {ps qs : List (Nat × List Nat)} (h1 : Loose ps) (h2 : Loose qs)
    (h : ∀ c, (textOf qs).head? = some c → ¬ DecimalDigit c) : Loose (ps ++ qs) := by
  induction ps with
  | nil => exact h2
  | cons p ps ih =>
    refine ⟨fun hp c hc => ?_, ih h1.2⟩
    have hc : (textOf ps ++ textOf qs).head? = some c := by rw [← textOf_append]; exact hc
    cases ht : textOf ps with
    | nil => rw [ht] at hc; exact h c hc
    | cons x xs =>
      rw [ht] at hc
      exact h1.1 hp c (by rw [ht]; exact hc)

/-- Blanks can be put together. -/
theorem tidy : (ps : List (Nat × List Nat)) → Good ps → Loose ps →
    ∃ qs, Good qs ∧ Apart qs ∧ textOf qs = textOf ps ∧ types qs = types ps
  | [], _, _ => ⟨[], fun _ h => (List.not_mem_nil h).elim, trivial, rfl, rfl⟩
  | p :: ps, hg, hl => by
    obtain ⟨qs, g1, g2, g3, g4⟩ := tidy ps (fun q hq => hg q (by simp [hq])) hl.2
    have hp := hg p (by simp)
    have easy : (p.1 = 100 → ∀ c, (textOf qs).head? = some c → ¬ BlankChar c) →
        ∃ qs, Good qs ∧ Apart qs ∧ textOf qs = textOf (p :: ps) ∧ types qs = types (p :: ps) := fun hb =>
      ⟨p :: qs, .cons hp g1, ⟨fun c hc => ⟨fun e => hb e c hc, fun e => hl.1 e c (by rw [← g3]; exact hc)⟩, g2⟩,
        by rw [textOf_cons, textOf_cons, g3], by rw [types_cons, types_cons, g4]⟩
    cases qs with
    | nil => exact easy fun _ c hc => by simp [textOf] at hc
    | cons q qs =>
      have hq := g1 q (by simp)
      by_cases hboth : p.1 = 100 ∧ q.1 = 100
      · have bl : ∀ {s : List Nat}, Looks 100 s → BlankText s := fun h => by
          rcases h with ⟨_, _, h⟩ | ⟨c, _, h⟩ | ⟨h, _⟩ | ⟨h, _⟩ | ⟨h, _⟩ | ⟨h, _⟩
          · exact h
          · have := sign_cases h; omega
          all_goals omega
        have b1 := bl (hboth.1 ▸ hp)
        have b2 := bl (hboth.2 ▸ hq)
        refine ⟨(100, p.2 ++ q.2) :: qs, .cons (.inl ⟨rfl, by simp [hp.ne_nil], fun c hc =>
          (List.mem_append.1 hc).elim (b1 c) (b2 c)⟩) fun x hx => g1 x (by simp [hx]), ⟨fun c hc => ?_, g2.2⟩, ?_, ?_⟩
        · exact ⟨fun _ => (g2.1 c hc).1 hboth.2, fun h => by simp at h⟩
        · rw [textOf_cons, textOf_cons, ← g3, textOf_cons]; simp
        · rw [types_cons, types_cons, ← g4, types_cons, if_pos rfl, if_pos hboth.1, if_pos hboth.2]
      · refine easy fun e c hc hb => hboth ⟨e, ?_⟩
        obtain ⟨x, t, e1, e2⟩ := hq.head
        rw [textOf_cons, e1] at hc
        cases hc
        rw [← e2]
        exact if_pos hb

/-- The tokens of a text. -/
def significant (tokens : List Token) : List NodeType := (tokens.filter fun t => !jsonIsWs t.ty).map (·.ty)

theorem significant_cons (t : Token) (ts : List Token) :
    significant (t :: ts) = if t.ty = 100 then significant ts else t.ty :: significant ts := by
  by_cases h : t.ty = 100 <;> simp [significant, h, jsonIsWs]

theorem lexing {lexer : Lexer Nat} (hl : LexesAscii jsonLexRules lexer) : (ps : List (Nat × List Nat)) → Good ps →
    Apart ps → Ascii (textOf ps) → (tokens : List Token) → IsLexing lexer (textOf ps) tokens →
    significant tokens = types ps
  | [], _, _, _, tokens, h => by
    cases tokens with
    | nil => rfl
    | cons t ts =>
      obtain ⟨_, h1, h2, _⟩ := h
      simp [textOf] at h2
      omega
  | p :: ps, hg, hap, ha, tokens, h => by
    have hp := hg p (by simp)
    cases tokens with
    | nil =>
      have h : textOf (p :: ps) = [] := h
      rw [textOf_cons] at h
      exact absurd (List.append_eq_nil_iff.1 h).1 hp.ne_nil
    | cons t ts =>
      obtain ⟨h1, _, _, h4⟩ := h
      rw [textOf_cons] at h1 h4 ha
      rw [next hl ha hp hap.1] at h1
      subst h1
      simp only [List.drop_left] at h4
      have ih := lexing hl ps (fun q hq => hg q (by simp [hq])) hap.2 (fun c hc => ha c (by simp [hc])) ts h4
      rw [significant_cons, types_cons, ih]

theorem pieces {lexer : Lexer Nat} (hl : LexesAscii jsonLexRules lexer) : (tokens : List Token) → (text : List Nat) →
    Ascii text → IsLexing lexer text tokens → (∀ t ∈ tokens, t.ty ≠ ERROR) →
    ∃ ps, Good ps ∧ types ps = significant tokens ∧ textOf ps = text
  | [], text, _, h, _ => by
    obtain rfl : text = [] := h
    exact ⟨[], fun _ h => (List.not_mem_nil h).elim, rfl, rfl⟩
  | t :: ts, text, ha, h, hne => by
    obtain ⟨rfl, h1, h2, h3⟩ := h
    obtain ⟨ps, g1, g2, g3⟩ := pieces hl ts _ (ascii_drop text _ ha) h3 fun t ht => hne t (by simp [ht])
    have hk := (step hl ha (hne _ (by simp))).1
    refine ⟨((lexer text).ty, text.take (lexer text).len) :: ps, .cons hk g1, ?_, ?_⟩
    · rw [significant_cons, types_cons, g2]
    · rw [textOf_cons, g3, List.take_append_drop]

/-! ## From texts to tokens -/

/-- The text can be divided into tokens of these types. -/
def Has (s : List Nat) (ts : List Nat) : Prop := ∃ ps, Good ps ∧ Loose ps ∧ textOf ps = s ∧ types ps = ts

theorem blank_digit {c : Nat} (h : BlankChar c) : ¬ DecimalDigit c := by
  unfold BlankChar at h
  unfold DecimalDigit
  omega

theorem Has.nil : Has [] [] := ⟨[], fun _ h => (List.not_mem_nil h).elim, trivial, rfl, rfl⟩

theorem Has.cons {ty : Nat} {p s : List Nat} {ts : List Nat} (hp : Looks ty p) (h0 : ty ≠ 100) (h1 : ty ≠ 110)
    (h : Has s ts) : Has (p ++ s) (ty :: ts) := by
  obtain ⟨ps, g1, g2, g3, g4⟩ := h
  exact ⟨(ty, p) :: ps, .cons hp g1, ⟨fun e => absurd e h1, g2⟩, by rw [textOf_cons, g3],
    by rw [types_cons, g4, if_neg h0]⟩

theorem Has.blank {b s : List Nat} {ts : List Nat} (hb : BlankText b) (h : Has s ts) : Has (b ++ s) ts := by
  cases b with
  | nil => exact h
  | cons c b =>
    obtain ⟨ps, g1, g2, g3, g4⟩ := h
    exact ⟨(100, c :: b) :: ps, .cons (.inl ⟨rfl, by simp, hb⟩) g1, ⟨fun e => by simp at e, g2⟩,
      by rw [textOf_cons, g3], by rw [types_cons, g4, if_pos rfl]⟩

theorem Has.sign {c ty : Nat} {s ts : List Nat} (hc : sign c = some ty) (h : Has s ts) : Has (c :: s) (ty :: ts) := by
  have := sign_cases hc
  exact Has.cons (p := [c]) (.inr (.inl ⟨c, rfl, hc⟩)) (by omega) (by omega) h

theorem Has.quoted {k s ts : List Nat} (hk : QuotedText k) (h : Has s ts) : Has (k ++ s) (109 :: ts) :=
  Has.cons (.inr (.inr (.inr (.inr (.inl ⟨rfl, hk⟩))))) (by decide) (by decide) h

theorem Has.append {s s' ts ts' : List Nat} (h : Has s ts) (h' : Has s' ts')
    (hd : ∀ c, s'.head? = some c → ¬ DecimalDigit c) : Has (s ++ s') (ts ++ ts') := by
  obtain ⟨ps, g1, g2, rfl, rfl⟩ := h
  obtain ⟨qs, i1, i2, rfl, rfl⟩ := h'
  exact ⟨ps ++ qs, g1.append i1, g2.append i2 hd, textOf_append _ _, types_append _ _⟩

theorem head_blank {d : List Nat} (hd : BlankText d) : ∀ c, d.head? = some c → ¬ DecimalDigit c := fun c hc => by
  cases d with
  | nil => cases hc
  | cons x d => cases hc; exact blank_digit (hd _ (by simp))

theorem head_comma {d r : List Nat} (hd : BlankText d) : ∀ c, (d ++ 44 :: r).head? = some c → ¬ DecimalDigit c :=
  fun c hc => by
    cases d with
    | nil => cases hc; unfold DecimalDigit; omega
    | cons x d => cases hc; exact blank_digit (hd _ (by simp))

theorem Has.single {ty : Nat} {s : List Nat} (h : Looks ty s) (h0 : ty ≠ 100) : Has s [ty] :=
  ⟨[(ty, s)], .cons h fun _ h => (List.not_mem_nil h).elim, ⟨fun _ c hc => by simp [textOf] at hc, trivial⟩,
    by simp [textOf], by rw [types_cons, if_neg h0]; rfl⟩

mutual

theorem has_value : {s : List Nat} → JsonText s → ∃ v : Json, v.Proper ∧ Has s v.tokens
  | _, .null => ⟨.primitive 107, by simp [Json.Proper], .single (.inr (.inr (.inl ⟨rfl, rfl⟩))) (by decide)⟩
  | _, .yes => ⟨.primitive 108, by simp [Json.Proper],
      .single (.inr (.inr (.inr (.inl ⟨rfl, .inl rfl⟩)))) (by decide)⟩
  | _, .no => ⟨.primitive 108, by simp [Json.Proper],
      .single (.inr (.inr (.inr (.inl ⟨rfl, .inr rfl⟩)))) (by decide)⟩
  | _, .string h => ⟨.primitive 109, by simp [Json.Proper],
      .single (.inr (.inr (.inr (.inr (.inl ⟨rfl, h⟩))))) (by decide)⟩
  | _, .number h1 h2 => ⟨.primitive 110, by simp [Json.Proper],
      .single (.inr (.inr (.inr (.inr (.inr ⟨rfl, h1, h2⟩))))) (by decide)⟩
  | _, .block h => by
    obtain ⟨v, h1, _, h2⟩ := has_block h
    exact ⟨v, h1, h2⟩

theorem has_block : {s : List Nat} → JsonBlock s → ∃ v : Json, v.Proper ∧ v.Document ∧ Has s v.tokens
  | _, .emptyObject hb => ⟨.object .nil, trivial, trivial, .sign rfl (.blank hb (.sign rfl .nil))⟩
  | _, .object h => by
    obtain ⟨v, vs, h1, h2⟩ := has_fields h
    exact ⟨.object (.cons v vs), h1, trivial, .sign rfl (h2.append (.sign rfl .nil) fun c hc => by
      cases hc; unfold DecimalDigit; omega)⟩
  | _, .emptyArray hb => ⟨.array .nil, trivial, trivial, .sign rfl (.blank hb (.sign rfl .nil))⟩
  | _, .array h => by
    obtain ⟨v, vs, h1, h2⟩ := has_elements h
    exact ⟨.array (.cons v vs), h1, trivial, .sign rfl (h2.append (.sign rfl .nil) fun c hc => by
      cases hc; unfold DecimalDigit; omega)⟩

theorem has_fields : {s : List Nat} → JsonFields s → ∃ (v : Json) (vs : Jsons), (Jsons.cons v vs).Proper ∧
    Has s (Jsons.cons v vs).fields
  | _, .one ha hk hb hc hv hd => by
    obtain ⟨v, h1, h2⟩ := has_value hv
    refine ⟨v, .nil, ⟨h1, trivial⟩, .blank ha (.quoted hk (.blank hb (.sign rfl (.blank hc ?_))))⟩
    simpa [Jsons.comma, Jsons.fields] using h2.append (Has.blank hd .nil) (by simpa using head_blank hd)
  | _, .more ha hk hb hc hv hd hr => by
    obtain ⟨v, h1, h2⟩ := has_value hv
    obtain ⟨w, ws, h3, h4⟩ := has_fields hr
    exact ⟨v, .cons w ws, ⟨h1, h3⟩, .blank ha (.quoted hk (.blank hb (.sign rfl (.blank hc
      (h2.append (Has.blank hd (.sign rfl h4)) (head_comma hd))))))⟩

theorem has_elements : {s : List Nat} → JsonElements s → ∃ (v : Json) (vs : Jsons), (Jsons.cons v vs).Proper ∧
    Has s (Jsons.cons v vs).elements
  | _, .one hc hv hd => by
    obtain ⟨v, h1, h2⟩ := has_value hv
    refine ⟨v, .nil, ⟨h1, trivial⟩, .blank hc ?_⟩
    simpa [Jsons.comma, Jsons.elements] using h2.append (Has.blank hd .nil) (by simpa using head_blank hd)
  | _, .more hc hv hd hr => by
    obtain ⟨v, h1, h2⟩ := has_value hv
    obtain ⟨w, ws, h3, h4⟩ := has_elements hr
    exact ⟨v, .cons w ws, ⟨h1, h3⟩, .blank hc (h2.append (Has.blank hd (.sign rfl h4)) (head_comma hd))⟩

end

theorem has_document {s : List Nat} (h : JsonDocument s) : ∃ v : Json, v.Proper ∧ v.Document ∧ Has s v.tokens := by
  obtain ⟨a, b, c, rfl, ha, hb, hc⟩ := h
  obtain ⟨v, h1, h2, h3⟩ := has_block hb
  refine ⟨v, h1, h2, .blank ha ?_⟩
  simpa using h3.append (Has.blank hc .nil) (by simpa using head_blank hc)

/-! ## From tokens to texts -/

theorem blank_append {a b : List Nat} (ha : BlankText a) (hb : BlankText b) : BlankText (a ++ b) :=
  fun c hc => (List.mem_append.1 hc).elim (ha c) (hb c)

theorem fields_before {s x : List Nat} (hx : BlankText x) (h : JsonFields s) : JsonFields (x ++ s) := by
  cases h with
  | one ha hk hb hc hv hd => rw [← List.append_assoc]; exact .one (blank_append hx ha) hk hb hc hv hd
  | more ha hk hb hc hv hd hr => rw [← List.append_assoc]; exact .more (blank_append hx ha) hk hb hc hv hd hr

theorem elements_before {s x : List Nat} (hx : BlankText x) (h : JsonElements s) : JsonElements (x ++ s) := by
  cases h with
  | one hc hv hd => rw [← List.append_assoc]; exact .one (blank_append hx hc) hv hd
  | more hc hv hd hr => rw [← List.append_assoc]; exact .more (blank_append hx hc) hv hd hr

theorem fields_after : {s : List Nat} → JsonFields s → ∀ x, BlankText x → JsonFields (s ++ x)
  | _, .one ha hk hb hc hv hd, x, hx => by simpa using JsonFields.one ha hk hb hc hv (blank_append hd hx)
  | _, .more ha hk hb hc hv hd hr, x, hx => by simpa using JsonFields.more ha hk hb hc hv hd (fields_after hr x hx)

theorem elements_after : {s : List Nat} → JsonElements s → ∀ x, BlankText x → JsonElements (s ++ x)
  | _, .one hc hv hd, x, hx => by simpa using JsonElements.one hc hv (blank_append hd hx)
  | _, .more hc hv hd hr, x, hx => by simpa using JsonElements.more hc hv hd (elements_after hr x hx)

theorem types_split {ps : List (Nat × List Nat)} {a b : List Nat} (h : types ps = a ++ b) :
    ∃ p q, ps = p ++ q ∧ types p = a ∧ types q = b := by
  obtain ⟨l1, l2, e1, e2, e3⟩ := List.filter_eq_append_iff.1 h
  obtain ⟨p, q, rfl, rfl, rfl⟩ := List.map_eq_append_iff.1 e1
  exact ⟨p, q, rfl, e2, e3⟩

theorem Good.left {ps qs : List (Nat × List Nat)} (h : Good (ps ++ qs)) : Good ps := fun p hp => h p (by simp [hp])

theorem Good.right {ps qs : List (Nat × List Nat)} (h : Good (ps ++ qs)) : Good qs := fun p hp => h p (by simp [hp])

theorem Looks.blank {s : List Nat} (h : Looks 100 s) : BlankText s := by
  rcases h with ⟨_, _, h⟩ | ⟨c, _, h⟩ | ⟨h, _⟩ | ⟨h, _⟩ | ⟨h, _⟩ | ⟨h, _⟩
  · exact h
  · have := sign_cases h; omega
  all_goals omega

theorem blanks {ps : List (Nat × List Nat)} (hl : Good ps) (h : types ps = []) : BlankText (textOf ps) := by
  intro c hc
  obtain ⟨s, hs, hc⟩ := List.mem_flatten.1 hc
  obtain ⟨p, hp, rfl⟩ := List.mem_map.1 hs
  have h1 := List.filter_eq_nil_iff.1 h p.1 (List.mem_map.2 ⟨p, hp, rfl⟩)
  have h2 : p.1 = 100 := by simpa [jsonIsWs] using h1
  have h3 := hl p hp
  rw [h2] at h3
  exact h3.blank c hc

/-- A single token, with the white space around it. -/
theorem single {ps : List (Nat × List Nat)} {ty : Nat} (hl : Good ps) (h : types ps = [ty]) :
    ∃ x s y, textOf ps = x ++ (s ++ y) ∧ BlankText x ∧ BlankText y ∧ Looks ty s := by
  obtain ⟨l1, l2, e1, e2, e3, e4⟩ := List.filter_eq_cons_iff.1 h
  obtain ⟨p, q, rfl, rfl, e5⟩ := List.map_eq_append_iff.1 e1
  obtain ⟨m, q, rfl, rfl, rfl⟩ := List.map_eq_cons_iff.1 e5
  exact ⟨textOf p, m.2, textOf q, by simp [textOf], blanks hl.left (List.filter_eq_nil_iff.2 fun a ha => e2 a ha),
    blanks (fun x hx => hl x (by simp [hx])) e4, hl m (by simp)⟩

theorem signs {ps : List (Nat × List Nat)} {ty c : Nat} (hl : Good ps) (h : types ps = [ty]) (hc : sign c = some ty) :
    ∃ x y, textOf ps = x ++ c :: y ∧ BlankText x ∧ BlankText y := by
  obtain ⟨x, s, y, h1, h2, h3, h4⟩ := single hl h
  have hs := sign_cases hc
  rcases h4 with ⟨e, _⟩ | ⟨c', rfl, hc'⟩ | ⟨e, _⟩ | ⟨e, _⟩ | ⟨e, _⟩ | ⟨e, _⟩
  · omega
  · have hs' := sign_cases hc'
    obtain rfl : c' = c := by omega
    exact ⟨x, y, by simpa using h1, h2, h3⟩
  all_goals omega

theorem quotes {ps : List (Nat × List Nat)} (hl : Good ps) (h : types ps = [109]) :
    ∃ x s y, textOf ps = x ++ (s ++ y) ∧ BlankText x ∧ BlankText y ∧ QuotedText s := by
  obtain ⟨x, s, y, h1, h2, h3, h4⟩ := single hl h
  refine ⟨x, s, y, h1, h2, h3, ?_⟩
  rcases h4 with ⟨e, _⟩ | ⟨c', rfl, hc'⟩ | ⟨e, _⟩ | ⟨e, _⟩ | ⟨_, e⟩ | ⟨e, _⟩
  · omega
  · have := sign_cases hc'; omega
  · omega
  · omega
  · exact e
  · omega

theorem comma_cases (vs : Jsons) : vs = .nil ∨ vs ≠ .nil ∧ vs.comma = [106] := by
  cases vs with
  | nil => exact .inl rfl
  | cons _ _ => exact .inr ⟨by simp, rfl⟩

mutual

theorem text_value : (v : Json) → v.Proper → (ps : List (Nat × List Nat)) → Good ps → types ps = v.tokens →
    ∃ a b c, textOf ps = a ++ (b ++ c) ∧ BlankText a ∧ BlankText c ∧ JsonText b ∧ (v.Document → JsonBlock b)
  | .primitive ty, hp, ps, hl, h => by
    obtain ⟨x, s, y, h1, h2, h3, h4⟩ := single hl h
    refine ⟨x, s, y, h1, h2, h3, ?_, fun h => h.elim⟩
    simp only [Json.Proper, List.mem_cons, List.not_mem_nil, or_false] at hp
    rcases h4 with ⟨e, _⟩ | ⟨c', rfl, hc'⟩ | ⟨_, rfl⟩ | ⟨_, rfl | rfl⟩ | ⟨_, e⟩ | ⟨_, e1, e2⟩
    · subst e; simp at hp
    · rcases hp with rfl | rfl | rfl | rfl <;> (have := sign_cases hc'; simp at this)
    · exact .null
    · exact .yes
    · exact .no
    · exact .string e
    · exact .number e1 e2
  | .object fields, hp, ps, hl, h => by
    obtain ⟨p, q, rfl, h1, h2⟩ := types_split (a := [101]) (b := fields.fields ++ [102]) h
    obtain ⟨q, r, rfl, h2, h3⟩ := types_split h2
    obtain ⟨x, y, e1, b1, b2⟩ := signs (c := 123) hl.left h1 rfl
    obtain ⟨x', y', e2, b3, b4⟩ := signs (c := 125) hl.right.right h3 rfl
    have hb : JsonBlock (123 :: ((y ++ textOf q ++ x') ++ [125])) := by
      cases fields with
      | nil => exact .emptyObject (blank_append (blank_append b2 (blanks hl.right.left h2)) b3)
      | cons v vs => exact .object (fields_after (fields_before b2 (text_fields (.cons v vs) (by simp) hp q hl.right.left h2)) _ b3)
    exact ⟨x, _, y', by rw [textOf_append, textOf_append, e1, e2]; simp, b1, b4, .block hb, fun _ => hb⟩
  | .array elements, hp, ps, hl, h => by
    obtain ⟨p, q, rfl, h1, h2⟩ := types_split (a := [103]) (b := elements.elements ++ [104]) h
    obtain ⟨q, r, rfl, h2, h3⟩ := types_split h2
    obtain ⟨x, y, e1, b1, b2⟩ := signs (c := 91) hl.left h1 rfl
    obtain ⟨x', y', e2, b3, b4⟩ := signs (c := 93) hl.right.right h3 rfl
    have hb : JsonBlock (91 :: ((y ++ textOf q ++ x') ++ [93])) := by
      cases elements with
      | nil => exact .emptyArray (blank_append (blank_append b2 (blanks hl.right.left h2)) b3)
      | cons v vs => exact .array (elements_after (elements_before b2 (text_elements (.cons v vs) (by simp) hp q hl.right.left h2)) _ b3)
    exact ⟨x, _, y', by rw [textOf_append, textOf_append, e1, e2]; simp, b1, b4, .block hb, fun _ => hb⟩

theorem text_fields : (vs : Jsons) → vs ≠ .nil → vs.Proper → (ps : List (Nat × List Nat)) → Good ps →
    types ps = vs.fields → JsonFields (textOf ps)
  | .nil, hn, _, _, _, _ => absurd rfl hn
  | .cons v vs, _, hp, ps, hl, h => by
    obtain ⟨p, q, rfl, h1, h2⟩ := types_split (a := [109]) (b := 105 :: (v.tokens ++ (vs.comma ++ vs.fields))) h
    obtain ⟨q, r, rfl, h3, h4⟩ := types_split (a := [105]) (b := v.tokens ++ (vs.comma ++ vs.fields)) h2
    obtain ⟨r, t, rfl, h5, h6⟩ := types_split h4
    obtain ⟨x, k, y, e1, b1, b2, hk⟩ := quotes hl.left h1
    obtain ⟨x', y', e2, b3, b4⟩ := signs (c := 58) hl.right.left h3 rfl
    obtain ⟨a, b, c, e3, b5, b6, hv, -⟩ := text_value v hp.1 r hl.right.right.left h5
    rw [textOf_append, textOf_append, textOf_append, e1, e2, e3]
    rcases comma_cases vs with rfl | ⟨hn, hcm⟩
    · have := JsonFields.one b1 hk (blank_append b2 b3) (blank_append b4 b5) hv
        (blank_append b6 (blanks hl.right.right.right h6))
      simpa using this
    · rw [hcm] at h6
      obtain ⟨t, u, rfl, h7, h8⟩ := types_split h6
      obtain ⟨x2, y2, e4, b7, b8⟩ := signs (c := 44) hl.right.right.right.left h7 rfl
      have hr := fields_before b8 (text_fields vs hn hp.2 u hl.right.right.right.right h8)
      have := JsonFields.more b1 hk (blank_append b2 b3) (blank_append b4 b5) hv (blank_append b6 b7) hr
      rw [textOf_append, e4]
      simpa using this

theorem text_elements : (vs : Jsons) → vs ≠ .nil → vs.Proper → (ps : List (Nat × List Nat)) → Good ps →
    types ps = vs.elements → JsonElements (textOf ps)
  | .nil, hn, _, _, _, _ => absurd rfl hn
  | .cons v vs, _, hp, ps, hl, h => by
    obtain ⟨r, t, rfl, h5, h6⟩ := types_split (a := v.tokens) (b := vs.comma ++ vs.elements) h
    obtain ⟨a, b, c, e3, b5, b6, hv, -⟩ := text_value v hp.1 r hl.left h5
    rw [textOf_append, e3]
    rcases comma_cases vs with rfl | ⟨hn, hcm⟩
    · have := JsonElements.one b5 hv (blank_append b6 (blanks hl.right h6))
      simpa using this
    · rw [hcm] at h6
      obtain ⟨t, u, rfl, h7, h8⟩ := types_split h6
      obtain ⟨x2, y2, e4, b7, b8⟩ := signs (c := 44) hl.right.left h7 rfl
      have hr := elements_before b8 (text_elements vs hn hp.2 u hl.right.right h8)
      have := JsonElements.more b5 hv (blank_append b6 b7) hr
      rw [textOf_append, e4]
      simpa using this

end

mutual

theorem types_json : (v : Json) → v.Proper → ∀ t ∈ v.tokens, t ≠ ERROR
  | .primitive ty, hp, t, h => by
    simp only [Json.tokens, List.mem_singleton] at h
    subst h
    simp only [Json.Proper, List.mem_cons, List.not_mem_nil, or_false] at hp
    rcases hp with rfl | rfl | rfl | rfl <;> decide
  | .object fields, hp, t, h => by
    simp only [Json.tokens, List.mem_cons, List.mem_append, List.not_mem_nil, or_false] at h
    rcases h with rfl | h | rfl
    · decide
    · exact (types_jsons fields hp).1 t h
    · decide
  | .array elements, hp, t, h => by
    simp only [Json.tokens, List.mem_cons, List.mem_append, List.not_mem_nil, or_false] at h
    rcases h with rfl | h | rfl
    · decide
    · exact (types_jsons elements hp).2 t h
    · decide

theorem types_jsons : (vs : Jsons) → vs.Proper → (∀ t ∈ vs.fields, t ≠ ERROR) ∧ ∀ t ∈ vs.elements, t ≠ ERROR
  | .nil, _ => ⟨fun _ h => (List.not_mem_nil h).elim, fun _ h => (List.not_mem_nil h).elim⟩
  | .cons v vs, hp => by
    have h1 := types_json v hp.1
    have h2 := types_jsons vs hp.2
    have h3 : ∀ t ∈ vs.comma, t ≠ ERROR := fun t ht => by
      cases vs with
      | nil => exact (List.not_mem_nil ht).elim
      | cons _ _ => cases List.mem_singleton.1 ht; decide
    constructor
    · intro t h
      simp only [Jsons.fields, List.mem_cons, List.mem_append] at h
      rcases h with rfl | rfl | h | h | h
      · decide
      · decide
      · exact h1 t h
      · exact h3 t h
      · exact h2.1 t h
    · intro t h
      simp only [Jsons.elements, List.mem_append] at h
      rcases h with h | h | h
      · exact h1 t h
      · exact h3 t h
      · exact h2.2 t h

end

end JsonWritten

end Fall
