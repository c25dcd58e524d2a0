import Verif.Spec.LexRules

/-!
Derivatives of regular expressions, and a lexer that can be run.
-/

namespace Fall

open Spec

namespace Re

/-- Whether the empty string is described. -/
def nullable : Re → Bool
  | .never => false
  | .empty => true
  | .set _ => false
  | .seq a b => a.nullable && b.nullable
  | .alt a b => a.nullable || b.nullable
  | .star _ => true

/-- One after the other. -/
def mkSeq : Re → Re → Re
  | .never, _ => .never
  | .empty, b => b
  | _, .never => .never
  | a, b => .seq a b

/-- One or the other. -/
def mkAlt : Re → Re → Re
  | .never, b => b
  | a, .never => a
  | a, b => .alt a b

/-- What may follow a byte. -/
def deriv (x : Nat) : Re → Re
  | .never => .never
  | .empty => .never
  | .set ranges => if ranges.any fun r => r.1 ≤ x && x ≤ r.2 then .empty else .never
  | .seq a b => if a.nullable then mkAlt (mkSeq (a.deriv x) b) (b.deriv x) else mkSeq (a.deriv x) b
  | .alt a b => mkAlt (a.deriv x) (b.deriv x)
  | .star a => mkSeq (a.deriv x) (.star a)

theorem not_none {s : List Nat} : ¬ Matches .never s := by
  intro h; cases h

theorem nullable_iff {r : Re} : r.nullable = true ↔ Matches r [] := by
  induction r with
  | never => simp [nullable, not_none]
  | empty => simp [nullable, Matches.empty]
  | set ranges =>
    simp only [nullable, Bool.false_eq_true, false_iff]
    intro h; cases h
  | seq a b iha ihb =>
    simp only [nullable, Bool.and_eq_true, iha, ihb]
    constructor
    · rintro ⟨h1, h2⟩
      exact Matches.seq h1 h2
    · intro h
      generalize hs : ([] : List Nat) = s at h
      cases h with
      | seq h1 h2 =>
        obtain ⟨rfl, rfl⟩ := List.nil_eq_append_iff.1 hs
        exact ⟨h1, h2⟩
  | alt a b iha ihb =>
    simp only [nullable, Bool.or_eq_true, iha, ihb]
    constructor
    · rintro (h | h)
      · exact .left h
      · exact .right h
    · intro h
      cases h with
      | left h => exact Or.inl h
      | right h => exact Or.inr h
  | star a _ => simp [nullable, Matches.starNil]

theorem seq_iff {a b : Re} {s : List Nat} : Matches (.seq a b) s ↔ ∃ x y, s = x ++ y ∧ Matches a x ∧ Matches b y := by
  constructor
  · intro h
    cases h with
    | seq h1 h2 => exact ⟨_, _, rfl, h1, h2⟩
  · rintro ⟨x, y, rfl, h1, h2⟩
    exact .seq h1 h2

theorem alt_iff {a b : Re} {s : List Nat} : Matches (.alt a b) s ↔ Matches a s ∨ Matches b s := by
  constructor
  · intro h
    cases h with
    | left h => exact Or.inl h
    | right h => exact Or.inr h
  · rintro (h | h)
    · exact .left h
    · exact .right h

theorem empty_iff {s : List Nat} : Matches .empty s ↔ s = [] := by
  constructor
  · intro h; cases h; rfl
  · rintro rfl; exact .empty

theorem mkSeq_iff {a b : Re} {s : List Nat} : Matches (mkSeq a b) s ↔ Matches (.seq a b) s := by
  unfold mkSeq
  split
  · simp [seq_iff, not_none]
  · simp only [seq_iff, empty_iff]
    constructor
    · exact fun h => ⟨[], _, rfl, rfl, h⟩
    · rintro ⟨_, _, rfl, rfl, h⟩
      exact h
  · simp [seq_iff, not_none]
  · rfl

theorem mkAlt_iff {a b : Re} {s : List Nat} : Matches (mkAlt a b) s ↔ Matches a s ∨ Matches b s := by
  unfold mkAlt
  split
  · simp [not_none]
  · simp [not_none]
  · exact alt_iff

theorem star_cons {a : Re} {x : Nat} {s : List Nat} :
    Matches (.star a) (x :: s) ↔ ∃ u v, s = u ++ v ∧ Matches a (x :: u) ∧ Matches (.star a) v := by
  constructor
  · intro h
    generalize hr : Re.star a = r at h
    generalize ht : x :: s = t at h
    induction h with
    | starNil => cases ht
    | @starCons a' u v h1 h2 _ ih =>
      cases hr
      cases u with
      | nil => exact ih rfl (by simpa using ht)
      | cons y u =>
        simp only [List.cons_append, List.cons.injEq] at ht
        obtain ⟨rfl, rfl⟩ := ht
        exact ⟨u, v, rfl, h1, h2⟩
    | _ => cases hr
  · rintro ⟨u, v, rfl, h1, h2⟩
    exact Matches.starCons h1 h2

theorem deriv_iff {r : Re} {x : Nat} {s : List Nat} : Matches (r.deriv x) s ↔ Matches r (x :: s) := by
  induction r generalizing s with
  | never => simp [deriv, not_none]
  | empty => simp [deriv, not_none, empty_iff]
  | set ranges =>
    unfold deriv
    split
    · rename_i h
      obtain ⟨r, hr, h⟩ := List.any_eq_true.1 h
      simp only [Bool.and_eq_true, decide_eq_true_eq] at h
      rw [empty_iff]
      constructor
      · rintro rfl
        exact .set (lo := r.1) (hi := r.2) hr h.1 h.2
      · intro h; cases h; rfl
    · rename_i h
      simp only [not_none, false_iff]
      intro hm
      cases hm with
      | set hr h1 h2 => exact h (List.any_eq_true.2 ⟨_, hr, by simp [h1, h2]⟩)
  | seq a b iha ihb =>
    have key : Matches (.seq a b) (x :: s) ↔ (Matches a [] ∧ Matches b (x :: s)) ∨
        ∃ u v, s = u ++ v ∧ Matches a (x :: u) ∧ Matches b v := by
      rw [seq_iff]
      constructor
      · rintro ⟨u, v, h, h1, h2⟩
        cases u with
        | nil =>
          simp only [List.nil_append] at h
          subst h
          exact Or.inl ⟨h1, h2⟩
        | cons y u =>
          simp only [List.cons_append, List.cons.injEq] at h
          obtain ⟨rfl, rfl⟩ := h
          exact Or.inr ⟨u, v, rfl, h1, h2⟩
      · rintro (⟨h1, h2⟩ | ⟨u, v, rfl, h1, h2⟩)
        · exact ⟨[], _, rfl, h1, h2⟩
        · exact ⟨x :: u, v, rfl, h1, h2⟩
    rw [key]
    unfold deriv
    split
    · rename_i hn
      simp only [mkAlt_iff, mkSeq_iff, seq_iff, iha, ihb, nullable_iff.1 hn, true_and]
      exact Or.comm
    · rename_i hn
      simp only [mkSeq_iff, seq_iff, iha]
      have : ¬ Matches a [] := fun h => hn (nullable_iff.2 h)
      simp [this]
  | alt a b iha ihb => simp only [deriv, mkAlt_iff, alt_iff, iha, ihb]
  | star a ih => simp only [deriv, mkSeq_iff, seq_iff, ih, star_cons]

/-- The length of the longest start of the text that is described. -/
def longest : Re → List Nat → Option Nat
  | r, [] => if r.nullable then some 0 else none
  | r, x :: s =>
    if r = .never then none
    else match (r.deriv x).longest s with
      | some k => some (k + 1)
      | none => if r.nullable then some 0 else none

theorem longest_some {r : Re} {s : List Nat} {k : Nat} (h : r.longest s = some k) :
    k ≤ s.length ∧ Matches r (s.take k) := by
  induction s generalizing r k with
  | nil =>
    simp only [longest, Option.ite_none_right_eq_some, Option.some.injEq] at h
    obtain ⟨h, rfl⟩ := h
    exact ⟨Nat.le_refl _, nullable_iff.1 h⟩
  | cons x s ih =>
    unfold longest at h
    split at h
    · cases h
    · split at h
      · rename_i k' hk
        cases h
        obtain ⟨h1, h2⟩ := ih hk
        exact ⟨by simpa using h1, deriv_iff.1 h2⟩
      · simp only [Option.ite_none_right_eq_some, Option.some.injEq] at h
        obtain ⟨h, rfl⟩ := h
        exact ⟨Nat.zero_le _, nullable_iff.1 h⟩

theorem longest_none {r : Re} {s : List Nat} (h : r.longest s = none) (k : Nat) : ¬ Matches r (s.take k) := by
  induction s generalizing r k with
  | nil =>
    intro hm
    rw [List.take_nil] at hm
    simp [longest, nullable_iff.2 hm] at h
  | cons x s ih =>
    intro hm
    unfold longest at h
    split at h
    · subst r
      exact not_none hm
    · split at h
      · cases h
      · rename_i hk
        cases k with
        | zero => simp [nullable_iff.2 hm] at h
        | succ k => exact ih hk k (deriv_iff.2 hm)

end Re

/-- The length of the token a rule finds, if there is a longest match. The outer `none` is a panic. -/
def LexRule.find (r : LexRule) (text : List Nat) : Option (Option Nat) :=
  match r.re.longest text with
  | none => some none
  | some k =>
    match r.f with
    | none => some (some k)
    | some f => f text

/-- The longest of the tokens that rules find, the first of them if there are more. -/
def findToken (text : List Nat) : List LexRule → Token → Option Token
  | [], best => some best
  | r :: rs, best =>
    match r.find text with
    | none => none
    | some none => findToken text rs best
    | some (some n) => findToken text rs (if best.len < n ∧ n ≤ text.length then ⟨r.ty, n⟩ else best)

/-- A lexer for the rules. Where no rule finds a token and where a rule panics, there is an error of one byte. -/
def ruleLexer (rules : List LexRule) : Lexer Nat := fun text =>
  match findToken text rules ⟨ERROR, 0⟩ with
  | some t => if t.len = 0 then ⟨ERROR, 1⟩ else t
  | none => ⟨ERROR, 1⟩

theorem LexRule.find_some {r : LexRule} {text : List Nat} {n : Nat} (h : r.find text = some (some n)) :
    Finds r text n := by
  unfold LexRule.find at h
  split at h
  · cases h
  · rename_i k hk
    have := Re.longest_some hk
    split at h
    · rename_i hf
      cases h
      simp only [Finds, hf]
      exact this.2
    · rename_i f hf
      simp only [Finds, hf]
      exact ⟨⟨k, this.2⟩, h⟩

theorem findToken_some {text : List Nat} {rules : List LexRule} {best t : Token}
    (h : findToken text rules best = some t) :
    t = best ∨ (t.len ≤ text.length ∧ ∃ r, r ∈ rules ∧ r.ty = t.ty ∧ Finds r text t.len) := by
  induction rules generalizing best with
  | nil => cases h; exact Or.inl rfl
  | cons r rs ih =>
    unfold findToken at h
    split at h
    · cases h
    · rcases ih h with h | ⟨h1, r', h2, h3⟩
      · exact Or.inl h
      · exact Or.inr ⟨h1, r', by simp [h2], h3⟩
    · rename_i n hn
      rcases ih h with h | ⟨h1, r', h2, h3⟩
      · split at h
        · rename_i hc
          subst h
          exact Or.inr ⟨hc.2, r, by simp, rfl, LexRule.find_some hn⟩
        · exact Or.inl h
      · exact Or.inr ⟨h1, r', by simp [h2], h3⟩

/-- There are lexers that apply the rules. -/
theorem ruleLexer_lexes (rules : List LexRule) : LexesBy rules (ruleLexer rules) := by
  constructor
  · intro text hne
    have hlen : 1 ≤ text.length := List.length_pos_iff.2 hne
    unfold ruleLexer
    split
    · rename_i t ht
      split
      · exact ⟨Nat.one_pos, hlen⟩
      · rename_i h0
        rcases findToken_some ht with rfl | ⟨h1, _⟩
        · exact absurd rfl h0
        · exact ⟨Nat.pos_of_ne_zero h0, h1⟩
    · exact ⟨Nat.one_pos, hlen⟩
  · intro text
    unfold ruleLexer
    split
    · rename_i t ht
      split
      · exact Or.inl rfl
      · rename_i h0
        rcases findToken_some ht with rfl | ⟨_, h1⟩
        · exact absurd rfl h0
        · exact Or.inr h1
    · exact Or.inl rfl

/-- No rule for tokens like whitespace describes a string that begins with a visible ASCII character other than a
slash. -/
def blankRules (isWs : NodeType → Bool) (rules : List LexRule) : Bool :=
  !isWs ERROR && rules.all fun r => !isWs r.ty || !r.re.nullable &&
    (List.range 127).all fun b => b < 33 || b == 47 || r.re.deriv b == .never

theorem Spec.LexesBy.blankStart {rules : List LexRule} {lexer : Lexer Nat} {isWs : NodeType → Bool}
    (h : LexesBy rules lexer) (hb : blankRules isWs rules = true) : BlankStart isWs lexer := by
  intro b rest h1 h2 h3
  simp only [blankRules, Bool.and_eq_true, Bool.not_eq_true'] at hb
  rcases h.token (b :: rest) with he | ⟨r, hr, hty, hf⟩
  · rw [he]; exact hb.1
  · rw [← hty]
    have := List.all_eq_true.1 hb.2 r hr
    rw [Bool.or_eq_true, Bool.not_eq_true'] at this
    rcases this with this | this
    · exact this
    · exfalso
      simp only [Bool.and_eq_true, Bool.not_eq_true', List.all_eq_true] at this
      have hd := this.2 b (by simpa using h2)
      simp only [Bool.or_eq_true, decide_eq_true_eq, beq_iff_eq] at hd
      have hd : r.re.deriv b = .never := by
        rcases hd with (hd | hd) | hd
        · omega
        · exact absurd hd h3
        · exact hd
      have no : ∀ k, ¬ Matches r.re ((b :: rest).take k) := by
        intro k hk
        cases k with
        | zero =>
          rw [List.take_zero] at hk
          rw [Re.nullable_iff.2 hk] at this
          exact absurd this.1 (by simp)
        | succ k =>
          have := Re.deriv_iff.2 hk
          rw [hd] at this
          exact Re.not_none this
      unfold Finds at hf
      split at hf
      · exact no _ hf
      · exact no _ hf.1.choose_spec

end Fall
