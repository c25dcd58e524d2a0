import Verif.Spec.Parens
import Verif.Lemmas.Sexp
import Verif.Lemmas.LexPlain

/-!
Parentheses of texts, of tokens and of expressions.
-/

namespace Fall

open Spec

namespace Parens

/-- How many parentheses are open at the end, if never too many are closed. -/
def scan (o c : Nat) : Nat → List Nat → Option Nat
  | d, [] => some d
  | d, x :: xs =>
    if x = o then scan o c (d + 1) xs
    else if x = c then (match d with | 0 => none | d + 1 => scan o c d xs)
    else scan o c d xs

theorem scan_some {o c : Nat} (hne : o ≠ c) : (l : List Nat) → (d e : Nat) → (scan o c d l = some e ↔
    (∀ k, (l.take k).count c ≤ d + (l.take k).count o) ∧ d + l.count o = e + l.count c)
  | [], d, e => by simp [scan]
  | x :: xs, d, e => by
    have hk : ∀ {p : Nat → Prop}, (∀ k, p k) ↔ p 0 ∧ ∀ k, p (k + 1) :=
      ⟨fun h => ⟨h 0, fun k => h _⟩, fun h k => by cases k with | zero => exact h.1 | succ k => exact h.2 k⟩
    rw [hk]
    simp only [List.take_zero, List.take_succ_cons, List.count_nil]
    by_cases hx : x = o
    · subst hx
      simp only [scan, if_true, scan_some hne xs, List.count_cons_self, List.count_cons_of_ne hne]
      refine ⟨fun h => ⟨⟨by omega, fun k => by have := h.1 k; omega⟩, by omega⟩,
        fun h => ⟨fun k => by have := h.1.2 k; omega, by omega⟩⟩
    · by_cases hc : x = c
      · subst hc
        simp only [scan, if_neg hx, if_true, List.count_cons_self, List.count_cons_of_ne hx]
        cases d with
        | zero =>
          simp only [reduceCtorEq, false_iff]
          rintro ⟨⟨_, h⟩, _⟩
          have := h 0
          simp at this
        | succ d =>
          simp only [scan_some hne xs]
          refine ⟨fun h => ⟨⟨by omega, fun k => by have := h.1 k; omega⟩, by omega⟩,
            fun h => ⟨fun k => by have := h.1.2 k; omega, by omega⟩⟩
      · simp only [scan, if_neg hx, if_neg hc, scan_some hne xs, List.count_cons_of_ne hx, List.count_cons_of_ne hc]
        exact ⟨fun h => ⟨⟨by omega, h.1⟩, h.2⟩, fun h => ⟨h.1.2, h.2⟩⟩

theorem scan_skip {o c : Nat} (a b : List Nat) (h : ∀ x ∈ a, x ≠ o ∧ x ≠ c) (d : Nat) :
    scan o c d (a ++ b) = scan o c d b := by
  induction a with
  | nil => rfl
  | cons x a ih =>
    have := h x (by simp)
    simp only [List.cons_append, scan, if_neg this.1, if_neg this.2]
    exact ih fun y hy => h y (by simp [hy])

mutual

theorem scan_item : (v : Sexp) → (d : Nat) → (r : List NodeType) → scan 101 102 d (v.tokens ++ r) = scan 101 102 d r
  | .atom, d, r => by simp [Sexp.tokens, scan]
  | .list vs, d, r => by
    simp only [Sexp.tokens, List.cons_append, List.append_assoc, scan, if_true]
    rw [scan_items vs (d + 1)]
    simp [scan]

theorem scan_items : (vs : Sexps) → (d : Nat) → (r : List NodeType) →
    scan 101 102 d (vs.tokens ++ r) = scan 101 102 d r
  | .nil, d, r => rfl
  | .cons v vs, d, r => by
    simp only [Sexps.tokens, List.append_assoc]
    rw [scan_item v, scan_items vs]

end

mutual

theorem types_item : (v : Sexp) → ∀ t ∈ v.tokens, t = 101 ∨ t = 102 ∨ t = 103
  | .atom, t, h => by simp [Sexp.tokens] at h; simp [h]
  | .list vs, t, h => by
    simp only [Sexp.tokens, List.mem_cons, List.mem_append, List.not_mem_nil, or_false] at h
    rcases h with h | h | h
    · simp [h]
    · exact types_items vs t h
    · simp [h]

theorem types_items : (vs : Sexps) → ∀ t ∈ vs.tokens, t = 101 ∨ t = 102 ∨ t = 103
  | .nil, t, h => by simp [Sexps.tokens] at h
  | .cons v vs, t, h => by
    rcases List.mem_append.1 h with h | h
    · exact types_item v t h
    · exact types_items vs t h

end

/-- Expressions, closing parentheses between them, and as many of these as are open. -/
def Closed : Nat → List NodeType → Prop
  | 0, l => ∃ vs : Sexps, l = vs.tokens
  | d + 1, l => ∃ (vs : Sexps) (r : List NodeType), l = vs.tokens ++ 102 :: r ∧ Closed d r

theorem Closed.cons {d : Nat} {l : List NodeType} (v : Sexp) (h : Closed d l) : Closed d (v.tokens ++ l) := by
  cases d with
  | zero => obtain ⟨vs, rfl⟩ := h; exact ⟨.cons v vs, rfl⟩
  | succ d => obtain ⟨vs, r, rfl, hr⟩ := h; exact ⟨.cons v vs, r, by simp [Sexps.tokens], hr⟩

theorem closed_of_scan : (l : List NodeType) → (∀ t ∈ l, t = 101 ∨ t = 102 ∨ t = 103) → (d : Nat) →
    scan 101 102 d l = some 0 → Closed d l
  | [], _, d, h => by
    obtain rfl : d = 0 := by simpa [scan] using h
    exact ⟨.nil, rfl⟩
  | t :: l, ht, d, h => by
    have hl : ∀ t ∈ l, t = 101 ∨ t = 102 ∨ t = 103 := fun x hx => ht x (by simp [hx])
    rcases ht t (by simp) with rfl | rfl | rfl
    · obtain ⟨vs, r, rfl, hr⟩ := closed_of_scan l hl (d + 1) (by simpa [scan] using h)
      simpa [Sexp.tokens] using hr.cons (.list vs)
    · cases d with
      | zero => simp [scan] at h
      | succ d => exact ⟨.nil, l, rfl, closed_of_scan l hl d (by simpa [scan] using h)⟩
    · exact (closed_of_scan l hl d (by simpa [scan] using h)).cons .atom

theorem sexps_iff (l : List NodeType) : (∃ vs : Sexps, l = vs.tokens) ↔
    (∀ t ∈ l, t = 101 ∨ t = 102 ∨ t = 103) ∧ scan 101 102 0 l = some 0 := by
  constructor
  · rintro ⟨vs, rfl⟩
    exact ⟨types_items vs, by simpa [scan] using scan_items vs 0 []⟩
  · rintro ⟨h1, h2⟩
    exact closed_of_scan l h1 0 h2

/-- The bytes of which an expression speaks. -/
def ranges : Re → List (Nat × Nat)
  | .never | .empty => []
  | .set r => r
  | .seq a b | .alt a b => ranges a ++ ranges b
  | .star a => ranges a

theorem mem_ranges {r : Re} {s : List Nat} (h : Matches r s) : ∀ b ∈ s, ∃ p ∈ ranges r, p.1 ≤ b ∧ b ≤ p.2 := by
  induction h with
  | empty => simp
  | set h1 h2 h3 => intro x hx; cases List.mem_singleton.1 hx; exact ⟨_, h1, h2, h3⟩
  | seq _ _ ih1 ih2 =>
    intro x hx
    rcases List.mem_append.1 hx with hx | hx
    · obtain ⟨p, hp, h⟩ := ih1 x hx; exact ⟨p, by simp [ranges, hp], h⟩
    · obtain ⟨p, hp, h⟩ := ih2 x hx; exact ⟨p, by simp [ranges, hp], h⟩
  | left _ ih => intro x hx; obtain ⟨p, hp, h⟩ := ih x hx; exact ⟨p, by simp [ranges, hp], h⟩
  | right _ ih => intro x hx; obtain ⟨p, hp, h⟩ := ih x hx; exact ⟨p, by simp [ranges, hp], h⟩
  | starNil => simp
  | starCons _ _ ih1 ih2 =>
    intro x hx
    rcases List.mem_append.1 hx with hx | hx
    · exact ih1 x hx
    · exact ih2 x hx

theorem plus_one {rs : List (Nat × Nat)} {c lo hi : Nat} (h : (lo, hi) ∈ rs) (h1 : lo ≤ c) (h2 : c ≤ hi) :
    Matches (.plus (.wide rs)) [c] := by
  have : Matches (.plus (.wide rs)) ([c] ++ []) := .seq (.left (.set h h1 h2)) .starNil
  simpa using this

/-- One step of a lexer for symbolic expressions. -/
theorem step {lexer : Lexer Nat} (hl : LexesAscii sexpLexRules lexer) {text : List Nat} (ha : Ascii text)
    (hne : text ≠ []) :
    ((lexer text).ty = 100 ∧ ∀ c ∈ text.take (lexer text).len, SexpChar c ∧ c ≠ 40 ∧ c ≠ 41) ∨
    ((lexer text).ty = 101 ∧ text.take (lexer text).len = [40]) ∨
    ((lexer text).ty = 102 ∧ text.take (lexer text).len = [41]) ∨
    ((lexer text).ty = 103 ∧ ∀ c ∈ text.take (lexer text).len, SexpChar c ∧ c ≠ 40 ∧ c ≠ 41) ∨
    ((lexer text).ty = ERROR ∧ ∃ c ∈ text, ¬ SexpChar c) := by
  by_cases hf : ∃ r ∈ sexpLexRules, ∃ n, FindsHere r text n
  · obtain ⟨before, r, after, hr, hty, ⟨h1, h2, h3⟩, -⟩ := hl.found text ha hf
    have hmem : r ∈ sexpLexRules := by rw [hr]; simp
    have hasc : ∀ c ∈ text.take (lexer text).len, c < 128 := fun c hc => ha c (List.mem_of_mem_take hc)
    have hlen : (text.take (lexer text).len).length = (lexer text).len := by simp [h2]
    simp only [sexpLexRules, List.mem_cons, List.not_mem_nil, or_false] at hmem
    rcases hmem with rfl | rfl | rfl | rfl
    · refine .inl ⟨hty.symm, fun c hc => ?_⟩
      obtain ⟨p, hp, h4, h5⟩ := mem_ranges (show Matches (.plus .blank) _ from h3) c hc
      have := hasc c hc
      simp [ranges, Re.plus, Re.blank, Re.wide] at hp
      rcases hp with rfl | rfl | rfl | rfl | rfl | rfl <;> simp only [SexpChar] at * <;> omega
    · refine .inr (.inl ⟨hty.symm, ?_⟩)
      have h3 : Matches (.set [(40, 40)]) (text.take (lexer text).len) := h3
      generalize text.take (lexer text).len = s at h3
      cases h3 with
      | set h1 h2 h3 => simp at h1; obtain ⟨rfl, rfl⟩ := h1; congr 1; omega
    · refine .inr (.inr (.inl ⟨hty.symm, ?_⟩))
      have h3 : Matches (.set [(41, 41)]) (text.take (lexer text).len) := h3
      generalize text.take (lexer text).len = s at h3
      cases h3 with
      | set h1 h2 h3 => simp at h1; obtain ⟨rfl, rfl⟩ := h1; congr 1; omega
    · refine .inr (.inr (.inr (.inl ⟨hty.symm, fun c hc => ?_⟩)))
      obtain ⟨p, hp, h4, h5⟩ := mem_ranges (show Matches (.plus .word) _ from h3) c hc
      have := hasc c hc
      simp [ranges, Re.plus, Re.word, Re.wide] at hp
      rcases hp with rfl | rfl | rfl | rfl | rfl | rfl | rfl | rfl | rfl | rfl <;> simp only [SexpChar] at * <;> omega
  · refine .inr (.inr (.inr (.inr ⟨hl.error text ha hf, ?_⟩)))
    cases text with
    | nil => exact absurd rfl hne
    | cons c cs =>
      refine ⟨c, by simp, fun hc => hf ?_⟩
      have key : ∀ r ∈ sexpLexRules, r.f = none → Matches r.re [c] → ∃ r ∈ sexpLexRules, ∃ n, FindsHere r (c :: cs) n :=
        fun r hr hf hm => ⟨r, hr, 1, by omega, by simp, by simp only [Finds, hf]; exact hm⟩
      rcases hc with h | h | h | h | h | h | h | h
      · exact key ⟨100, .plus .blank, none⟩ (by simp [sexpLexRules]) rfl
          (plus_one (lo := 9) (hi := 13) (by simp) (by omega) (by omega))
      · exact key ⟨100, .plus .blank, none⟩ (by simp [sexpLexRules]) rfl
          (plus_one (lo := 32) (hi := 32) (by simp) (by omega) (by omega))
      · exact key ⟨101, .text [40], none⟩ (by simp [sexpLexRules]) rfl
          (.set (lo := 40) (hi := 40) (by simp) (by omega) (by omega))
      · exact key ⟨102, .text [41], none⟩ (by simp [sexpLexRules]) rfl
          (.set (lo := 41) (hi := 41) (by simp) (by omega) (by omega))
      · exact key ⟨103, .plus .word, none⟩ (by simp [sexpLexRules]) rfl
          (plus_one (lo := 48) (hi := 57) (by simp) (by omega) (by omega))
      · exact key ⟨103, .plus .word, none⟩ (by simp [sexpLexRules]) rfl
          (plus_one (lo := 65) (hi := 90) (by simp) (by omega) (by omega))
      · exact key ⟨103, .plus .word, none⟩ (by simp [sexpLexRules]) rfl
          (plus_one (lo := 95) (hi := 95) (by simp) (by omega) (by omega))
      · exact key ⟨103, .plus .word, none⟩ (by simp [sexpLexRules]) rfl
          (plus_one (lo := 97) (hi := 122) (by simp) (by omega) (by omega))

/-- The tokens of a text that are not white space. -/
def significant (tokens : List Token) : List NodeType := (tokens.filter fun t => !sexpIsWs t.ty).map (·.ty)

theorem lexing {lexer : Lexer Nat} (hl : LexesAscii sexpLexRules lexer) : (tokens : List Token) → (text : List Nat) →
    Ascii text → IsLexing lexer text tokens →
    ((∀ t ∈ significant tokens, t = 101 ∨ t = 102 ∨ t = 103) ↔ ∀ c ∈ text, SexpChar c) ∧
    ((∀ c ∈ text, SexpChar c) → ∀ d, scan 101 102 d (significant tokens) = scan 40 41 d text)
  | [], text, _, h => by
    obtain rfl : text = [] := h
    exact ⟨by simp [significant], fun _ _ => rfl⟩
  | t :: ts, text, ha, h => by
    obtain ⟨rfl, h1, h2, h3⟩ := h
    obtain ⟨ih1, ih2⟩ := lexing hl ts _ (ascii_drop text _ ha) h3
    have hne : text ≠ [] := by rintro rfl; simp at h2; omega
    have hsplit := List.take_append_drop (lexer text).len text
    have hall : (∀ c ∈ text, SexpChar c) ↔
        (∀ c ∈ text.take (lexer text).len, SexpChar c) ∧ ∀ c ∈ text.drop (lexer text).len, SexpChar c := by
      refine ⟨fun h => ⟨fun c hc => h c (List.mem_of_mem_take hc), fun c hc => h c (List.mem_of_mem_drop hc)⟩,
        fun h c hc => ?_⟩
      rw [← hsplit] at hc
      exact (List.mem_append.1 hc).elim (h.1 c) (h.2 c)
    have hscan : ∀ d, scan 40 41 d text =
        scan 40 41 d (text.take (lexer text).len ++ text.drop (lexer text).len) := fun d => by rw [hsplit]
    rcases step hl ha hne with ⟨hty, hc⟩ | ⟨hty, hc⟩ | ⟨hty, hc⟩ | ⟨hty, hc⟩ | ⟨hty, hc⟩
    · have hs : significant (lexer text :: ts) = significant ts := by simp [significant, hty, sexpIsWs]
      rw [hs, hall]
      refine ⟨⟨fun h => ⟨fun c h' => (hc c h').1, ih1.1 h⟩, fun h => ih1.2 h.2⟩, fun h d => ?_⟩
      rw [ih2 h.2, hscan, scan_skip _ _ fun c h' => (hc c h').2]
    · have hs : significant (lexer text :: ts) = 101 :: significant ts := by simp [significant, hty, sexpIsWs]
      rw [hs, hall, hc]
      refine ⟨⟨fun h => ⟨by simp [SexpChar], ih1.1 fun t ht => h t (by simp [ht])⟩, fun h t ht => ?_⟩, fun h d => ?_⟩
      · rcases List.mem_cons.1 ht with rfl | ht
        · simp
        · exact ih1.2 h.2 t ht
      · rw [hscan, hc]
        simp [scan, ih2 h.2]
    · have hs : significant (lexer text :: ts) = 102 :: significant ts := by simp [significant, hty, sexpIsWs]
      rw [hs, hall, hc]
      refine ⟨⟨fun h => ⟨by simp [SexpChar], ih1.1 fun t ht => h t (by simp [ht])⟩, fun h t ht => ?_⟩, fun h d => ?_⟩
      · rcases List.mem_cons.1 ht with rfl | ht
        · simp
        · exact ih1.2 h.2 t ht
      · rw [hscan, hc]
        cases d <;> simp [scan, ih2 h.2]
    · have hs : significant (lexer text :: ts) = 103 :: significant ts := by simp [significant, hty, sexpIsWs]
      rw [hs, hall]
      refine ⟨⟨fun h => ⟨fun c h' => (hc c h').1, ih1.1 fun t ht => h t (by simp [ht])⟩, fun h t ht => ?_⟩, fun h d => ?_⟩
      · rcases List.mem_cons.1 ht with rfl | ht
        · simp
        · exact ih1.2 h.2 t ht
      · rw [hscan, scan_skip _ _ fun c h' => (hc c h').2]
        simp [scan, ih2 h.2]
    · obtain ⟨c, hc, hn⟩ := hc
      refine ⟨⟨fun h => ?_, fun h => absurd (h c hc) hn⟩, fun h => absurd (h c hc) hn⟩
      have := h ERROR (by simp [significant, hty, sexpIsWs, ERROR])
      simp [ERROR] at this

end Parens

end Fall
