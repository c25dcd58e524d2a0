import Verif.Lemmas.LexRules
import Verif.Props.Total

/-!
C54, C55: the hand-written lexical rules. C34: the conditions on lexers hold for lexers that apply the shipped rules.
-/

namespace Fall

open Spec

/-! C54: raw strings. -/

theorem findText_some {p s : List Nat} {k : Nat} : findText p s = some k ↔ FirstPlace p s k := by
  induction s generalizing k with
  | nil =>
    unfold findText FirstPlace
    cases p with
    | nil =>
      simp only [List.isEmpty_nil, if_true, Option.some.injEq, List.nil_prefix, List.length_nil, not_true, true_and]
      constructor
      · rintro rfl; exact ⟨Nat.le_refl _, by omega⟩
      · intro h; omega
    | cons b p => simp
  | cons x s ih =>
    unfold findText
    split
    · rename_i h
      have hp : p <+: x :: s := List.isPrefixOf_iff_prefix.1 h
      rw [Option.some.injEq]
      constructor
      · rintro rfl
        exact ⟨hp, Nat.zero_le _, by omega⟩
      · rintro ⟨_, _, h⟩
        cases k with
        | zero => rfl
        | succ k => exact absurd hp (h 0 (by omega))
    · rename_i h
      have hp : ¬ p <+: x :: s := fun h' => h (List.isPrefixOf_iff_prefix.2 h')
      rw [Option.map_eq_some_iff]
      constructor
      · rintro ⟨j, hj, rfl⟩
        obtain ⟨h1, h2, h3⟩ := ih.1 hj
        refine ⟨h1, by simpa using h2, ?_⟩
        intro i hi
        cases i with
        | zero => exact hp
        | succ i => exact h3 i (by omega)
      · rintro ⟨h1, h2, h3⟩
        cases k with
        | zero => exact absurd h1 hp
        | succ k =>
          exact ⟨k, ih.2 ⟨h1, by simpa using h2, fun j hj => h3 (j + 1) (by omega)⟩, rfl⟩

theorem findText_none {p s : List Nat} : findText p s = none ↔ ∀ k, k ≤ s.length → ¬ p <+: s.drop k := by
  induction s with
  | nil =>
    unfold findText
    cases p with
    | nil => simp
    | cons b p => simp
  | cons x s ih =>
    unfold findText
    split
    · rename_i h
      have hp : p <+: x :: s := List.isPrefixOf_iff_prefix.1 h
      simp only [reduceCtorEq, false_iff]
      exact fun h => h 0 (Nat.zero_le _) hp
    · rename_i h
      have hp : ¬ p <+: x :: s := fun h' => h (List.isPrefixOf_iff_prefix.2 h')
      rw [Option.map_eq_none_iff, ih]
      constructor
      · intro h k hk
        cases k with
        | zero => exact hp
        | succ k => exact h k (by simpa using hk)
      · intro h k hk
        exact h (k + 1) (by simpa using hk)

/-- The closing of a raw string in a longer text. -/
theorem firstPlace_append {p body rest : List Nat} :
    FirstPlace p (body ++ p ++ rest) body.length ↔ FirstPlace p (body ++ p) body.length := by
  unfold FirstPlace
  have h1 : p <+: (body ++ p ++ rest).drop body.length := by simp
  have h2 : p <+: (body ++ p).drop body.length := by simp
  simp only [h1, h2, true_and, List.length_append]
  have h3 : ∀ j, j < body.length → (p <+: (body ++ p ++ rest).drop j ↔ p <+: (body ++ p).drop j) := by
    intro j hj
    rw [List.drop_append_of_le_length (by simp; omega)]
    constructor
    · intro h
      exact List.prefix_of_prefix_length_le h (List.prefix_append _ _) (by simp; omega)
    · exact fun h => h.trans (List.prefix_append _ _)
  constructor
  · rintro ⟨_, h⟩
    exact ⟨by omega, fun j hj hp => h j hj ((h3 j hj).2 hp)⟩
  · rintro ⟨_, h⟩
    exact ⟨by omega, fun j hj hp => h j hj ((h3 j hj).1 hp)⟩

theorem quoteStart_eq (n : Nat) (rest : List Nat) :
    findText [34] (114 :: List.replicate n 35 ++ 34 :: rest) = some (n + 1) := by
  rw [findText_some]
  refine ⟨?_, by simp, ?_⟩
  · simp
  · intro j hj
    cases j with
    | zero => simp
    | succ j =>
      simp only [List.cons_append, List.drop_succ_cons]
      rw [List.drop_append_of_le_length (by simp; omega), List.drop_replicate]
      obtain ⟨m, hm⟩ : ∃ m, n - j = m + 1 := ⟨n - j - 1, by omega⟩
      simp [hm, List.replicate_succ]

theorem parseRawString_eq (n : Nat) (rest : List Nat) (hn : n ≤ 30) :
    parseRawString (114 :: List.replicate n 35 ++ 34 :: rest) =
      some ((findText (34 :: List.replicate n 35) rest).map (· + 2 * n + 3)) := by
  unfold parseRawString
  rw [quoteStart_eq]
  have h1 : (34 :: List.replicate 30 35).take (n + 1) = 34 :: List.replicate n 35 := by
    rw [List.take_succ_cons, List.take_replicate, Nat.min_eq_left hn]
  have h2 : (114 :: List.replicate n 35 ++ 34 :: rest).drop (n + 1 + 1) = rest := by
    rw [show 114 :: List.replicate n 35 ++ 34 :: rest = (114 :: List.replicate n 35 ++ [34]) ++ rest by simp]
    exact List.drop_left' (by simp)
  simp only [Option.bind_eq_bind, Option.bind_some, List.length_cons, List.length_replicate]
  rw [if_pos (by omega), h1, h2]
  simp only [List.length_cons, List.length_replicate]
  show some _ = some _
  congr 2
  funext k
  omega

/-- A raw string with at most 30 hashes ends with the first quote that is followed by as many hashes as it begins
with. -/
theorem C54_raw_string (n : Nat) (hn : n ≤ 30) (rest : List Nat) (k : Nat) :
    parseRawString (114 :: List.replicate n 35 ++ 34 :: rest) = some (some k) ↔
      k ≤ (114 :: List.replicate n 35 ++ 34 :: rest).length ∧
      RawString n ((114 :: List.replicate n 35 ++ 34 :: rest).take k) := by
  rw [parseRawString_eq n rest hn, Option.some.injEq, Option.map_eq_some_iff]
  have hlen : (114 :: List.replicate n 35 ++ 34 :: rest).length = n + 2 + rest.length := by simp; omega
  have hs : 114 :: List.replicate n 35 ++ 34 :: rest = (114 :: List.replicate n 35 ++ [34]) ++ rest := by simp
  have hpl : (114 :: List.replicate n 35 ++ [34]).length = n + 2 := by simp
  constructor
  · rintro ⟨j, hj, rfl⟩
    obtain ⟨⟨t, ht⟩, h2, h3⟩ := findText_some.1 hj
    have hrest : rest = rest.take j ++ (34 :: List.replicate n 35) ++ t := by
      rw [List.append_assoc, ht, List.take_append_drop]
    have hjl : (rest.take j).length = j := by simp [h2]
    have hl := congrArg List.length hrest
    simp only [List.length_append, hjl, List.length_cons, List.length_replicate] at hl
    refine ⟨by omega, rest.take j, ?_, ?_⟩
    · rw [hs, List.take_append, hpl, List.take_of_length_le (by omega)]
      have : j + 2 * n + 3 - (n + 2) = j + (n + 1) := by omega
      rw [this]
      conv => lhs; rw [hrest]
      rw [List.take_left' (by simp [hjl])]
      simp
    · have := findText_some.1 hj
      have hb : FirstPlace (34 :: List.replicate n 35) (rest.take j ++ (34 :: List.replicate n 35) ++ t)
          (rest.take j).length := by
        rw [← hrest, hjl]
        exact this
      exact firstPlace_append.1 hb
  · rintro ⟨hk, body, h1, h2⟩
    have hk2 : k = n + 2 + (body.length + (n + 1)) := by
      have := congrArg List.length h1
      rw [List.length_take, Nat.min_eq_left hk] at this
      simp at this
      omega
    rw [hs, List.take_append, hpl, List.take_of_length_le (by omega)] at h1
    have h3 : rest.take (k - (n + 2)) = body ++ (34 :: List.replicate n 35) := by
      have : (114 :: List.replicate n 35 ++ [34]) ++ rest.take (k - (n + 2)) =
          (114 :: List.replicate n 35 ++ [34]) ++ (body ++ (34 :: List.replicate n 35)) := by
        rw [h1]; simp
      exact List.append_cancel_left this
    have hrest : rest = body ++ (34 :: List.replicate n 35) ++ rest.drop (k - (n + 2)) := by
      rw [← h3, List.take_append_drop]
    refine ⟨body.length, ?_, by omega⟩
    rw [findText_some, hrest]
    exact firstPlace_append.2 h2

example : parseRawString [114, 35, 34, 97, 34, 98, 34, 35, 99] = some (some 8) ∧
    RawString 1 [114, 35, 34, 97, 34, 98, 34, 35] :=
  ⟨by decide, ((C54_raw_string 1 (by decide) [97, 34, 98, 34, 35, 99] 8).1 (by decide)).2⟩

/-- If a raw string with at most 30 hashes does not end, there is no token. -/
theorem C54_open (n : Nat) (hn : n ≤ 30) (rest : List Nat) :
    parseRawString (114 :: List.replicate n 35 ++ 34 :: rest) = some none ↔
      ∀ k, k ≤ (114 :: List.replicate n 35 ++ 34 :: rest).length →
        ¬ RawString n ((114 :: List.replicate n 35 ++ 34 :: rest).take k) := by
  constructor
  · intro h k hk hr
    rw [(C54_raw_string n hn rest k).2 ⟨hk, hr⟩] at h
    cases h
  · intro h
    cases hp : parseRawString (114 :: List.replicate n 35 ++ 34 :: rest) with
    | none => rw [parseRawString_eq n rest hn] at hp; cases hp
    | some o =>
      cases o with
      | none => rfl
      | some k =>
        obtain ⟨h1, h2⟩ := (C54_raw_string n hn rest k).1 hp
        exact absurd h2 (h k h1)

example : parseRawString [114, 35, 35, 34, 97, 34, 35] = some none := by decide

/-- A raw string with more than 30 hashes makes the lexer panic. -/
theorem C54_hashes_counterexample (n : Nat) (hn : 30 < n) (rest : List Nat) :
    parseRawString (114 :: List.replicate n 35 ++ 34 :: rest) = none := by
  unfold parseRawString
  rw [quoteStart_eq]
  simp only [Option.bind_eq_bind, Option.bind_some, List.length_cons, List.length_replicate]
  rw [if_neg (by omega)]
  rfl

/-! C55: nested comments. -/

/-- The ends of that many comments. -/
def Closes : Nat → List Nat → Prop
  | 0, s => s = []
  | n + 1, s => ∃ a b, s = a ++ b ∧ CommentRest a ∧ Closes n b

theorem Spec.CommentRest.two {s : List Nat} (h : CommentRest s) : ∃ a b t, s = a :: b :: t := by
  cases h with
  | close => exact ⟨_, _, _, rfl⟩
  | nested h _ => cases h; exact ⟨_, _, _, rfl⟩
  | other h _ _ =>
    cases h with
    | close => exact ⟨_, _, _, rfl⟩
    | nested h _ => cases h; exact ⟨_, _, _, rfl⟩
    | other h _ _ => exact ⟨_, _, _, rfl⟩

theorem closes_nil {n : Nat} : ¬ Closes (n + 1) [] := by
  rintro ⟨a, b, h, hr, _⟩
  obtain ⟨x, y, t, rfl⟩ := hr.two
  cases h

theorem closes_one {n x : Nat} : ¬ Closes (n + 1) [x] := by
  rintro ⟨a, b, h, hr, _⟩
  obtain ⟨y, z, t, rfl⟩ := hr.two
  simp at h

theorem closes_open {n : Nat} {u : List Nat} : Closes (n + 1) (47 :: 42 :: u) ↔ Closes (n + 2) u := by
  constructor
  · rintro ⟨a, b, h, hr, hb⟩
    cases hr with
    | close => cases h
    | nested hc ht =>
      cases hc with
      | mk hs =>
        simp only [List.cons_append, List.cons.injEq, true_and] at h
        exact ⟨_, _, by rw [h, List.append_assoc], hs, _, _, rfl, ht, hb⟩
    | @other c s ht h1 h2 =>
      obtain ⟨y, z, t, rfl⟩ := ht.two
      simp only [List.cons_append, List.cons.injEq] at h
      obtain ⟨rfl, rfl, _⟩ := h
      exact absurd (by simp) h1
  · rintro ⟨a, b, rfl, ha, c, d, rfl, hc, hd⟩
    exact ⟨47 :: 42 :: a ++ c, d, by simp, .nested (.mk ha) hc, hd⟩

theorem closes_close {n : Nat} {u : List Nat} : Closes (n + 1) (42 :: 47 :: u) ↔ Closes n u := by
  constructor
  · rintro ⟨a, b, h, hr, hb⟩
    cases hr with
    | close =>
      simp only [List.cons_append, List.nil_append, List.cons.injEq, true_and] at h
      rw [h]
      exact hb
    | nested hc ht =>
      cases hc
      cases h
    | @other c s ht h1 h2 =>
      obtain ⟨y, z, t, rfl⟩ := ht.two
      simp only [List.cons_append, List.cons.injEq] at h
      obtain ⟨rfl, rfl, _⟩ := h
      exact absurd (by simp) h2
  · intro h
    exact ⟨[42, 47], u, rfl, .close, h⟩

theorem closes_other {n x y : Nat} {u : List Nat} (h1 : ¬ (x = 47 ∧ y = 42)) (h2 : ¬ (x = 42 ∧ y = 47)) :
    Closes (n + 1) (x :: y :: u) ↔ Closes (n + 1) (y :: u) := by
  constructor
  · rintro ⟨a, b, h, hr, hb⟩
    cases hr with
    | close =>
      simp only [List.cons_append, List.cons.injEq] at h
      exact absurd ⟨h.1, h.2.1⟩ h2
    | nested hc ht =>
      cases hc
      simp only [List.cons_append, List.cons.injEq] at h
      exact absurd ⟨h.1, h.2.1⟩ h1
    | @other c s ht _ _ =>
      simp only [List.cons_append, List.cons.injEq] at h
      exact ⟨s, b, h.2, ht, hb⟩
  · rintro ⟨a, b, h, hr, hb⟩
    obtain ⟨z, w, t, rfl⟩ := hr.two
    simp only [List.cons_append, List.cons.injEq] at h
    obtain ⟨rfl, rfl⟩ := h
    refine ⟨x :: y :: w :: t, b, rfl, .other hr ?_ ?_, hb⟩
    · simpa [eq_comm] using h1
    · simpa [eq_comm] using h2

theorem blockCommentLoop_spec (s : List Nat) (level : Nat) :
    blockCommentLoop s level ≤ s.length ∧
    (∀ j, j ≤ s.length → Closes level (s.take j) → j = blockCommentLoop s level) ∧
    (Closes level (s.take (blockCommentLoop s level)) ∨ blockCommentLoop s level = s.length) := by
  induction s, level using blockCommentLoop.induct with
  | case1 s =>
    refine ⟨by simp [blockCommentLoop], ?_, Or.inl (by simp [blockCommentLoop, Closes])⟩
    intro j hj h
    simp only [Closes, List.take_eq_nil_iff] at h
    simp only [blockCommentLoop]
    rcases h with h | h
    · exact h
    · simp [h] at hj; exact hj
  | case2 level h =>
    obtain ⟨n, rfl⟩ : ∃ n, level = n + 1 := ⟨level - 1, by have : level ≠ 0 := h; omega⟩
    refine ⟨by simp [blockCommentLoop], ?_, Or.inr (by simp [blockCommentLoop])⟩
    intro j _ h
    rw [List.take_nil] at h
    exact absurd h closes_nil
  | case3 b level h =>
    obtain ⟨n, rfl⟩ : ∃ n, level = n + 1 := ⟨level - 1, by have : level ≠ 0 := h; omega⟩
    refine ⟨by simp [blockCommentLoop], ?_, Or.inr (by simp [blockCommentLoop])⟩
    intro j _ h
    cases j with
    | zero => exact absurd h closes_nil
    | succ j => rw [List.take_succ_cons, List.take_nil] at h; exact absurd h closes_one
  | case4 a b s level h ih =>
    obtain ⟨rfl, rfl⟩ := h
    obtain ⟨h1, h2, h3⟩ := ih
    simp only [blockCommentLoop, and_self, if_true, List.length_cons]
    refine ⟨by omega, ?_, ?_⟩
    · intro j hj hc
      match j with
      | 0 => exact absurd hc closes_nil
      | 1 => exact absurd hc closes_one
      | j + 2 =>
        rw [List.take_succ_cons, List.take_succ_cons, closes_open] at hc
        have := h2 j (by omega) hc
        omega
    · rcases h3 with h3 | h3
      · exact Or.inl (by rw [List.take_succ_cons, List.take_succ_cons, closes_open]; exact h3)
      · exact Or.inr (by omega)
  | case5 a b s level h h' ih =>
    obtain ⟨rfl, rfl⟩ := h'
    obtain ⟨h1, h2, h3⟩ := ih
    simp only [blockCommentLoop, List.length_cons]
    rw [if_neg (by decide), if_pos (by decide)]
    refine ⟨by omega, ?_, ?_⟩
    · intro j hj hc
      match j with
      | 0 => exact absurd hc closes_nil
      | 1 => exact absurd hc closes_one
      | j + 2 =>
        rw [List.take_succ_cons, List.take_succ_cons, closes_close] at hc
        have := h2 j (by omega) hc
        omega
    · rcases h3 with h3 | h3
      · exact Or.inl (by rw [List.take_succ_cons, List.take_succ_cons, closes_close]; exact h3)
      · exact Or.inr (by omega)
  | case6 a b s level h h' ih =>
    obtain ⟨h1, h2, h3⟩ := ih
    simp only [List.length_cons] at h1 h2 h3 ⊢
    rw [show blockCommentLoop (a :: b :: s) (level + 1) = blockCommentLoop (b :: s) (level + 1) + 1 by
      conv => lhs; unfold blockCommentLoop
      rw [if_neg h, if_neg h']]
    refine ⟨by omega, ?_, ?_⟩
    · intro j hj hc
      match j with
      | 0 => exact absurd hc closes_nil
      | 1 => exact absurd hc closes_one
      | j + 2 =>
        rw [List.take_succ_cons, List.take_succ_cons, closes_other h h'] at hc
        have := h2 (j + 1) (by omega) (by rw [List.take_succ_cons]; exact hc)
        omega
    · rcases h3 with h3 | h3
      · left
        cases hk : blockCommentLoop (b :: s) (level + 1) with
        | zero => rw [hk] at h3; exact absurd h3 closes_nil
        | succ k =>
          rw [hk, List.take_succ_cons] at h3
          rw [List.take_succ_cons, List.take_succ_cons, closes_other h h']
          exact h3
      · exact Or.inr (by omega)

theorem comment_iff {s : List Nat} : Comment (47 :: 42 :: s) ↔ Closes 1 s := by
  constructor
  · intro h
    cases h with
    | mk h => exact ⟨s, [], by simp, h, rfl⟩
  · rintro ⟨a, b, rfl, ha, rfl⟩
    rw [List.append_nil]
    exact .mk ha

/-- Where a comment begins, there is one token. It is the comment up to its end, with all comments that are in it; if
the comment does not end, the token is the rest of the text. -/
theorem C55_comment (rest : List Nat) : ∃ k, parseBlockComment (47 :: 42 :: rest) = some (some k) ∧
    k ≤ (47 :: 42 :: rest).length ∧
    ((Comment ((47 :: 42 :: rest).take k) ∧
        ∀ j, j ≤ (47 :: 42 :: rest).length → Comment ((47 :: 42 :: rest).take j) → j = k) ∨
      (k = (47 :: 42 :: rest).length ∧ ∀ j, ¬ Comment ((47 :: 42 :: rest).take j))) := by
  obtain ⟨h1, h2, h3⟩ := blockCommentLoop_spec rest 1
  refine ⟨blockCommentLoop rest 1 + 2, by simp [parseBlockComment], by simpa using h1, ?_⟩
  have hj : ∀ j, j ≤ rest.length + 2 → Comment ((47 :: 42 :: rest).take j) → j = blockCommentLoop rest 1 + 2 := by
    intro j hj hc
    match j with
    | 0 => cases hc
    | 1 => cases hc
    | j + 2 =>
      rw [List.take_succ_cons, List.take_succ_cons, comment_iff] at hc
      rw [h2 j (by omega) hc]
  by_cases h : Closes 1 (rest.take (blockCommentLoop rest 1))
  · exact Or.inl ⟨by rw [List.take_succ_cons, List.take_succ_cons, comment_iff]; exact h, by simpa using hj⟩
  · refine Or.inr ⟨by simpa using h3.resolve_left h, ?_⟩
    intro j hc
    have key : ∀ j, j ≤ rest.length + 2 → ¬ Comment ((47 :: 42 :: rest).take j) := by
      intro j hle hc
      obtain rfl := hj j hle hc
      rw [List.take_succ_cons, List.take_succ_cons, comment_iff] at hc
      exact h hc
    by_cases hle : j ≤ rest.length + 2
    · exact key j hle hc
    · rw [List.take_of_length_le (by simp; omega)] at hc
      exact key (rest.length + 2) (Nat.le_refl _) (by rw [List.take_of_length_le (by simp)]; exact hc)

example : parseBlockComment [47, 42, 97, 47, 42, 47, 42, 47, 42, 47, 98] = some (some 11) ∧
    parseBlockComment [47, 42, 47, 42, 42, 47, 97, 42, 47, 98] = some (some 9) ∧
    Comment [47, 42, 47, 42, 42, 47, 97, 42, 47] := by
  refine ⟨by decide, by decide, .mk (.nested (s := [47, 42, 42, 47]) (.mk .close) (.other .close ?_ ?_))⟩ <;> simp

/-! C34: the shipped languages with the rules of their lexers. -/

/-- Whatever the lexer does about ambiguous rules and errors: if it applies the rules of the language, every text is
parsed to a lossless tree. -/
theorem C34_rules_total :
    (∀ lexer, LexesBy sexpLexRules lexer →
      ParsesAll (sexpDefinition lexer) 104 fun text => (text.length + 1) * 10 + 2) ∧
    (∀ lexer, LexesBy bnfLexRules lexer →
      ParsesAll (bnfDefinition lexer) 105 fun text => (text.length + 1) * 11 + 2) ∧
    (∀ lexer, LexesBy fallLexRules lexer →
      ParsesAll (fallDefinition lexer) 131 fun text => (text.length + 1) * 17 + 2) ∧
    (∀ lexer, LexesBy rustLexRules lexer →
      ParsesAll (rustDefinition lexer) 192 fun text => (text.length + 1) * 36 + 2) := by
  refine ⟨fun lexer h => C34_sexp_total lexer h.progress, fun lexer h => C34_bnf_total lexer h.progress,
    fun lexer h => C34_fall_total lexer h.progress (h.blankStart ?_),
    fun lexer h => C34_rust_total lexer h.progress (h.blankStart ?_)⟩
  · decide +kernel
  · decide +kernel

example : LexesBy fallLexRules (ruleLexer fallLexRules) ∧ LexesBy rustLexRules (ruleLexer rustLexRules) ∧
    ruleLexer fallLexRules [114, 117, 108, 101, 32, 120] = ⟨130, 4⟩ ∧
    ruleLexer fallLexRules [39, 92, 39, 39, 49] = ⟨128, 4⟩ ∧
    ruleLexer fallLexRules [114, 35, 34, 97, 34, 35, 32] = ⟨129, 6⟩ ∧
    ruleLexer rustLexRules [97, 115, 61] = ⟨104, 2⟩ ∧ ruleLexer rustLexRules [39, 97, 44] = ⟨186, 2⟩ := by
  refine ⟨ruleLexer_lexes _, ruleLexer_lexes _, ?_, ?_, ?_, ?_, ?_⟩ <;> decide +kernel

end Fall
