import Verif.Lemmas.LexPlain

/-! The tokens of the Rust language where there are no quotes. -/

namespace Fall

open Spec

theorem blockCommentLoop_le (s : List Nat) (level : Nat) : blockCommentLoop s level ≤ s.length := by
  fun_induction blockCommentLoop s level <;> simp_all <;> omega

/-- A comment is determined by its own bytes and by whether there is one after it. -/
theorem blockCommentLoop_take {s s' : List Nat} {level : Nat}
    (h : s.take (blockCommentLoop s level + 1) = s'.take (blockCommentLoop s level + 1)) :
    blockCommentLoop s' level = blockCommentLoop s level := by
  fun_induction blockCommentLoop s level generalizing s' with
  | case1 => simp [blockCommentLoop]
  | case2 level hl =>
    cases s' with
    | nil => cases level <;> rfl
    | cons a s' => simp at h
  | case3 level a hl =>
    match s' with
    | [] => simp at h
    | [b] => unfold blockCommentLoop; split <;> simp_all
    | b :: c :: s' => simp at h
  | case4 a b s level hc ih =>
    match s' with
    | [] => simp at h
    | [b] => simp at h
    | x :: y :: s' =>
      simp only [List.take_succ_cons, List.cons.injEq] at h
      obtain ⟨rfl, rfl, h⟩ := h
      rw [blockCommentLoop, if_pos hc, ih h]
  | case5 a b s level hc hc2 ih =>
    match s' with
    | [] => simp at h
    | [b] => simp at h
    | x :: y :: s' =>
      simp only [List.take_succ_cons, List.cons.injEq] at h
      obtain ⟨rfl, rfl, h⟩ := h
      rw [blockCommentLoop, if_neg hc, if_pos hc2, ih h]
  | case6 a b s level hc hc2 ih =>
    match s' with
    | [] => simp at h
    | [c] => simp at h
    | x :: y :: s' =>
      simp only [List.take_succ_cons, List.cons.injEq] at h
      obtain ⟨rfl, rfl, h⟩ := h
      have := ih (s' := b :: s') (by rw [List.take_succ_cons, List.take_succ_cons, h])
      rw [blockCommentLoop, if_neg hc, if_neg hc2, this]

namespace RustTokens

/-- All but characters, lifetimes and strings. -/
def keep (r : LexRule) : Bool := ![185, 186, 189, 190].contains r.ty

def rules : List LexRule := rustLexRules.filter keep

/-- The rules without functions. -/
def plainRules : List LexRule := rules.filter fun r => r.f.isNone

def commentRule : LexRule := ⟨102, .text [47, 42], some parseBlockComment⟩

def sets : List (List Re) := Re.reach 10 [plainRules.map (·.re)]

theorem sets_convex : Re.convexB sets = true := by decide +kernel

theorem sets_start : plainRules.map (·.re) ∈ sets :=
  Re.reach_mem (List.mem_singleton.2 rfl) rfl

theorem plain_f {r : LexRule} (h : r ∈ plainRules) : r.f = none := by
  simpa using (List.mem_filter.1 h).2

theorem rules_eq : ∃ A B, rules = A ++ commentRule :: B ∧ ∀ r ∈ A ++ B, r.f = none := by
  refine ⟨(rustLexRules.take 2).filter keep, (rustLexRules.drop 3).filter keep, rfl, ?_⟩
  have : ((rustLexRules.take 2).filter keep ++ (rustLexRules.drop 3).filter keep).all (fun r => r.f.isNone) = true := by
    decide +kernel
  intro r hr
  simpa using List.all_eq_true.1 this r hr

theorem plain_mem {r : LexRule} (h : r ∈ plainRules) : r ∈ rules := (List.mem_filter.1 h).1

theorem comment_mem : commentRule ∈ rules := by
  obtain ⟨A, B, h, _⟩ := rules_eq
  rw [h]
  simp

theorem rules_cases {r : LexRule} (h : r ∈ rules) : r ∈ plainRules ∨ r = commentRule := by
  obtain ⟨A, B, h1, h2⟩ := rules_eq
  by_cases hf : r.f.isNone = true
  · exact Or.inl (List.mem_filter.2 ⟨h, hf⟩)
  · refine Or.inr ?_
    rw [h1] at h
    rcases List.mem_append.1 h with h | h
    · exact absurd (by rw [h2 r (by simp [h])]; rfl) hf
    · rcases List.mem_cons.1 h with h | h
      · exact h
      · exact absurd (by rw [h2 r (by simp [h])]; rfl) hf

/-- Where comments begin. -/
theorem comment_finds {text : List Nat} {n : Nat} :
    FindsHere commentRule text n ↔ ∃ s, text = 47 :: 42 :: s ∧ n = blockCommentLoop s 1 + 2 := by
  constructor
  · intro h
    obtain ⟨⟨k, hk⟩, hf⟩ := h.2.2
    obtain ⟨x, y, h1, h2, h3⟩ := Re.seq_iff.1 hk
    have htext : text = 47 :: 42 :: text.drop k := by
      conv => lhs; rw [← List.take_append_drop k text, h1, FallTokens.text_one h2, FallTokens.text_one h3]
      rfl
    rw [htext] at hf
    refine ⟨_, htext, ?_⟩
    unfold parseBlockComment at hf
    rw [if_neg (by simp)] at hf
    simpa using hf.symm
  · rintro ⟨s, rfl, rfl⟩
    refine ⟨by omega, ?_, ⟨2, ?_⟩, ?_⟩
    · have := blockCommentLoop_le s 1
      simp
      omega
    · exact Re.seq_iff.2 ⟨[47], [42], rfl, .set (List.mem_singleton.2 rfl) (by omega) (by omega),
        .set (List.mem_singleton.2 rfl) (by omega) (by omega)⟩
    · unfold parseBlockComment
      rw [if_neg (by simp)]
      rfl

/-- A slash before a star. -/
theorem slash_alone {r : LexRule} (hr : r ∈ plainRules) {text : List Nat} {n : Nat}
    (h : FindsHere r (47 :: 42 :: text) n) : n = 1 := by
  obtain ⟨h0, _, h2⟩ := h
  unfold Finds at h2
  rw [plain_f hr] at h2
  match n, h0, h2 with
  | 1, _, _ => rfl
  | n + 2, _, h2 =>
    obtain ⟨q, hq, hm⟩ := Re.step_iff.2 ⟨_, List.mem_map.2 ⟨r, hr, rfl⟩, h2⟩
    obtain ⟨p, hp, _⟩ := Re.step_iff.2 ⟨q, hq, hm⟩
    rw [show Re.step 42 (Re.step 47 (plainRules.map (·.re))) = [] by decide +kernel] at hp
    simp at hp

theorem lookahead (lexer : Lexer Nat) (h : LexesLongest rules lexer) : OneByteLookahead lexer := by
  intro text text' hne hag
  have hlong := h.longest hne
  generalize lexer text = t at hlong hag
  have hpos : 0 < t.len := by
    obtain ⟨_, _, _, _, _, h3, _⟩ := hlong
    exact h3.1
  have hagt : text.take t.len = text'.take t.len := FallTokens.take_le (Nat.le_succ _) hag
  -- it is enough that nothing longer is found and the comments are the same
  have enough : (∀ r ∈ plainRules, ∀ n, FindsHere r text' n → n ≤ t.len) →
      (∀ n, FindsHere commentRule text n ↔ FindsHere commentRule text' n) → lexer text' = t := by
    intro g1 g2
    have hsame : ∀ r ∈ rules, ∀ n, n ≤ t.len → (FindsHere r text n ↔ FindsHere r text' n) := by
      intro r hr n hn
      rcases rules_cases hr with hr | rfl
      · exact ⟨findsHere_take (plain_f hr) hn hagt, findsHere_take (plain_f hr) hn hagt.symm⟩
      · exact g2 n
    refine hlong.unique (h.found text' ?_) ?_ hsame
    · obtain ⟨A, r, B, g3, _, g4, _⟩ := hlong
      have hr : r ∈ rules := by rw [g3]; simp
      exact ⟨r, hr, _, (hsame r hr _ (Nat.le_refl _)).1 g4⟩
    · intro r hr n hn
      rcases rules_cases hr with hr | rfl
      · exact g1 r hr n hn
      · exact hlong.max comment_mem ((g2 n).2 hn)
  by_cases hcom : ∃ s, text = 47 :: 42 :: s
  · obtain ⟨s, rfl⟩ := hcom
    have hj := hlong.max comment_mem (comment_finds.2 ⟨s, rfl, rfl⟩)
    obtain ⟨s', rfl⟩ : ∃ s', text' = 47 :: 42 :: s' := by
      have h6 := FallTokens.take_le (n := 2) (by omega) hagt
      match text', h6 with
      | a :: b :: s2, h6 => simp at h6; exact ⟨s2, by rw [h6.1, h6.2]⟩
    have hl : blockCommentLoop s' 1 = blockCommentLoop s 1 := by
      have h6 := FallTokens.take_le (n := blockCommentLoop s 1 + 1 + 2) (by omega) hag
      exact blockCommentLoop_take (by simpa using h6)
    refine enough (fun r hr n hn => ?_) fun n => ?_
    · rw [slash_alone hr hn]; exact hpos
    · rw [comment_finds, comment_finds]
      constructor
      · rintro ⟨x, hx, rfl⟩
        cases hx
        exact ⟨s', rfl, by rw [hl]⟩
      · rintro ⟨x, hx, rfl⟩
        cases hx
        exact ⟨s, rfl, by rw [hl]⟩
  · have hcom' : ¬ ∃ s, text' = 47 :: 42 :: s := by
      rintro ⟨s, rfl⟩
      have h6 := FallTokens.take_le (n := 2) (by omega) hag
      match text, h6 with
      | a :: b :: s2, h6 => simp at h6; exact hcom ⟨s2, by rw [h6.1, h6.2]⟩
    have no : ∀ n, ¬ FindsHere commentRule text n := fun n hn => by
      obtain ⟨s, hs, _⟩ := comment_finds.1 hn
      exact hcom ⟨s, hs⟩
    have no' : ∀ n, ¬ FindsHere commentRule text' n := fun n hn => by
      obtain ⟨s, hs, _⟩ := comment_finds.1 hn
      exact hcom' ⟨s, hs⟩
    refine enough (plain_max (fun r hr => plain_f hr) sets_convex sets_start ?_
      (fun r hr n hn => hlong.max (plain_mem hr) hn) hag) fun n => ⟨fun hn => absurd hn (no n), fun hn => absurd hn (no' n)⟩
    obtain ⟨A, r, B, g3, _, g4, _⟩ := hlong
    rcases rules_cases (r := r) (by rw [g3]; simp) with hr | rfl
    · exact ⟨r, hr, g4⟩
    · exact absurd g4 (no _)

end RustTokens

end Fall
