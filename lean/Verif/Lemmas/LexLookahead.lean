import Verif.Lemmas.LexRules
import Verif.Spec.LexLongest
import Verif.Props.LexRules

/-! Lexers that look at no more than one byte after a token. -/

namespace Fall

open Spec

namespace Re

/-- What may follow a byte, as alternatives. -/
def pd (x : Nat) : Re → List Re
  | .never => []
  | .empty => []
  | .set ranges => if ranges.any fun r => r.1 ≤ x && x ≤ r.2 then [.empty] else []
  | .seq a b => (a.pd x).map (mkSeq · b) ++ if a.nullable then b.pd x else []
  | .alt a b => a.pd x ++ b.pd x
  | .star a => (a.pd x).map (mkSeq · (.star a))

theorem pd_iff {r : Re} {x : Nat} {s : List Nat} : (∃ q ∈ r.pd x, Matches q s) ↔ Matches r (x :: s) := by
  rw [← deriv_iff]
  induction r generalizing s with
  | never => simp [pd, deriv, not_none]
  | empty => simp [pd, deriv, not_none]
  | set ranges =>
    simp only [pd, deriv]
    split <;> simp [not_none]
  | seq a b iha ihb =>
    have h1 : (∃ q ∈ (a.pd x).map (mkSeq · b), Matches q s) ↔ Matches (mkSeq (a.deriv x) b) s := by
      rw [mkSeq_iff, seq_iff]
      constructor
      · rintro ⟨p, hp, h2⟩
        obtain ⟨q, hq, rfl⟩ := List.mem_map.1 hp
        obtain ⟨u, v, rfl, h3, h4⟩ := seq_iff.1 (mkSeq_iff.1 h2)
        exact ⟨u, v, rfl, iha.1 ⟨q, hq, h3⟩, h4⟩
      · rintro ⟨u, v, rfl, h2, h3⟩
        obtain ⟨q, hq, h2⟩ := iha.2 h2
        exact ⟨_, List.mem_map.2 ⟨q, hq, rfl⟩, mkSeq_iff.2 (seq_iff.2 ⟨u, v, rfl, h2, h3⟩)⟩
    simp only [pd, deriv]
    split
    · rw [mkAlt_iff, ← h1, ← ihb]
      simp only [List.mem_append, or_and_right, exists_or]
    · rw [← h1, List.append_nil]
  | alt a b iha ihb =>
    simp only [pd, deriv, mkAlt_iff, ← iha, ← ihb, List.mem_append, or_and_right, exists_or]
  | star a ih =>
    simp only [pd, deriv]
    rw [mkSeq_iff, seq_iff]
    constructor
    · rintro ⟨p, hp, h2⟩
      obtain ⟨q, hq, rfl⟩ := List.mem_map.1 hp
      obtain ⟨u, v, rfl, h3, h4⟩ := seq_iff.1 (mkSeq_iff.1 h2)
      exact ⟨u, v, rfl, ih.1 ⟨q, hq, h3⟩, h4⟩
    · rintro ⟨u, v, rfl, h2, h3⟩
      obtain ⟨q, hq, h2⟩ := ih.2 h2
      exact ⟨_, List.mem_map.2 ⟨q, hq, rfl⟩, mkSeq_iff.2 (seq_iff.2 ⟨u, v, rfl, h2, h3⟩)⟩

/-- Where ranges of bytes begin, and after their ends. -/
def cuts : Re → List Nat
  | .never | .empty => []
  | .set ranges => ranges.flatMap fun r => [r.1, r.2 + 1]
  | .seq a b | .alt a b => a.cuts ++ b.cuts
  | .star a => a.cuts

theorem pd_cut {r : Re} {b c : Nat} (hc : c ≤ b) (h : ∀ x ∈ r.cuts, x ≤ b → x ≤ c) : r.pd b = r.pd c := by
  induction r with
  | never => rfl
  | empty => rfl
  | set ranges =>
    have : ranges.any (fun r => r.1 ≤ b && b ≤ r.2) = ranges.any (fun r => r.1 ≤ c && c ≤ r.2) := by
      rw [Bool.eq_iff_iff, List.any_eq_true, List.any_eq_true]
      refine exists_congr fun r => and_congr_right fun hr => ?_
      have h1 := h r.1 (List.mem_flatMap.2 ⟨r, hr, by simp⟩)
      have h2 := h (r.2 + 1) (List.mem_flatMap.2 ⟨r, hr, by simp⟩)
      simp only [Bool.and_eq_true, decide_eq_true_eq]
      omega
    simp only [pd, this]
  | seq a b iha ihb =>
    simp only [cuts, List.mem_append] at h
    simp only [pd, iha fun x hx => h x (Or.inl hx), ihb fun x hx => h x (Or.inr hx)]
  | alt a b iha ihb =>
    simp only [cuts, List.mem_append] at h
    simp only [pd, iha fun x hx => h x (Or.inl hx), ihb fun x hx => h x (Or.inr hx)]
  | star a ih => simp only [pd, ih h]

theorem last_cut (L : List Nat) (b : Nat) : ∃ c ∈ 0 :: L, c ≤ b ∧ ∀ x ∈ L, x ≤ b → x ≤ c := by
  induction L with
  | nil => exact ⟨0, by simp, by omega, by simp⟩
  | cons y L ih =>
    obtain ⟨c, h1, h2, h3⟩ := ih
    by_cases hy : y ≤ b ∧ c ≤ y
    · refine ⟨y, by simp, hy.1, fun x hx hb => ?_⟩
      rcases List.mem_cons.1 hx with rfl | hx
      · exact Nat.le_refl _
      · exact Nat.le_trans (h3 x hx hb) hy.2
    · refine ⟨c, ?_, h2, fun x hx hb => ?_⟩
      · rcases List.mem_cons.1 h1 with rfl | h1 <;> simp_all
      · rcases List.mem_cons.1 hx with rfl | hx
        · omega
        · exact h3 x hx hb

/-- The alternatives after a byte. -/
def step (x : Nat) (S : List Re) : List Re := (S.flatMap (pd x)).eraseDups

theorem step_iff {S : List Re} {x : Nat} {s : List Nat} :
    (∃ q ∈ step x S, Matches q s) ↔ ∃ q ∈ S, Matches q (x :: s) := by
  simp only [step, List.mem_eraseDups, List.mem_flatMap]
  constructor
  · rintro ⟨q, ⟨p, hp, hq⟩, h⟩
    exact ⟨p, hp, pd_iff.1 ⟨q, hq, h⟩⟩
  · rintro ⟨p, hp, h⟩
    obtain ⟨q, hq, h⟩ := pd_iff.2 h
    exact ⟨q, ⟨p, hp, hq⟩, h⟩

/-- The bytes that are enough to look at. -/
def allCuts (S : List Re) : List Nat := 0 :: (S.flatMap cuts).eraseDups

theorem step_cut (S : List Re) (x : Nat) : ∃ c ∈ allCuts S, step x S = step c S := by
  obtain ⟨c, h1, h2, h3⟩ := last_cut (S.flatMap cuts).eraseDups x
  refine ⟨c, h1, ?_⟩
  simp only [List.mem_eraseDups] at h3
  have : S.flatMap (pd x) = S.flatMap (pd c) := by
    clear h1
    induction S with
    | nil => rfl
    | cons q S ih =>
      simp only [List.flatMap_cons, List.mem_append] at h3
      rw [List.flatMap_cons, List.flatMap_cons, pd_cut h2 fun y hy => h3 y (Or.inl hy), ih fun y hy => h3 y (Or.inr hy)]
  rw [step, this, step]

/-- Once a string is described, each byte after it gives a string that is described, or one that is not the start of
any. -/
def Convex (r : Re) : Prop := ∀ u b v, Matches r u → Matches r (u ++ b :: v) → Matches r (u ++ [b])

/-- A set of sets of alternatives that is closed under steps; after those with the empty string come those with the empty
string. -/
def convexB (sets : List (List Re)) : Bool :=
  sets.all fun S => (allCuts S).all fun x =>
    let S' := step x S
    S'.isEmpty || sets.contains S' && (!S.any nullable || S'.any nullable)

theorem convexB_sound {sets : List (List Re)} (h : convexB sets = true) {S : List Re} (hS : S ∈ sets) (u : List Nat)
    (b : Nat) (v : List Nat) (h1 : ∃ q ∈ S, Matches q u) (h2 : ∃ q ∈ S, Matches q (u ++ b :: v)) :
    ∃ q ∈ S, Matches q (u ++ [b]) := by
  have rule : ∀ S ∈ sets, ∀ x, step x S = [] ∨ step x S ∈ sets ∧ (S.any nullable = true → (step x S).any nullable = true) := by
    intro S hS x
    obtain ⟨c, hc, hx⟩ := step_cut S x
    rw [hx]
    have := List.all_eq_true.1 (List.all_eq_true.1 h S hS) c hc
    simp only [Bool.or_eq_true, List.isEmpty_iff, Bool.and_eq_true, List.contains_eq_mem, decide_eq_true_eq,
      Bool.not_eq_true'] at this
    exact this.imp_right (And.imp_right fun h hn => h.resolve_left (by rw [hn]; simp))
  induction u generalizing S with
  | nil =>
    obtain ⟨q, hq, h1⟩ := h1
    have hn : S.any nullable = true := List.any_eq_true.2 ⟨q, hq, nullable_iff.2 h1⟩
    obtain ⟨q', hq', h2⟩ := step_iff.2 h2
    rcases rule S hS b with h3 | ⟨_, h3⟩
    · rw [h3] at hq'; simp at hq'
    · obtain ⟨p, hp, h4⟩ := List.any_eq_true.1 (h3 hn)
      exact step_iff.1 ⟨p, hp, nullable_iff.1 h4⟩
  | cons x u ih =>
    rcases rule S hS x with h3 | ⟨h3, _⟩
    · obtain ⟨q', hq', _⟩ := step_iff.2 h1
      rw [h3] at hq'; simp at hq'
    · exact step_iff.1 (ih h3 (step_iff.2 h1) (step_iff.2 h2))

/-- The sets that are reached in some rounds. -/
def reach : Nat → List (List Re) → List (List Re)
  | 0, sets => sets
  | n + 1, sets => reach n
    ((sets ++ sets.flatMap fun S => (allCuts S).map fun x => step x S).filter fun S => !S.isEmpty).eraseDups

theorem reach_mem {n : Nat} {sets : List (List Re)} {S : List Re} (h : S ∈ sets) (hne : S.isEmpty = false) :
    S ∈ reach n sets := by
  induction n generalizing sets with
  | zero => exact h
  | succ n ih =>
    refine ih ?_
    rw [List.mem_eraseDups, List.mem_filter]
    exact ⟨by simp [h], by simp [hne]⟩

end Re

namespace Spec.LexesLongest

variable {rules : List LexRule} {lexer : Lexer Nat}

theorem lexesBy (h : LexesLongest rules lexer) : LexesBy rules lexer := by
  refine ⟨h.progress, fun text => ?_⟩
  by_cases hf : ∃ r ∈ rules, ∃ n, FindsHere r text n
  · obtain ⟨A, r, B, h1, h2, h3, _⟩ := h.found text hf
    exact Or.inr ⟨r, by rw [h1]; simp, h2, h3.2.2⟩
  · exact Or.inl (h.error text hf)

/-- A token that is not an error is found. -/
theorem longest (h : LexesLongest rules lexer) {text : List Nat} (hne : (lexer text).ty ≠ ERROR) :
    LongestFirst rules text (lexer text) := by
  by_cases hf : ∃ r ∈ rules, ∃ n, FindsHere r text n
  · exact h.found text hf
  · exact absurd (h.error text hf) hne

end Spec.LexesLongest

theorem Spec.LongestFirst.max {rules : List LexRule} {text : List Nat} {t : Token} (h : LongestFirst rules text t)
    {r : LexRule} (hr : r ∈ rules) {n : Nat} (hn : FindsHere r text n) : n ≤ t.len := by
  obtain ⟨A, r0, B, rfl, _, _, h1, h2⟩ := h
  rcases List.mem_append.1 hr with hr | hr
  · exact Nat.le_of_lt (h1 r hr n hn)
  · exact h2 r hr n hn

/-- There is one longest token. -/
theorem Spec.LongestFirst.unique {rules : List LexRule} {text text' : List Nat} {t t' : Token}
    (h : LongestFirst rules text t) (h' : LongestFirst rules text' t')
    (hmax : ∀ r ∈ rules, ∀ n, FindsHere r text' n → n ≤ t.len)
    (hsame : ∀ r ∈ rules, ∀ n, n ≤ t.len → (FindsHere r text n ↔ FindsHere r text' n)) : t' = t := by
  have hlen : t'.len = t.len := by
    obtain ⟨A, r, B, h1, _, h3, _⟩ := h
    obtain ⟨A', r', B', h1', _, h3', _⟩ := id h'
    have hr : r ∈ rules := by rw [h1]; simp
    have hr' : r' ∈ rules := by rw [h1']; simp
    exact Nat.le_antisymm (hmax r' hr' _ h3') (h'.max hr ((hsame r hr _ (Nat.le_refl _)).1 h3))
  obtain ⟨A, r, B, h1, h2, h3, h4, h5⟩ := h
  obtain ⟨A', r', B', h1', h2', h3', h4', h5'⟩ := h'
  have hty : t'.ty = t.ty := by
    have hr : r ∈ rules := by rw [h1]; simp
    have hr' : r' ∈ rules := by rw [h1']; simp
    have e3 := (hsame r hr _ (Nat.le_refl _)).1 h3
    have e3' := (hsame r' hr' _ (Nat.le_of_eq hlen)).2 h3'
    rw [h1] at h1'
    rcases List.append_eq_append_iff.1 h1' with ⟨C, g1, g2⟩ | ⟨C, g1, g2⟩
    · cases C with
      | nil => simp at g2; rw [← h2, ← h2', g2.1]
      | cons c C =>
        simp at g2
        have := h4' r (by rw [g1, g2.1]; simp) _ e3
        omega
    · cases C with
      | nil => simp at g2; rw [← h2, ← h2', g2.1]
      | cons c C =>
        simp at g2
        have := h4 r' (by rw [g1, g2.1]; simp) _ e3'
        omega
  cases t; cases t'
  simp only at hlen hty
  rw [hlen, hty]

/-- Texts that agree where a rule without a function looks. -/
theorem findsHere_take {r : LexRule} (hf : r.f = none) {text text' : List Nat} {n k : Nat} (hn : n ≤ k)
    (h : text.take k = text'.take k) (hr : FindsHere r text n) : FindsHere r text' n := by
  obtain ⟨h1, h2, h3⟩ := hr
  have h4 : text.take n = text'.take n := by
    have := congrArg (List.take n) h
    rwa [List.take_take, List.take_take, Nat.min_eq_left hn] at this
  refine ⟨h1, ?_, ?_⟩
  · have := congrArg List.length h4
    rw [List.length_take, List.length_take] at this
    omega
  · unfold Finds at h3 ⊢
    rw [hf] at h3 ⊢
    rwa [← h4]

/-- Where rules without functions look at no more than one byte after the longest token. -/
theorem plain_max {rules : List LexRule} (hf : ∀ r ∈ rules, r.f = none) {sets : List (List Re)}
    (hc : Re.convexB sets = true) (hs : rules.map (·.re) ∈ sets) {text text' : List Nat} {k : Nat}
    (hk : ∃ r ∈ rules, FindsHere r text k) (hmax : ∀ r ∈ rules, ∀ n, FindsHere r text n → n ≤ k)
    (hag : text.take (k + 1) = text'.take (k + 1)) : ∀ r ∈ rules, ∀ n, FindsHere r text' n → n ≤ k := by
  intro r hr n hn
  refine Nat.not_lt.1 fun hlt => ?_
  obtain ⟨r0, hr0, h0⟩ := hk
  have h0' := findsHere_take (hf r0 hr0) (Nat.le_succ k) hag h0
  have plain : ∀ {r : LexRule} {text : List Nat} {n : Nat}, r ∈ rules → FindsHere r text n → Matches r.re (text.take n) := by
    intro r text n hr h
    have := h.2.2
    unfold Finds at this
    rwa [hf r hr] at this
  have hsplit : text'.take n = text'.take k ++ text'[k]'(by have := hn.2.1; omega) :: (text'.take n).drop (k + 1) := by
    have hkl : k < text'.length := by have := hn.2.1; omega
    have h1 : text'.take n = (text'.take n).take (k + 1) ++ (text'.take n).drop (k + 1) :=
      (List.take_append_drop _ _).symm
    rw [List.take_take, Nat.min_eq_left (show k + 1 ≤ n by omega), List.take_add_one, List.getElem?_eq_getElem hkl,
      List.append_assoc] at h1
    exact h1
  obtain ⟨q, hq, h⟩ := Re.convexB_sound hc hs (text'.take k) (text'[k]'(by have := hn.2.1; omega))
    ((text'.take n).drop (k + 1)) ⟨r0.re, List.mem_map.2 ⟨r0, hr0, rfl⟩, plain hr0 h0'⟩
    ⟨r.re, List.mem_map.2 ⟨r, hr, rfl⟩, by rw [← hsplit]; exact plain hr hn⟩
  obtain ⟨r1, hr1, rfl⟩ := List.mem_map.1 hq
  have hkl : k < text'.length := by have := hn.2.1; omega
  have h2 : FindsHere r1 text' (k + 1) := by
    refine ⟨by omega, hkl, ?_⟩
    unfold Finds
    rw [hf r1 hr1]
    show Matches r1.re (text'.take (k + 1))
    rw [List.take_add_one, List.getElem?_eq_getElem hkl]
    exact h
  have := hmax r1 hr1 _ (findsHere_take (hf r1 hr1) (Nat.le_refl _) hag.symm h2)
  omega

/-- A lexer whose rules have no functions and pass the check looks at no more than one byte after a token. -/
theorem Spec.LexesLongest.lookahead {rules : List LexRule} {lexer : Lexer Nat} (h : LexesLongest rules lexer)
    (hf : ∀ r ∈ rules, r.f = none) {sets : List (List Re)} (hc : Re.convexB sets = true)
    (hs : rules.map (·.re) ∈ sets) : OneByteLookahead lexer := by
  intro text text' hne hag
  have h1 := h.longest hne
  have hk : ∃ r ∈ rules, FindsHere r text (lexer text).len := by
    obtain ⟨A, r, B, h2, _, h3, _⟩ := h1
    exact ⟨r, by rw [h2]; simp, h3⟩
  have hmax := plain_max hf hc hs hk (fun r hr n hn => h1.max hr hn) hag
  have hsame : ∀ r ∈ rules, ∀ n, n ≤ (lexer text).len → (FindsHere r text n ↔ FindsHere r text' n) := fun r hr n hn =>
    ⟨findsHere_take (hf r hr) (by omega) hag, findsHere_take (hf r hr) (by omega) hag.symm⟩
  obtain ⟨r, hr, hk⟩ := hk
  exact h1.unique (h.found text' ⟨r, hr, _, (hsame r hr _ (Nat.le_refl _)).1 hk⟩) hmax hsame

/-- A rule that finds nothing where its function panics. -/
def LexRule.calm (r : LexRule) : LexRule := { r with f := r.f.map fun f s => some ((f s).getD none) }

theorem finds_calm {r : LexRule} {text : List Nat} {n : Nat} : Finds r.calm text n ↔ Finds r text n := by
  unfold Finds LexRule.calm
  cases hf : r.f with
  | none => simp
  | some f =>
    simp only [Option.map_some, Option.some.injEq]
    cases f text <;> simp

theorem LexRule.find_calm (r : LexRule) (text : List Nat) : ∃ o, r.calm.find text = some o := by
  unfold LexRule.find LexRule.calm
  cases r.re.longest text with
  | none => exact ⟨_, rfl⟩
  | some k => cases r.f with
    | none => exact ⟨_, rfl⟩
    | some f => exact ⟨_, rfl⟩

theorem Re.longest_max {r : Re} {s : List Nat} {k m : Nat} (h : r.longest s = some k) (hm : m ≤ s.length)
    (hr : Matches r (s.take m)) : m ≤ k := by
  induction s generalizing r k m with
  | nil => simp at hm; omega
  | cons x s ih =>
    cases m with
    | zero => omega
    | succ m =>
      have hr' : Matches (r.deriv x) (s.take m) := Re.deriv_iff.2 hr
      unfold longest at h
      split at h
      · cases h
      · split at h
        · rename_i k' hk
          cases h
          have := ih hk (by simpa using hm) hr'
          omega
        · rename_i hk
          exact absurd hr' (longest_none hk m)

/-- What a rule finds is the longest it finds. -/
theorem LexRule.find_max {r : LexRule} {text : List Nat} {o : Option Nat} (h : r.find text = some o) {m : Nat}
    (hm : FindsHere r text m) : ∃ n, o = some n ∧ m ≤ n ∧ FindsHere r text n := by
  obtain ⟨h0, h1, h2⟩ := hm
  cases hl : r.re.longest text with
  | none =>
    exfalso
    unfold Finds at h2
    split at h2
    · exact Re.longest_none hl _ h2
    · exact Re.longest_none hl _ h2.1.choose_spec
  | some k =>
    obtain ⟨h3, h4⟩ := Re.longest_some hl
    unfold LexRule.find at h
    rw [hl] at h
    simp only at h
    unfold FindsHere Finds
    unfold Finds at h2
    cases hf : r.f with
    | none =>
      simp only [hf] at h h2 ⊢
      have := Re.longest_max hl h1 h2
      exact ⟨k, (Option.some.inj h).symm, this, by omega, h3, h4⟩
    | some f =>
      simp only [hf] at h h2 ⊢
      rw [h2.2, Option.some.injEq] at h
      exact ⟨m, h.symm, Nat.le_refl _, h0, h1, h2⟩

theorem findToken_longest {text : List Nat} {rules : List LexRule} {best t : Token}
    (h : findToken text rules best = some t) :
    (t = best ∧ ∀ r ∈ rules, ∀ n, FindsHere r text n → n ≤ best.len) ∨
    (best.len < t.len ∧ LongestFirst rules text t) := by
  induction rules generalizing best with
  | nil => cases h; exact Or.inl ⟨rfl, by simp⟩
  | cons r rs ih =>
    unfold findToken at h
    split at h
    · cases h
    · rename_i hn
      have hno : ∀ n, ¬ FindsHere r text n := fun n hh => by
        obtain ⟨_, h, _⟩ := LexRule.find_max hn hh
        cases h
      rcases ih h with ⟨h1, h2⟩ | ⟨h1, A, r', B, h2, h3, h4, h5, h6⟩
      · refine Or.inl ⟨h1, fun r' hr' n hh => ?_⟩
        rcases List.mem_cons.1 hr' with rfl | hr'
        · exact absurd hh (hno n)
        · exact h2 r' hr' n hh
      · refine Or.inr ⟨h1, r :: A, r', B, by rw [h2]; rfl, h3, h4, fun q hq n hh => ?_, h6⟩
        rcases List.mem_cons.1 hq with rfl | hq
        · exact absurd hh (hno n)
        · exact h5 q hq n hh
    · rename_i n hn
      have hle : ∀ m, FindsHere r text m → m ≤ n := fun m hh => by
        obtain ⟨_, h, h1, _⟩ := LexRule.find_max hn hh
        cases h
        exact h1
      have hlen : ∀ m, FindsHere r text m → n ≤ text.length := fun m hh => by
        obtain ⟨_, h, _, h1⟩ := LexRule.find_max hn hh
        cases h
        exact h1.2.1
      split at h
      · rename_i hc
        have hfind : FindsHere r text n := ⟨by omega, hc.2, LexRule.find_some hn⟩
        rcases ih h with ⟨h1, h2⟩ | ⟨h1, A, r', B, h2, h3, h4, h5, h6⟩
        · subst h1
          refine Or.inr ⟨hc.1, [], r, rs, rfl, rfl, hfind, by simp, fun q hq m hh => ?_⟩
          rcases List.mem_cons.1 hq with rfl | hq
          · exact hle m hh
          · exact h2 q hq m hh
        · refine Or.inr ⟨Nat.lt_trans hc.1 h1, r :: A, r', B, by rw [h2]; rfl, h3, h4, fun q hq m hh => ?_, h6⟩
          rcases List.mem_cons.1 hq with rfl | hq
          · exact Nat.lt_of_le_of_lt (hle m hh) h1
          · exact h5 q hq m hh
      · rename_i hc
        have hno : ∀ m, FindsHere r text m → m ≤ best.len := fun m hh => by
          have := hle m hh
          have := hlen m hh
          omega
        rcases ih h with ⟨h1, h2⟩ | ⟨h1, A, r', B, h2, h3, h4, h5, h6⟩
        · refine Or.inl ⟨h1, fun q hq m hh => ?_⟩
          rcases List.mem_cons.1 hq with rfl | hq
          · exact hno m hh
          · exact h2 q hq m hh
        · refine Or.inr ⟨h1, r :: A, r', B, by rw [h2]; rfl, h3, h4, fun q hq m hh => ?_, h6⟩
          rcases List.mem_cons.1 hq with rfl | hq
          · exact Nat.lt_of_le_of_lt (hno m hh) h1
          · exact h5 q hq m hh

theorem findToken_total {text : List Nat} {rules : List LexRule} {best : Token}
    (h : ∀ r ∈ rules, ∃ o, r.find text = some o) : ∃ t, findToken text rules best = some t := by
  induction rules generalizing best with
  | nil => exact ⟨_, rfl⟩
  | cons r rs ih =>
    obtain ⟨o, ho⟩ := h r (by simp)
    have := fun b => ih (best := b) fun q hq => h q (by simp [hq])
    unfold findToken
    rw [ho]
    cases o <;> exact this _

/-- There are lexers that take the longest token. -/
theorem ruleLexer_longest {rules : List LexRule} (hf : ∀ r ∈ rules, ∀ text, ∃ o, r.find text = some o) :
    LexesLongest rules (ruleLexer rules) := by
  refine ⟨(ruleLexer_lexes rules).progress, fun text => ?_, fun text => ?_⟩
  · rintro ⟨r, hr, n, hn⟩
    obtain ⟨t, ht⟩ := findToken_total (best := ⟨ERROR, 0⟩) fun r hr => hf r hr text
    unfold ruleLexer
    rw [ht]
    rcases findToken_longest ht with ⟨_, h⟩ | ⟨h1, h2⟩
    · have h1 := h r hr n hn
      have h2 := hn.1
      simp only at h1
      omega
    · simp only at h1 ⊢
      rw [if_neg (by omega)]
      exact h2
  · intro hno
    obtain ⟨t, ht⟩ := findToken_total (best := ⟨ERROR, 0⟩) fun r hr => hf r hr text
    unfold ruleLexer
    rw [ht]
    rcases findToken_longest ht with ⟨rfl, _⟩ | ⟨_, A, r, B, h1, _, h2, _⟩
    · rfl
    · exact absurd ⟨r, by rw [h1]; simp, _, h2⟩ hno

theorem find_plain {r : LexRule} (hf : r.f = none) (text : List Nat) : ∃ o, r.find text = some o := by
  unfold LexRule.find
  rw [hf]
  cases r.re.longest text <;> exact ⟨_, rfl⟩

/-- Rules that find nothing where they panic are as good. -/
theorem Spec.LexesLongest.of_calm {rules : List LexRule} {lexer : Lexer Nat}
    (h : LexesLongest (rules.map LexRule.calm) lexer) : LexesLongest rules lexer := by
  have here : ∀ (r : LexRule) text n, FindsHere r.calm text n ↔ FindsHere r text n := fun r text n => by
    unfold FindsHere
    rw [finds_calm]
  have hex : ∀ text, (∃ r ∈ rules, ∃ n, FindsHere r text n) ↔ ∃ r ∈ rules.map LexRule.calm, ∃ n, FindsHere r text n := by
    intro text
    constructor
    · rintro ⟨r, hr, n, hn⟩
      exact ⟨_, List.mem_map.2 ⟨r, hr, rfl⟩, n, (here r text n).2 hn⟩
    · rintro ⟨q, hq, n, hn⟩
      obtain ⟨r, hr, rfl⟩ := List.mem_map.1 hq
      exact ⟨r, hr, n, (here r text n).1 hn⟩
  refine ⟨h.progress, fun text hf => ?_, fun text hf => h.error text fun hc => hf ((hex text).2 hc)⟩
  obtain ⟨A, q, B, h1, h2, h3, h4, h5⟩ := h.found text ((hex text).1 hf)
  obtain ⟨A0, C0, rfl, rfl, hC⟩ := List.map_eq_append_iff.1 h1
  obtain ⟨r, B0, rfl, rfl, rfl⟩ := List.map_eq_cons_iff.1 hC
  refine ⟨A0, r, B0, rfl, h2, (here _ _ _).1 h3, fun q hq n hn => ?_, fun q hq n hn => ?_⟩
  · exact h4 _ (List.mem_map.2 ⟨q, hq, rfl⟩) n ((here _ _ _).2 hn)
  · refine h5 q.calm ?_ n ((here _ _ _).2 hn)
    rcases List.mem_cons.1 hq with rfl | hq
    · simp
    · exact List.mem_cons_of_mem _ (List.mem_map.2 ⟨q, hq, rfl⟩)

theorem calm_longest (rules : List LexRule) : LexesLongest rules (ruleLexer (rules.map LexRule.calm)) := by
  refine (ruleLexer_longest fun r hr text => ?_).of_calm
  obtain ⟨q, _, rfl⟩ := List.mem_map.1 hr
  exact q.find_calm text

end Fall
