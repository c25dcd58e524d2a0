import Verif.Lemmas.Exact
import Verif.Spec.Bnf

/-!
What the rules of `bnfGrammar` read.
-/

namespace Fall

open Spec

namespace BnfParse

open Parser

variable {env : Env} {pos q : Pos} {s s' : PState}

theorem rule (hg : env.grammar = bnfGrammar) {e : Nat} {x : Expr} (h : bnfGrammar.rules[e]? = some x) :
    env.grammar.rules[e]? = some x := hg ▸ h

theorem type (hg : env.grammar = bnfGrammar) {k : Nat} {t : NodeType} (h : bnfGrammar.nodeTypes[k]? = some t) :
    env.grammar.nodeTypes[k]? = some t := hg ▸ h

theorem tok (hg : env.grammar = bnfGrammar) {e ty : Nat} {t : NodeType} (h : bnfGrammar.rules[e]? = some (.token ty))
    (h' : bnfGrammar.nodeTypes[ty]? = some t) : IsToken env.grammar e t := ⟨ty, rule hg h, type hg h'⟩

/-- Symbols. -/
def Symbols (a : List NodeType) : Prop := ∀ t, t ∈ a → t = 103 ∨ t = 104

/-- What can be behind a production. -/
def Closed (ts : List NodeType) : Prop := ts = [] ∨ ∃ us, ts = 104 :: 101 :: us

/-- What can be behind an alternative. -/
def Ends (ts : List NodeType) : Prop := Closed ts ∨ ∃ us, ts = 102 :: us

/-! ## What is read -/

theorem symbol_acts (hg : env.grammar = bnfGrammar) {t : NodeType} {ts : List NodeType} (ht : t = 103 ∨ t = 104)
    (hi : Input env pos (t :: ts)) (hts : ts.head? ≠ some 101) : Acts env 5 pos ⟨pos.cur + 1, pos.stop⟩ (symbolTree t) := by
  have hi' : Input env ⟨pos.cur + 1, pos.stop⟩ ts := Input.after (xs := [t]) hi
  suffices h : ActsFirst env [27, 29] pos ⟨pos.cur + 1, pos.stop⟩ [.token t 1] from
    acts_pub (e := 5) (ty := 10) (body := 30) (t := 109) (rule hg rfl) (type hg rfl)
      (acts_or (parts := [27, 29]) (rule hg rfl) h)
  rcases ht with rfl | rfl
  · refine Fails.next (fails_and (p := 24) (ps := [26]) (commit := none) (rule hg rfl) (by simp)
      (fails_token (tok (ty := 5) hg rfl rfl) hi (by simp))) ?_
    exact Acts.found (acts_and (parts := [28]) (commit := none) (rule hg rfl) (by simp)
      ((acts_token (tok (ty := 4) hg rfl rfl) hi).then acts_done))
  · have hn : Acts env 26 ⟨pos.cur + 1, pos.stop⟩ ⟨pos.cur + 1, pos.stop⟩ [] :=
      acts_not (body := 25) (rule hg rfl) (fails_token (tok (ty := 2) hg rfl rfl) hi' hts)
    exact Acts.found (acts_and (parts := [24, 26]) (commit := none) (rule hg rfl) (by simp)
      ((acts_token (tok (ty := 5) hg rfl rfl) hi).then (hn.then acts_done)))

theorem symbol_fails (hg : env.grammar = bnfGrammar) {ts : List NodeType} (hi : Input env pos ts) (h : Ends ts) :
    Fails env 5 pos := by
  refine fails_pub (ty := 10) (body := 30) (t := 109) (rule hg rfl) (type hg rfl)
    (fails_or (parts := [27, 29]) (rule hg rfl) fun p hp => ?_)
  simp only [List.mem_cons, List.not_mem_nil, or_false] at hp
  rcases hp with rfl | rfl
  · by_cases h4 : ts.head? = some 104
    · obtain ⟨us, rfl⟩ : ∃ us, ts = 104 :: 101 :: us := by
        rcases h with (rfl | h) | ⟨us, rfl⟩
        · cases h4
        · exact h
        · cases h4
      have hi' : Input env ⟨pos.cur + 1, pos.stop⟩ (101 :: us) := Input.after (xs := [104]) hi
      exact fails_second (p := 24) (p' := 26) (ps := []) (rule hg rfl) (acts_token (tok (ty := 5) hg rfl rfl) hi)
        (fails_not (body := 25) (rule hg rfl) (acts_token (tok (ty := 2) hg rfl rfl) hi'))
    · exact fails_and (p := 24) (ps := [26]) (commit := none) (rule hg rfl) (by simp)
        (fails_token (tok (ty := 5) hg rfl rfl) hi h4)
  · refine fails_and (p := 28) (ps := []) (commit := none) (rule hg rfl) (by simp)
      (fails_token (t := 103) (tok (ty := 4) hg rfl rfl) hi ?_)
    rcases h with (rfl | ⟨us, rfl⟩) | ⟨us, rfl⟩ <;> simp

theorem head_symbols {a rest : List NodeType} (ha : Symbols a) (hr : Ends rest) : (a ++ rest).head? ≠ some 101 := by
  cases a with
  | nil => rcases hr with (rfl | ⟨us, rfl⟩) | ⟨us, rfl⟩ <;> simp
  | cons t a => rcases ha t List.mem_cons_self with rfl | rfl <;> simp

theorem symbols_acts (hg : env.grammar = bnfGrammar) {a : List NodeType} : ∀ {pos : Pos} {rest : List NodeType},
    Symbols a → Ends rest → Input env pos (a ++ rest) →
    ActsRep env 5 pos ⟨pos.cur + a.length, pos.stop⟩ (a.flatMap symbolTree) := by
  induction a with
  | nil =>
    intro pos rest _ hr hi
    exact (symbol_fails hg hi hr).stop
  | cons t a ih =>
    intro pos rest ha hr hi
    have ha' : Symbols a := fun x hx => ha x (List.mem_cons_of_mem _ hx)
    have h1 := symbol_acts hg (ha t List.mem_cons_self) hi (head_symbols ha' hr)
    have h2 := ih ha' hr (pos := ⟨pos.cur + 1, pos.stop⟩) (Input.after (xs := [t]) hi)
    have := h1.again h2
    rw [List.flatMap_cons, show pos.cur + (t :: a).length = pos.cur + 1 + a.length by simp; omega]
    exact this

theorem alt_acts (hg : env.grammar = bnfGrammar) {a rest : List NodeType} (hne : a ≠ []) (ha : Symbols a)
    (hr : Ends rest) (hi : Input env pos (a ++ rest)) :
    Acts env 4 pos ⟨pos.cur + a.length, pos.stop⟩ (altTree a) := by
  cases a with
  | nil => exact (hne rfl).elim
  | cons t a =>
    have ha' : Symbols a := fun x hx => ha x (List.mem_cons_of_mem _ hx)
    have h1 := symbol_acts hg (ha t List.mem_cons_self) hi (head_symbols ha' hr)
    have h2 := symbols_acts hg ha' hr (pos := ⟨pos.cur + 1, pos.stop⟩) (Input.after (xs := [t]) hi)
    have h3 : Acts env 21 _ _ _ := acts_rep (body := 5) (rule hg rfl) h2
    have h4 := acts_and (e := 22) (parts := [5, 21]) (commit := none) (rule hg rfl) (by simp)
      (h1.then (h3.then acts_done))
    have h5 := acts_pub (e := 4) (ty := 9) (body := 23) (t := 108) (rule hg rfl) (type hg rfl)
      (acts_or (parts := [22]) (rule hg rfl) h4.found)
    rw [List.append_nil] at h5
    rw [altTree, List.flatMap_cons, show pos.cur + (t :: a).length = pos.cur + 1 + a.length by simp; omega]
    exact h5

theorem altTokens_cons (a : List NodeType) (bs : List (List NodeType)) :
    altTokens (a :: bs) = a ++ bs.flatMap (102 :: ·) := by
  induction bs generalizing a with
  | nil => simp [altTokens]
  | cons b bs ih => simp [altTokens, ih]

theorem altTrees_cons (a : List NodeType) (bs : List (List NodeType)) :
    altTrees (a :: bs) = altTree a ++ bs.flatMap fun b => .token 102 1 :: altTree b := by
  induction bs generalizing a with
  | nil => simp [altTrees]
  | cons b bs ih => simp [altTrees, ih]

/-- Alternatives. -/
def Alts (p : List (List NodeType)) : Prop := ∀ a, a ∈ p → a ≠ [] ∧ Symbols a

theorem ends_more {bs : List (List NodeType)} {rest : List NodeType} (hr : Closed rest) :
    Ends (bs.flatMap (102 :: ·) ++ rest) := by
  cases bs with
  | nil => exact Or.inl hr
  | cons b bs => exact Or.inr ⟨_, by simp; rfl⟩

theorem more_acts (hg : env.grammar = bnfGrammar) {bs : List (List NodeType)} : ∀ {pos : Pos} {rest : List NodeType},
    Alts bs → Closed rest → Input env pos (bs.flatMap (102 :: ·) ++ rest) →
    ActsRep env 17 pos ⟨pos.cur + (bs.flatMap (102 :: ·)).length, pos.stop⟩
      (bs.flatMap fun b => .token 102 1 :: altTree b) := by
  induction bs with
  | nil =>
    intro pos rest _ hr hi
    refine Fails.stop (fails_or (parts := [16]) (rule hg rfl) fun p hp => ?_)
    obtain rfl : p = 16 := by simpa using hp
    refine fails_and (p := 15) (ps := [4]) (commit := none) (rule hg rfl) (by simp)
      (fails_token (t := 102) (tok (ty := 3) hg rfl rfl) hi ?_)
    rcases hr with rfl | ⟨us, rfl⟩ <;> simp
  | cons b bs ih =>
    intro pos rest hb hr hi
    have hb' : Alts bs := fun x hx => hb x (List.mem_cons_of_mem _ hx)
    have hi : Input env pos (102 :: (b ++ (bs.flatMap (102 :: ·) ++ rest))) := by simpa using hi
    have h1 : Acts env 15 pos ⟨pos.cur + 1, pos.stop⟩ _ := acts_token (tok (ty := 3) hg rfl rfl) hi
    have hi1 : Input env ⟨pos.cur + 1, pos.stop⟩ (b ++ (bs.flatMap (102 :: ·) ++ rest)) := Input.after (xs := [102]) hi
    have h2 := alt_acts hg (hb b List.mem_cons_self).1 (hb b List.mem_cons_self).2 (ends_more hr) hi1
    have h3 := acts_or (e := 17) (parts := [16]) (rule hg rfl)
      (acts_and (e := 16) (parts := [15, 4]) (commit := none) (rule hg rfl) (by simp) (h1.then (h2.then acts_done))).found
    have h4 := h3.again (ih hb' hr (Input.after hi1))
    rw [List.flatMap_cons, List.flatMap_cons, show pos.cur + (102 :: b ++ bs.flatMap (102 :: ·)).length =
      pos.cur + 1 + b.length + (bs.flatMap (102 :: ·)).length by simp; omega]
    simpa using h4

theorem body_acts (hg : env.grammar = bnfGrammar) {p : List (List NodeType)} {rest : List NodeType} (hne : p ≠ [])
    (hp : Alts p) (hr : Closed rest) (hi : Input env pos (altTokens p ++ rest)) :
    Acts env 3 pos ⟨pos.cur + (altTokens p).length, pos.stop⟩ (.start 107 none :: (altTrees p ++ [.fin])) := by
  cases p with
  | nil => exact (hne rfl).elim
  | cons a bs =>
    have hb' : Alts bs := fun x hx => hp x (List.mem_cons_of_mem _ hx)
    rw [altTokens_cons, List.append_assoc] at hi
    have h1 := alt_acts hg (hp a List.mem_cons_self).1 (hp a List.mem_cons_self).2 (ends_more hr) hi
    have h2 : Acts env 18 _ _ _ := acts_rep (body := 17) (rule hg rfl) (more_acts hg hb' hr (Input.after hi))
    have h3 := acts_and (e := 19) (parts := [4, 18]) (commit := none) (rule hg rfl) (by simp)
      (h1.then (h2.then acts_done))
    have h4 := acts_pub (e := 3) (ty := 8) (body := 20) (t := 107) (rule hg rfl) (type hg rfl)
      (acts_or (parts := [19]) (rule hg rfl) h3.found)
    rw [altTokens_cons, altTrees_cons, List.length_append, ← Nat.add_assoc]
    rw [List.append_nil] at h4
    exact h4

theorem head_acts (hg : env.grammar = bnfGrammar) {rest : List NodeType} (hi : Input env pos (104 :: 101 :: rest)) :
    Acts env 1 pos ⟨pos.cur + 2, pos.stop⟩ [.token 104 1, .token 101 1] := by
  have h1 : Acts env 10 pos ⟨pos.cur + 1, pos.stop⟩ _ := acts_token (tok (ty := 5) hg rfl rfl) hi
  have hi1 : Input env ⟨pos.cur + 1, pos.stop⟩ (101 :: rest) := Input.after (xs := [104]) hi
  have h2 : Acts env 11 ⟨pos.cur + 1, pos.stop⟩ ⟨pos.cur + 2, pos.stop⟩ _ := acts_token (tok (ty := 2) hg rfl rfl) hi1
  exact acts_or (e := 1) (parts := [12]) (rule hg rfl)
    (acts_and (e := 12) (parts := [10, 11]) (commit := none) (rule hg rfl) (by simp) (h1.then (h2.then acts_done))).found

theorem prod_acts (hg : env.grammar = bnfGrammar) {p : List (List NodeType)} {rest : List NodeType} (hne : p ≠ [])
    (hp : Alts p) (hr : Closed rest) (hi : Input env pos (prodTokens p ++ rest)) :
    Acts env 2 pos ⟨pos.cur + (prodTokens p).length, pos.stop⟩ (prodTree p) := by
  have h1 := head_acts hg hi
  have h2 := body_acts hg hne hp hr (pos := ⟨pos.cur + 2, pos.stop⟩) (Input.after (xs := [104, 101]) hi)
  have h3 := acts_and (e := 13) (parts := [1, 3]) (commit := some 1) (rule hg rfl) (by simp)
    (h1.then (h2.then acts_done))
  have h4 := acts_pub (e := 2) (ty := 7) (body := 14) (t := 106) (rule hg rfl) (type hg rfl)
    (acts_or (parts := [13]) (rule hg rfl) h3.found)
  rw [show pos.cur + (prodTokens p).length = pos.cur + 2 + (altTokens p).length by simp [prodTokens]; omega]
  simpa [prodTree] using h4

theorem closed_prods {g : Bnf} : Closed g.tokens := by
  cases g with
  | nil => exact Or.inl rfl
  | cons p ps => exact Or.inr ⟨_, by simp [Bnf.tokens, prodTokens]; rfl⟩

theorem prods_acts (hg : env.grammar = bnfGrammar) (hc : env.cache = none) {g : Bnf} : ∀ {pos : Pos},
    g.Proper → Input env pos g.tokens →
    ActsRep env 6 pos ⟨pos.cur + g.tokens.length, pos.stop⟩ (g.flatMap prodTree) := by
  induction g with
  | nil =>
    intro pos _ hi
    have hi : Input env pos [] := hi
    refine Fails.stop (fails_withSkip hc (first := 1) (body := 2) (rule hg rfl) ?_ hi)
    refine fails_or (parts := [12]) (rule hg rfl) fun p hp => ?_
    obtain rfl : p = 12 := by simpa using hp
    exact fails_and (p := 10) (ps := [11]) (commit := none) (rule hg rfl) (by simp)
      (fails_token (t := 104) (tok (ty := 5) hg rfl rfl) hi (by simp))
  | cons p g ih =>
    intro pos hp hi
    have hi : Input env pos (prodTokens p ++ Bnf.tokens g) := by simpa [Bnf.tokens] using hi
    have h0 := hp p List.mem_cons_self
    have h1 := prod_acts hg h0.1 h0.2 closed_prods hi
    have h2 := acts_withSkip hc (e := 6) (first := 1) (body := 2) (rule hg rfl) (head_acts hg hi) h1
    have h3 := h2.again (ih (fun x hx => hp x (List.mem_cons_of_mem _ hx)) (Input.after hi))
    rw [List.flatMap_cons, show pos.cur + (Bnf.tokens (p :: g)).length = pos.cur + (prodTokens p).length +
      (Bnf.tokens g).length by simp [Bnf.tokens]; omega]
    exact h3

theorem grammar_acts (hg : env.grammar = bnfGrammar) (hc : env.cache = none) {g : Bnf} (hp : g.Proper)
    (hi : Input env pos g.tokens) : Acts env 0 pos ⟨pos.cur + g.tokens.length, pos.stop⟩ g.tree := by
  have h1 : Acts env 7 _ _ _ := acts_rep (body := 6) (rule hg rfl) (prods_acts hg hc hp hi)
  have h2 := acts_and (e := 8) (parts := [7]) (commit := none) (rule hg rfl) (by simp) (h1.then acts_done)
  have h3 := acts_pub (e := 0) (ty := 6) (body := 9) (t := 105) (rule hg rfl) (type hg rfl)
    (acts_or (parts := [8]) (rule hg rfl) h2.found)
  rw [List.append_nil] at h3
  exact h3

/-! ## Nothing else -/

variable {N : Nat}

theorem symbol_sound (hg : env.grammar = bnfGrammar) (hc : env.cache = none) :
    Sound env 5 (fun x => x = [103] ∨ x = [104]) N := by
  refine sound_pub hc (ty := 10) (body := 30) (t := 109) (rule hg rfl) (type hg rfl)
    (sound_or (parts := [27, 29]) (rule hg rfl) fun p hp => ?_)
  simp only [List.mem_cons, List.not_mem_nil, or_false] at hp
  rcases hp with rfl | rfl
  · refine (sound_and hc (parts := [24, 26]) (commit := none) (rule hg rfl)
      (.cons (sound_token (tok (ty := 5) (t := 104) hg rfl rfl))
        (.cons (sound_not (body := 25) (rule hg rfl)) .nil))).mono ?_
    rintro x ⟨_, _, rfl, ⟨_, _, rfl, rfl, rfl⟩, rfl⟩
    exact Or.inr rfl
  · refine (sound_and hc (parts := [28]) (commit := none) (rule hg rfl)
      (.cons (sound_token (tok (ty := 4) (t := 103) hg rfl rfl)) .nil)).mono ?_
    rintro x ⟨_, _, rfl, rfl, rfl⟩
    exact Or.inl rfl

theorem alt_sound (hg : env.grammar = bnfGrammar) (hc : env.cache = none) :
    Sound env 4 (fun a => a ≠ [] ∧ Symbols a) N := by
  refine sound_pub hc (ty := 9) (body := 23) (t := 108) (rule hg rfl) (type hg rfl)
    (sound_or (parts := [22]) (rule hg rfl) fun p hp => ?_)
  obtain rfl : p = 22 := by simpa using hp
  refine (sound_and hc (parts := [5, 21]) (commit := none) (rule hg rfl) (.cons (symbol_sound hg hc)
    (.cons (sound_rep hc (body := 5) (rule hg rfl) (symbol_sound hg hc)) .nil))).mono ?_
  rintro _ ⟨x, _, hx, ⟨_, _, ⟨xs, hxs, rfl⟩, rfl, rfl⟩, rfl⟩
  refine ⟨?_, ?_⟩
  · rcases hx with rfl | rfl <;> simp
  · intro t ht
    rcases List.mem_append.1 ht with h | h
    · rcases hx with rfl | rfl <;> simp_all
    · rw [List.append_nil] at h
      obtain ⟨y, hy, hty⟩ := List.mem_flatten.1 h
      rcases hxs y hy with rfl | rfl <;> simp_all

theorem body_sound (hg : env.grammar = bnfGrammar) (hc : env.cache = none) :
    Sound env 3 (fun x => ∃ p, p ≠ [] ∧ Alts p ∧ x = altTokens p) N := by
  refine sound_pub hc (ty := 8) (body := 20) (t := 107) (rule hg rfl) (type hg rfl)
    (sound_or (parts := [19]) (rule hg rfl) fun p hp => ?_)
  obtain rfl : p = 19 := by simpa using hp
  have h17 : Sound env 17 (fun x => ∃ b, (b ≠ [] ∧ Symbols b) ∧ x = 102 :: b) N := by
    refine sound_or (parts := [16]) (rule hg rfl) fun p hp => ?_
    obtain rfl : p = 16 := by simpa using hp
    refine (sound_and hc (parts := [15, 4]) (commit := none) (rule hg rfl)
      (.cons (sound_token (tok (ty := 3) (t := 102) hg rfl rfl)) (.cons (alt_sound hg hc) .nil))).mono ?_
    rintro _ ⟨_, _, rfl, ⟨b, _, hb, rfl, rfl⟩, rfl⟩
    exact ⟨b, hb, by simp⟩
  refine (sound_and hc (parts := [4, 18]) (commit := none) (rule hg rfl) (.cons (alt_sound hg hc)
    (.cons (sound_rep hc (body := 17) (rule hg rfl) h17) .nil))).mono ?_
  rintro _ ⟨a, _, ha, ⟨_, _, ⟨xs, hxs, rfl⟩, rfl, rfl⟩, rfl⟩
  obtain ⟨bs, hbs, he⟩ : ∃ bs, Alts bs ∧ xs.flatten = bs.flatMap (102 :: ·) := by
    clear ha
    induction xs with
    | nil => exact ⟨[], (fun _ h => by cases h), rfl⟩
    | cons x xs ih =>
      obtain ⟨bs, h1, h2⟩ := ih fun y hy => hxs y (List.mem_cons_of_mem _ hy)
      obtain ⟨b, hb, rfl⟩ := hxs x List.mem_cons_self
      exact ⟨b :: bs, List.forall_mem_cons.2 ⟨hb, h1⟩, by simp [h2]⟩
  exact ⟨a :: bs, by simp, List.forall_mem_cons.2 ⟨ha, hbs⟩, by rw [altTokens_cons, he, List.append_nil]⟩

theorem prod_sound (hg : env.grammar = bnfGrammar) (hc : env.cache = none) :
    Sound env 2 (fun x => ∃ p, (p ≠ [] ∧ Alts p) ∧ x = prodTokens p) N := by
  refine sound_pub hc (ty := 7) (body := 14) (t := 106) (rule hg rfl) (type hg rfl)
    (sound_or (parts := [13]) (rule hg rfl) fun p hp => ?_)
  obtain rfl : p = 13 := by simpa using hp
  have h1 : Sound env 1 (· = [104, 101]) N := by
    refine sound_or (parts := [12]) (rule hg rfl) fun p hp => ?_
    obtain rfl : p = 12 := by simpa using hp
    refine (sound_and hc (parts := [10, 11]) (commit := none) (rule hg rfl)
      (.cons (sound_token (tok (ty := 5) (t := 104) hg rfl rfl))
        (.cons (sound_token (tok (ty := 2) (t := 101) hg rfl rfl)) .nil))).mono ?_
    rintro _ ⟨_, _, rfl, ⟨_, _, rfl, rfl, rfl⟩, rfl⟩
    rfl
  refine (sound_and hc (parts := [1, 3]) (commit := some 1) (rule hg rfl)
    (.cons h1 (.cons (body_sound hg hc) .nil))).mono ?_
  rintro _ ⟨_, _, rfl, ⟨_, _, ⟨p, h2, h3, rfl⟩, rfl, rfl⟩, rfl⟩
  exact ⟨p, ⟨h2, h3⟩, by simp [prodTokens]⟩

theorem grammar_sound (hg : env.grammar = bnfGrammar) (hc : env.cache = none) :
    Sound env 0 (fun x => ∃ g : Bnf, g.Proper ∧ x = g.tokens) N := by
  refine sound_pub hc (ty := 6) (body := 9) (t := 105) (rule hg rfl) (type hg rfl)
    (sound_or (parts := [8]) (rule hg rfl) fun p hp => ?_)
  obtain rfl : p = 8 := by simpa using hp
  refine (sound_and hc (parts := [7]) (commit := none) (rule hg rfl) (.cons (sound_rep hc (body := 6) (rule hg rfl)
    (sound_withSkip hc (first := 1) (body := 2) (rule hg rfl) (prod_sound hg hc))) .nil)).mono ?_
  rintro _ ⟨_, _, ⟨xs, hxs, rfl⟩, rfl, rfl⟩
  rw [List.append_nil]
  induction xs with
  | nil => exact ⟨[], (fun _ h => by cases h), rfl⟩
  | cons x xs ih =>
    obtain ⟨g, h1, h2⟩ := ih fun y hy => hxs y (List.mem_cons_of_mem _ hy)
    obtain ⟨p, hp, rfl⟩ := hxs x List.mem_cons_self
    exact ⟨p :: g, List.forall_mem_cons.2 ⟨hp, h1⟩, by simp [Bnf.tokens, h2]⟩

/-! ## The trees -/

/-- Neither links nor errors. -/
def Plain (es : List Event) : Prop :=
  (∀ ty fp, .start ty fp ∈ es → fp = none ∧ ty ≠ ERROR) ∧ ∀ ty n, .token ty n ∈ es → ty ≠ ERROR

theorem Plain.append {as bs : List Event} (h : Plain as) (h' : Plain bs) : Plain (as ++ bs) := by
  refine ⟨fun ty fp hm => ?_, fun ty n hm => ?_⟩
  · rcases List.mem_append.1 hm with hm | hm
    · exact h.1 _ _ hm
    · exact h'.1 _ _ hm
  · rcases List.mem_append.1 hm with hm | hm
    · exact h.2 _ _ hm
    · exact h'.2 _ _ hm

theorem Plain.start {es : List Event} {t : NodeType} (ht : t ≠ ERROR) (h : Plain es) : Plain (.start t none :: es) := by
  refine Plain.append (as := [.start t none]) ⟨?_, by simp⟩ h
  intro ty fp hm
  simp only [List.mem_cons, Event.start.injEq, List.not_mem_nil, or_false] at hm
  exact ⟨hm.2, hm.1 ▸ ht⟩

theorem Plain.token {es : List Event} {t : NodeType} {n : Nat} (ht : t ≠ ERROR) (h : Plain es) :
    Plain (.token t n :: es) := by
  refine Plain.append (as := [.token t n]) ⟨by simp, ?_⟩ h
  intro ty fp hm
  simp only [List.mem_cons, Event.token.injEq, List.not_mem_nil, or_false] at hm
  exact hm.1 ▸ ht

theorem plain_nil : Plain [] := ⟨by simp, by simp⟩

theorem Plain.fin {es : List Event} (h : Plain es) : Plain (.fin :: es) :=
  Plain.append (as := [.fin]) ⟨by simp, by simp⟩ h

theorem plain_flatMap {α : Type} {f : α → List Event} {xs : List α} (h : ∀ x, x ∈ xs → Plain (f x)) :
    Plain (xs.flatMap f) := by
  induction xs with
  | nil => exact plain_nil
  | cons x xs ih =>
    rw [List.flatMap_cons]
    exact (h x List.mem_cons_self).append (ih fun y hy => h y (List.mem_cons_of_mem _ hy))

theorem alt_plain {a : List NodeType} (ha : Symbols a) : Plain (altTree a) := by
  refine Plain.start (by decide) (Plain.append (plain_flatMap fun t ht => ?_) plain_nil.fin)
  refine Plain.start (by decide) (Plain.token ?_ plain_nil.fin)
  rcases ha t ht with rfl | rfl <;> decide

theorem tree_plain {g : Bnf} (hg : g.Proper) : Plain g.tree := by
  refine Plain.start (by decide) (Plain.append (plain_flatMap fun p hp => ?_) plain_nil.fin)
  refine Plain.start (by decide) (Plain.token (by decide) (Plain.token (by decide) (Plain.start (by decide)
    (Plain.append ?_ plain_nil.fin.fin))))
  obtain ⟨h1, h2⟩ := hg p hp
  cases p with
  | nil => exact plain_nil
  | cons a bs =>
    rw [altTrees_cons]
    exact (alt_plain (h2 a List.mem_cons_self).2).append (plain_flatMap fun b hb =>
      Plain.token (by decide) (alt_plain (h2 b (List.mem_cons_of_mem _ hb)).2))

theorem exact : Exact bnfGrammar Bnf.Proper Bnf.tokens Bnf.tree where
  acts _ hg hc _ _ hv hi := grammar_acts hg hc hv hi
  sound _ hg hc _ := grammar_sound hg hc
  starts _ hv := (tree_plain hv).1
  leaves _ hv := (tree_plain hv).2

/-! ## The tokens determine the grammar -/

theorem symbols_inj {a b r r' : List NodeType} (ha : Symbols a) (hb : Symbols b) (hr : Ends r) (hr' : Ends r')
    (h : a ++ r = b ++ r') : a = b ∧ r = r' := by
  have key : ∀ {b r r' : List NodeType}, Symbols b → Ends r → Ends r' → r = b ++ r' → b = [] := by
    intro b r r' hb hr hr' h
    cases b with
    | nil => rfl
    | cons t b =>
      exfalso
      have ht := hb t List.mem_cons_self
      have hh := head_symbols (fun x hx => hb x (List.mem_cons_of_mem _ hx)) hr'
      rcases hr with (rfl | ⟨us, rfl⟩) | ⟨us, rfl⟩
      · cases h
      · simp only [List.cons_append, List.cons.injEq] at h
        rw [← h.2] at hh
        simp at hh
      · simp only [List.cons_append, List.cons.injEq] at h
        rcases ht with rfl | rfl <;> simp at h
  induction a generalizing b with
  | nil =>
    obtain rfl := key hb hr hr' h
    exact ⟨rfl, h⟩
  | cons t a ih =>
    cases b with
    | nil => exact absurd (key ha hr' hr h.symm) (by simp)
    | cons t' b =>
      simp only [List.cons_append, List.cons.injEq] at h
      obtain ⟨rfl, h⟩ := h
      obtain ⟨rfl, h'⟩ := ih (fun x hx => ha x (List.mem_cons_of_mem _ hx)) (fun x hx => hb x (List.mem_cons_of_mem _ hx)) h
      exact ⟨rfl, h'⟩

theorem more_inj {as bs : List (List NodeType)} {r r' : List NodeType} (ha : Alts as) (hb : Alts bs) (hr : Closed r)
    (hr' : Closed r') (h : as.flatMap (102 :: ·) ++ r = bs.flatMap (102 :: ·) ++ r') : as = bs ∧ r = r' := by
  induction as generalizing bs with
  | nil =>
    cases bs with
    | nil => exact ⟨rfl, h⟩
    | cons b bs => exfalso; rcases hr with rfl | ⟨us, rfl⟩ <;> simp at h
  | cons a as ih =>
    cases bs with
    | nil => exfalso; rcases hr' with rfl | ⟨us, rfl⟩ <;> simp at h
    | cons b bs =>
      simp only [List.flatMap_cons, List.cons_append, List.append_assoc, List.cons.injEq, true_and] at h
      obtain ⟨rfl, h1⟩ := symbols_inj (ha a List.mem_cons_self).2 (hb b List.mem_cons_self).2 (ends_more hr)
        (ends_more hr') h
      obtain ⟨rfl, h2⟩ := ih (fun x hx => ha x (List.mem_cons_of_mem _ hx)) (fun x hx => hb x (List.mem_cons_of_mem _ hx)) h1
      exact ⟨rfl, h2⟩

theorem grammar_inj {g g' : Bnf} (hg : g.Proper) (hg' : g'.Proper) (h : g.tokens = g'.tokens) : g = g' := by
  induction g generalizing g' with
  | nil =>
    cases g' with
    | nil => rfl
    | cons p g' => simp [Bnf.tokens, prodTokens] at h
  | cons p g ih =>
    cases g' with
    | nil => simp [Bnf.tokens, prodTokens] at h
    | cons p' g' =>
      have h1 := hg p List.mem_cons_self
      have h2 := hg' p' List.mem_cons_self
      cases p with
      | nil => exact (h1.1 rfl).elim
      | cons a as =>
        cases p' with
        | nil => exact (h2.1 rfl).elim
        | cons b bs =>
          have h : a ++ (as.flatMap (102 :: ·) ++ Bnf.tokens g) = b ++ (bs.flatMap (102 :: ·) ++ Bnf.tokens g') := by
            simpa [Bnf.tokens, prodTokens, altTokens_cons] using h
          obtain ⟨rfl, h3⟩ := symbols_inj (h1.2 a List.mem_cons_self).2 (h2.2 b List.mem_cons_self).2
            (ends_more closed_prods) (ends_more closed_prods) h
          obtain ⟨rfl, h4⟩ := more_inj (fun x hx => h1.2 x (List.mem_cons_of_mem _ hx))
            (fun x hx => h2.2 x (List.mem_cons_of_mem _ hx)) closed_prods closed_prods h3
          rw [ih (fun x hx => hg x (List.mem_cons_of_mem _ hx)) (fun x hx => hg' x (List.mem_cons_of_mem _ hx)) h4]

end BnfParse

theorem bnf_spaceless (lexer : Lexer Nat) : SpacelessStrings (bnfDefinition lexer) := by
  intro ty w h
  have key : bnfRules.all (fun x => match x with | .contextualToken _ _ => false | _ => true) = true := by decide +kernel
  have := List.all_eq_true.1 key _ h
  simp at this

end Fall
