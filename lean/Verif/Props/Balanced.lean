import Verif.Lemmas.Balanced
import Verif.Model.Languages

/-!
Property theorems for the rule `balanced` of the grammars and the layers between brackets: C75.
-/

namespace Fall
open Spec

namespace Parser

variable {env : Env} {pos : Pos} {s s' : PState} {r : Option Pos}

theorem token_det {x : Nat} {t : NodeType} (hx : IsToken env.grammar x t) {ts : List NodeType}
    (hi : Input env pos ts) (h : Runs env x pos s r s') :
    r = if ts.head? = some t then some pos.next else none := by
  obtain ⟨s1, h1⟩ := token_runs hx hi s
  exact (h.det h1).1

theorem var_det {v i x : Nat} {t : NodeType} (hv : env.grammar.rules[v]? = some (.var i))
    (hx : IsToken env.grammar x t) (hs : s.args[i]? = some (some x)) {ts : List NodeType}
    (hi : Input env pos ts) (h : Runs env v pos s r s') :
    r = if ts.head? = some t then some pos.next else none := by
  obtain ⟨s1, h1⟩ := var_runs hv hx hs hi
  exact (h.det h1).1

/-- Brackets around a layer up to the matching bracket. -/
theorem brackets_det {e eo el ec l body : Nat} {bra ket : NodeType}
    (he : env.grammar.rules[e]? = some (.and [eo, el, ec] (some 1)))
    (hl : env.grammar.rules[el]? = some (.layer l body)) (A : List (Option Nat))
    (ho : ∀ {pos ts s r s'}, s.args = A → Input env pos ts → Runs env eo pos s r s' →
      r = if ts.head? = some bra then some pos.next else none)
    (hc : ∀ {pos ts s r s'}, s.args = A → Input env pos ts → Runs env ec pos s r s' →
      r = if ts.head? = some ket then some pos.next else none)
    (hb : ∀ {pos : Pos} {ts s r s'}, s.args = A → Input env pos ts → Runs env l pos s r s' →
      r = some ⟨pos.cur + closing bra ket 0 ts, pos.stop⟩)
    {ts : List NodeType} (hi : Input env pos ts) (hs : s.args = A) (h : Runs env e pos s r s') :
    (ts.head? ≠ some bra ∧ r = none) ∨ ∃ us, ts = bra :: us ∧
      r = some ⟨pos.cur + (if closing bra ket 0 us < us.length then closing bra ket 0 us + 2
        else closing bra ket 0 us + 1), pos.stop⟩ := by
  obtain ⟨k, q, s1, hturn, hres⟩ := (runs_and he).1 h
  cases hturn with
  | stuck h1 =>
    have h2 := ho (s := ticked s) hs hi h1
    refine Or.inl ⟨fun hh => by simp [hh] at h2, ?_⟩
    rcases hres with ⟨_, h3, _⟩ | ⟨h3, _⟩
    · exact h3
    · simp at h3
  | step h1 h2 =>
    have h3 := ho (s := ticked s) hs hi h1
    by_cases hh : ts.head? = some bra
    · rw [if_pos hh] at h3
      cases h3
      obtain ⟨us, rfl⟩ : ∃ us, ts = bra :: us := by
        cases ts with
        | nil => cases hh
        | cons t ts => exact ⟨ts, by simpa using hh⟩
      refine Or.inr ⟨us, rfl, ?_⟩
      have hi1 : Input env pos.next us := by cases hi; assumption
      have hs1 := (Runs.scope h1).2.2.trans hs
      have layer : ∀ {s r s'}, s.args = A → Runs env el pos.next s r s' →
          r = some ⟨pos.next.cur + closing bra ket 0 us, pos.stop⟩ := by
        intro s r s' hs1 hr
        obtain ⟨rl, s2, ⟨s3, h4, _⟩, h5⟩ := (runs_layer hl).1 hr
        have h6 := hb (pos := pos.next) (s := { ticked s with predicate := true }) hs1 hi1 h4
        rcases h5 with ⟨h5, _⟩ | ⟨rest, _, _, _, h5, _, _, h7, _⟩
        · rw [h5] at h6
          cases h6
        · rw [h7, ← h5, h6]
          rfl
      cases h2 with
      | stuck h4 => cases layer hs1 h4
      | step h4 h5 =>
        cases layer hs1 h4
        have hs2 := (Runs.scope h4).2.2.trans hs1
        have hi2 := Input.drop hi1 (closing_le bra ket 0 us)
        cases h5 with
        | stuck h6 =>
          have h7 := hc hs2 hi2 h6
          rw [List.head?_drop] at h7
          have h8 : ¬ closing bra ket 0 us < us.length := by
            intro hlt
            rw [if_pos (closing_next 0 hlt).1] at h7
            cases h7
          rw [if_neg h8]
          rcases hres with ⟨h9, _⟩ | ⟨_, h9, _⟩
          · simp at h9
          · rw [h9]
            simp only [Pos.next, Option.some.injEq, Pos.mk.injEq, and_true]
            omega
        | step h6 h7 =>
          have h8 := hc hs2 hi2 h6
          rw [List.head?_drop] at h8
          split at h8
          · rename_i h9
            have hlt := (List.getElem?_eq_some_iff.1 h9).1
            cases h8
            rw [if_pos hlt]
            cases h7
            rcases hres with ⟨h9, _⟩ | ⟨_, h9, _⟩
            · simp at h9
            · rw [h9]
              simp only [Pos.next, Option.some.injEq, Pos.mk.injEq, and_true]
              omega
          · cases h8
    · rw [if_neg hh] at h3
      cases h3

end Parser

open Parser

/-- C75. The rule `balanced` of the grammars, called with two tokens for its parameters, reads exactly up to
the first closing bracket that belongs to no opening bracket before it, or to the end of the layer if there
is no such bracket, whatever the other tokens are. It always does so, also where brackets are missing. -/
theorem C75_balanced (env : Env) (e i j : Nat) (commit : Option Nat)
    (hb : BalancedRule env.grammar e i j commit) (x y : Nat) (bra ket : NodeType)
    (hx : IsToken env.grammar x bra) (hy : IsToken env.grammar y ket) (hne : bra ≠ ket)
    (pos : Pos) (ts : List NodeType) (hi : Input env pos ts) (s : PState)
    (hs : s.args[i]? = some (some x) ∧ s.args[j]? = some (some y)) :
    ∃ n, ClosesAt bra ket ts n ∧ (∃ s', Runs env e pos s (some ⟨pos.cur + n, pos.stop⟩) s') ∧
      ∀ r s', Runs env e pos s r s' → r = some ⟨pos.cur + n, pos.stop⟩ := by
  obtain ⟨s1, h1⟩ := balanced_runs hb hx hy hne hi hs
  exact ⟨_, closing_closesAt hne, ⟨s1, h1⟩, fun r s' h => (h.det h1).1⟩

/-- There is only one such place. -/
theorem C75_unique (bra ket : NodeType) (hne : bra ≠ ket) (ts : List NodeType) (n m : Nat)
    (h : ClosesAt bra ket ts n) (h' : ClosesAt bra ket ts m) : n = m := h.unique hne h'

theorem fall_balanced : BalancedRule fallGrammar 25 2 3 none := by
  refine ⟨⟨199, 198, 197, 190, 196, 195, 194, 185, 188, 189, 186, 187, 192, 193, 191, ?_⟩, Or.inl rfl⟩
  decide +kernel

theorem rust_balanced : BalancedRule rustGrammar 156 10 11 (some 1) := by
  refine ⟨⟨1416, 1415, 1414, 1407, 1413, 1412, 1411, 1402, 1405, 1406, 1403, 1404, 1409, 1410, 1408, ?_⟩, Or.inr rfl⟩
  decide +kernel

/-- The rules `in_braces`, `in_parens` and `in_bracks` of Fall with their brackets. -/
def fallBounds : List (Nat × NodeType × NodeType) := [(22, 119, 120), (23, 125, 126), (24, 121, 122)]

theorem fallBounds_shape : ∀ b ∈ fallBounds, b.2.1 ≠ b.2.2 ∧ ∃ seq call x y : Nat,
    fallGrammar.rules[b.1]? = some (.or [seq]) ∧ fallGrammar.rules[seq]? = some (.and [call] none) ∧
    fallGrammar.rules[call]? = some (.call 25 [(2, x), (3, y)]) ∧
    IsToken fallGrammar x b.2.1 ∧ IsToken fallGrammar y b.2.2 ∧
    ∀ i, fallGrammar.rules[x]? ≠ some (.var i) ∧ fallGrammar.rules[y]? ≠ some (.var i) := by
  intro b hb
  simp only [fallBounds, List.mem_cons, List.not_mem_nil, or_false] at hb
  rcases hb with rfl | rfl | rfl
  · refine ⟨by decide, 176, 175, 173, 174, by decide +kernel, by decide +kernel, by decide +kernel, ⟨20, by decide +kernel⟩,
      ⟨21, by decide +kernel⟩, ?_⟩
    rw [show fallGrammar.rules[173]? = some (.token 20) by decide +kernel,
      show fallGrammar.rules[174]? = some (.token 21) by decide +kernel]
    simp
  · refine ⟨by decide, 180, 179, 177, 178, by decide +kernel, by decide +kernel, by decide +kernel, ⟨26, by decide +kernel⟩,
      ⟨27, by decide +kernel⟩, ?_⟩
    rw [show fallGrammar.rules[177]? = some (.token 26) by decide +kernel,
      show fallGrammar.rules[178]? = some (.token 27) by decide +kernel]
    simp
  · refine ⟨by decide, 184, 183, 181, 182, by decide +kernel, by decide +kernel, by decide +kernel, ⟨22, by decide +kernel⟩,
      ⟨23, by decide +kernel⟩, ?_⟩
    rw [show fallGrammar.rules[181]? = some (.token 22) by decide +kernel,
      show fallGrammar.rules[182]? = some (.token 23) by decide +kernel]
    simp

theorem fall_bound_runs {env : Env} (hg : env.grammar = fallGrammar) {b : Nat × NodeType × NodeType}
    (hb : b ∈ fallBounds) {pos : Pos} {ts : List NodeType} (hi : Input env pos ts) (s : PState)
    (hs : 4 ≤ s.args.length) :
    ∃ s', Runs env b.1 pos s (some ⟨pos.cur + closing b.2.1 b.2.2 0 ts, pos.stop⟩) s' := by
  obtain ⟨hne, seq, call, x, y, h1, h2, h3, h4, h5, h6⟩ := fallBounds_shape b hb
  have hbal := fall_balanced
  rw [← hg] at h1 h2 h3 h4 h5 h6 hbal
  have hbind : bindArgs env.grammar s.args [(2, x), (3, y)] =
      some ((s.args.set 2 (some x)).set 3 (some y)) := by
    obtain ⟨tx, hx, _⟩ := h4
    obtain ⟨ty, hy, _⟩ := h5
    simp only [bindArgs, hx, hy, List.length_set]
    rw [if_pos (by omega), if_pos (by omega)]
  obtain ⟨s1, hrun⟩ := balanced_runs (s := { ticked (ticked (ticked s)) with
    args := (s.args.set 2 (some x)).set 3 (some y) }) hbal h4 h5 hne hi
    ⟨by
      show ((s.args.set 2 (some x)).set 3 (some y))[2]? = _
      rw [List.getElem?_set_ne (by decide), List.getElem?_set_self (by omega)], by
      show ((s.args.set 2 (some x)).set 3 (some y))[3]? = _
      rw [List.getElem?_set_self (by rw [List.length_set]; omega)]⟩
  have hcall := (runs_call (s := ticked (ticked s)) h3).2 ⟨_, s1, hbind, hrun, rfl⟩
  have hseq := (runs_and (s := ticked s) h2).2 ⟨1, _, _, .step hcall .all, Or.inr ⟨by simp, rfl, rfl⟩⟩
  exact ⟨_, (runs_or h1).2 ⟨_, .found hseq, rfl⟩⟩

/-- C75 for Fall: `in_braces`, `in_parens` and `in_bracks`, which bound the bodies of rules, the blocks, the
parameters and the attributes, read exactly up to the matching bracket. (The parser has room for 16
arguments.) -/
theorem C75_fall (env : Env) (hg : env.grammar = fallGrammar) (e : Nat) (bra ket : NodeType)
    (hb : (e, bra, ket) ∈ fallBounds) (pos : Pos) (ts : List NodeType) (hi : Input env pos ts) (s : PState)
    (hs : s.args.length = 16) :
    ∃ n, ClosesAt bra ket ts n ∧ (∃ s', Runs env e pos s (some ⟨pos.cur + n, pos.stop⟩) s') ∧
      ∀ r s', Runs env e pos s r s' → r = some ⟨pos.cur + n, pos.stop⟩ := by
  obtain ⟨s1, h1⟩ := fall_bound_runs hg hb hi s (by omega)
  exact ⟨_, closing_closesAt (fallBounds_shape _ hb).1, ⟨s1, h1⟩, fun r s' h => (h.det h1).1⟩

/-- `{ a { } ] } b`, the types of the tokens only. -/
def bracketEnv (g : Grammar) (ts : List NodeType) : Env :=
  Env.new none g (fun _ => false) (ts.map fun _ => 120) (ts.map fun t => ⟨t, 1⟩)

/-- Behind the first brace: up to the brace that closes it. -/
example : ∃ s', Runs (bracketEnv fallGrammar [119, 130, 119, 120, 122, 120, 130]) 22 ⟨1, 7⟩ .new (some ⟨5, 7⟩) s' ∧
    s'.events = [.token 130 1, .token 119 1, .token 120 1, .token 122 1] :=
  runs_eval 40 _ (by decide +kernel)

example : ClosesAt 119 120 [130, 119, 120, 122, 120, 130] 4 := closing_closesAt (by decide)

/-- With a brace too few: to the end. -/
example : ∃ s', Runs (bracketEnv fallGrammar [119, 130, 119, 122, 120, 130]) 22 ⟨1, 6⟩ .new (some ⟨6, 6⟩) s' ∧
    s'.events = [.token 130 1, .token 119 1, .token 122 1, .token 120 1, .token 130 1] :=
  runs_eval 40 _ (by decide +kernel)

example : ClosesAt 119 120 [130, 119, 122, 120, 130] 5 := closing_closesAt (by decide)

/-- The input of the example. -/
example : Input (bracketEnv fallGrammar [119, 130, 119, 120, 122, 120, 130]) ⟨1, 7⟩ [130, 119, 120, 122, 120, 130] :=
  Parser.Input.drop (pos := ⟨0, 7⟩) (n := 1) (ts := [119, 130, 119, 120, 122, 120, 130])
    (.cons (by decide) (by decide +kernel) (.cons (by decide) (by decide +kernel)
      (.cons (by decide) (by decide +kernel) (.cons (by decide) (by decide +kernel)
        (.cons (by decide) (by decide +kernel) (.cons (by decide) (by decide +kernel)
          (.cons (by decide) (by decide +kernel) (.nil rfl)))))))) (by decide)

/-- C75 for the blocks of Fall, `{ ... }` in the body of a rule: where there is an opening brace, a block
is read, and it ends behind the matching closing brace, or at the end of the layer if there is none,
whatever is in it; elsewhere there is no block. -/
theorem C75_fall_block (env : Env) (hg : env.grammar = fallGrammar) (pos : Pos) (ts : List NodeType)
    (hi : Input env pos ts) (s : PState) (hs : s.args.length = 16) (r : Option Pos) (s' : PState)
    (h : Runs env 9 pos s r s') :
    (ts.head? ≠ some 119 ∧ r = none) ∨ ∃ us n, ts = 119 :: us ∧ ClosesAt 119 120 us n ∧
      r = some ⟨pos.cur + (if n < us.length then n + 2 else n + 1), pos.stop⟩ := by
  have rule : ∀ {k : Nat} {e : Expr}, fallGrammar.rules[k]? = some e → env.grammar.rules[k]? = some e := by
    intro k e hk
    rw [hg]
    exact hk
  obtain ⟨s1, h1, _⟩ := (runs_pub (t := 137) (rule (k := 9) (e := .pub 38 106 false) (by decide +kernel))
    (by rw [hg]; decide +kernel)).1 h
  have h2 := runs_or_one (rule (k := 106) (e := .or [105]) (by decide +kernel)) h1
  have h6 := runs_and_one (rule (k := 105) (e := .and [104] none) (by decide +kernel)) h2
  have hs0 : (ticked (ticked (emit (ticked s) [Event.start 137 none]))).args = s.args := by
    unfold emit
    split <;> rfl
  obtain ⟨A, s6, hA, h7, _⟩ := (runs_call (rule (k := 104) (e := .call 21 [(1, 103)]) (by decide +kernel))).1 h6
  have hAl : 4 ≤ A.length := by
    have h103 : env.grammar.rules[103]? = some (.or [102]) := rule (by decide +kernel)
    simp only [bindArgs, h103] at hA
    split at hA
    · cases hA
      rw [List.length_set]
      rw [hs0]
      omega
    · cases hA
  have h9 := runs_or_one (rule (k := 21) (e := .or [172]) (by decide +kernel)) h7
  have := brackets_det (bra := 119) (ket := 120)
    (rule (k := 172) (e := .and [168, 170, 171] (some 1)) (by decide +kernel))
    (rule (k := 170) (e := .layer 22 169) (by decide +kernel)) A
    (fun _ hi h => token_det ⟨20, rule (by decide +kernel), by rw [hg]; decide +kernel⟩ hi h)
    (fun _ hi h => token_det ⟨21, rule (by decide +kernel), by rw [hg]; decide +kernel⟩ hi h)
    (fun {pos ts s r s'} hs hi h => by
      obtain ⟨s1, h1⟩ := fall_bound_runs hg (b := (22, 119, 120)) (by decide) hi s (by rw [hs]; exact hAl)
      exact (h.det h1).1) hi rfl h9
  rcases this with h | ⟨us, h1, h2⟩
  · exact Or.inl h
  · exact Or.inr ⟨us, _, h1, closing_closesAt (by decide), h2⟩

/-- A block with a stray bracket in it and something behind it. -/
example : ∃ s', Runs (bracketEnv fallGrammar [119, 130, 119, 120, 122, 120, 130]) 9 ⟨0, 7⟩ .new (some ⟨6, 7⟩) s' ∧
    s'.events = [.start 137 none, .token 119 1, .start 136 none, .start 135 none, .token 130 1, .fin,
      .start 137 none, .token 119 1, .start 136 none, .fin, .token 120 1, .fin, .fin, .start 0 none, .token 122 1,
      .fin, .token 120 1, .fin] :=
  runs_eval 60 _ (by decide +kernel)

/-- The rules `block`, `in_parens`, `in_angles` and `in_bracks` of Rust with their brackets. -/
def rustBounds : List (Nat × NodeType × NodeType) :=
  [(151, 138, 139), (152, 136, 137), (153, 140, 141), (154, 142, 143)]

theorem rustBounds_shape : ∀ b ∈ rustBounds, b.2.1 ≠ b.2.2 ∧ ∃ seq call x y z v : Nat,
    rustGrammar.rules[b.1]? = some (.or [seq]) ∧ rustGrammar.rules[seq]? = some (.and [call] none) ∧
    rustGrammar.rules[call]? = some (.call 155 [(7, x), (8, y), (9, z)]) ∧
    IsToken rustGrammar x b.2.1 ∧ IsToken rustGrammar y b.2.2 ∧ rustGrammar.rules[z]? = some (.var v) := by
  intro b hb
  simp only [rustBounds, List.mem_cons, List.not_mem_nil, or_false] at hb
  rcases hb with rfl | rfl | rfl | rfl
  · exact ⟨by decide, 1378, 1377, 1374, 1375, 1376, 3, by decide +kernel, by decide +kernel, by decide +kernel,
      ⟨39, by decide +kernel⟩, ⟨40, by decide +kernel⟩, by decide +kernel⟩
  · exact ⟨by decide, 1383, 1382, 1379, 1380, 1381, 4, by decide +kernel, by decide +kernel, by decide +kernel,
      ⟨37, by decide +kernel⟩, ⟨38, by decide +kernel⟩, by decide +kernel⟩
  · exact ⟨by decide, 1388, 1387, 1384, 1385, 1386, 5, by decide +kernel, by decide +kernel, by decide +kernel,
      ⟨41, by decide +kernel⟩, ⟨42, by decide +kernel⟩, by decide +kernel⟩
  · exact ⟨by decide, 1393, 1392, 1389, 1390, 1391, 6, by decide +kernel, by decide +kernel, by decide +kernel,
      ⟨43, by decide +kernel⟩, ⟨44, by decide +kernel⟩, by decide +kernel⟩

/-- C75 for Rust: `block`, `in_parens`, `in_angles` and `in_bracks` are read where there is an opening bracket
and only there, and end behind the matching closing bracket, or at the end of the layer if there is none,
whatever the contents are. -/
theorem C75_rust (env : Env) (hg : env.grammar = rustGrammar) (e : Nat) (bra ket : NodeType)
    (hb : (e, bra, ket) ∈ rustBounds) (pos : Pos) (ts : List NodeType) (hi : Input env pos ts) (s : PState)
    (hs : s.args.length = 16) (r : Option Pos) (s' : PState) (h : Runs env e pos s r s') :
    (ts.head? ≠ some bra ∧ r = none) ∨ ∃ us n, ts = bra :: us ∧ ClosesAt bra ket us n ∧
      r = some ⟨pos.cur + (if n < us.length then n + 2 else n + 1), pos.stop⟩ := by
  have rule : ∀ {k : Nat} {e : Expr}, rustGrammar.rules[k]? = some e → env.grammar.rules[k]? = some e := by
    intro k e hk
    rw [hg]
    exact hk
  obtain ⟨hne, seq, call, x, y, z, v, r1, r2, r3, r4, r5, r6⟩ := rustBounds_shape _ hb
  simp only at hne r1 r2 r3 r4 r5 r6
  have hbal := rust_balanced
  rw [← hg] at r4 r5 hbal
  have h6 := runs_and_one (rule r2) (runs_or_one (rule r1) h)
  obtain ⟨A, s6, hA, h7, _⟩ := (runs_call (rule r3)).1 h6
  have hAs : A.length = 16 ∧ A[7]? = some (some x) ∧ A[8]? = some (some y) := by
    obtain ⟨tx, hx, _⟩ := r4
    obtain ⟨ty, hy, _⟩ := r5
    have hl : (ticked (ticked s)).args.length = 16 := hs
    generalize (ticked (ticked s)).args = B at hA hl
    simp only [bindArgs, hx, hy, rule r6, List.length_set, hl] at hA
    rw [if_pos (by decide), if_pos (by decide)] at hA
    split at hA
    · rw [if_pos (by decide)] at hA
      cases hA
      refine ⟨by simp [hl], ?_, ?_⟩
      · rw [List.getElem?_set_ne (by decide), List.getElem?_set_ne (by decide), List.getElem?_set_self (by omega)]
      · rw [List.getElem?_set_ne (by decide), List.getElem?_set_self (by rw [List.length_set]; omega)]
    · cases hA
  have h9 := runs_or_one (rule (k := 155) (e := .or [1401]) (by decide +kernel)) h7
  have := brackets_det (bra := bra) (ket := ket)
    (rule (k := 1401) (e := .and [1394, 1399, 1400] (some 1)) (by decide +kernel))
    (rule (k := 1399) (e := .layer 1397 1398) (by decide +kernel)) A
    (fun hs hi h => var_det (rule (k := 1394) (e := .var 7) (by decide +kernel)) r4 (by rw [hs]; exact hAs.2.1) hi h)
    (fun hs hi h => var_det (rule (k := 1400) (e := .var 8) (by decide +kernel)) r5 (by rw [hs]; exact hAs.2.2) hi h)
    (fun {pos ts s r s'} hs hi h => by
      obtain ⟨B, s1, hB, h1, _⟩ := (runs_call (rule (k := 1397) (e := .call 156 [(10, 1395), (11, 1396)])
        (by decide +kernel))).1 h
      have hBs : B[10]? = some (some x) ∧ B[11]? = some (some y) := by
        have e1 : env.grammar.rules[1395]? = some (.var 7) := rule (by decide +kernel)
        have e2 : env.grammar.rules[1396]? = some (.var 8) := rule (by decide +kernel)
        have h8 : (A.set 10 (some x))[8]? = some (some y) := by
          rw [List.getElem?_set_ne (by decide)]
          exact hAs.2.2
        simp only [bindArgs, e1, e2, hs, hAs.2.1, List.length_set, hAs.1] at hB
        rw [if_pos (by decide), h8] at hB
        simp only at hB
        rw [if_pos (by decide)] at hB
        cases hB
        refine ⟨?_, ?_⟩
        · rw [List.getElem?_set_ne (by decide), List.getElem?_set_self (by omega)]
        · rw [List.getElem?_set_self (by rw [List.length_set]; omega)]
      obtain ⟨s2, h2⟩ := balanced_runs hbal r4 r5 hne hi (s := { ticked s with args := B }) hBs
      exact (h1.det h2).1) hi rfl h9
  rcases this with h | ⟨us, h1, h2⟩
  · exact Or.inl h
  · exact Or.inr ⟨us, _, h1, closing_closesAt hne, h2⟩

/-- `( ( ) > )` and something behind it, with tokens as the contents of the layer: `in_parens` with the
argument `,`, which does not match. -/
example : ∃ s', Runs (bracketEnv rustGrammar [136, 136, 137, 141, 137, 138]) 152 ⟨0, 6⟩
    { PState.new with args := PState.new.args.set 4 (some 1367) } (some ⟨5, 6⟩) s' ∧
    s'.events = [.token 136 1, .start 0 none, .token 136 1, .token 137 1, .token 141 1, .fin, .token 137 1] :=
  runs_eval 40 _ (by decide +kernel)

end Fall
