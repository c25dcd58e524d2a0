import Verif.Lemmas.RunsCall
import Verif.Spec.Balanced
import Verif.Props.Runs

/-!
The rule `balanced` of the grammars reads up to the matching bracket.
-/

namespace Fall

open Spec

/-- Where the first closing bracket is that belongs to none of the opening brackets before it, if `depth`
brackets are open; the number of types if there is none. -/
def closing (bra ket : NodeType) : Nat → List NodeType → Nat
  | _, [] => 0
  | depth, x :: xs =>
    if x = ket then
      match depth with
      | 0 => 0
      | depth + 1 => closing bra ket depth xs + 1
    else closing bra ket (if x = bra then depth + 1 else depth) xs + 1

theorem closing_le (bra ket : NodeType) (d : Nat) (xs : List NodeType) :
    closing bra ket d xs ≤ xs.length := by
  induction xs generalizing d with
  | nil => exact Nat.le_refl _
  | cons x xs ih =>
    unfold closing
    split
    · split
      · exact Nat.zero_le _
      · have := ih ‹_›
        simp only [List.length_cons]
        omega
    · have := ih (if x = bra then d + 1 else d)
      simp only [List.length_cons]
      omega

/-- If nothing is closed, nothing is closed further out. -/
theorem closing_all {bra ket : NodeType} {d d' : Nat} {xs : List NodeType} (hd : d ≤ d')
    (h : closing bra ket d xs = xs.length) : closing bra ket d' xs = xs.length := by
  induction xs generalizing d d' with
  | nil => rfl
  | cons x xs ih =>
    unfold closing at h ⊢
    split
    · rename_i hx
      rw [if_pos hx] at h
      cases d with
      | zero => simp at h
      | succ d =>
        obtain ⟨d', rfl⟩ : ∃ k, d' = k + 1 := ⟨d' - 1, by omega⟩
        simp only [List.length_cons] at h ⊢
        rw [ih (by omega) (by omega : closing bra ket d xs = xs.length)]
    · rename_i hx
      rw [if_neg hx] at h
      simp only [List.length_cons] at h ⊢
      have h1 : closing bra ket (if x = bra then d + 1 else d) xs = xs.length := by omega
      rw [ih (d := if x = bra then d + 1 else d) (by split <;> omega) h1]

theorem closing_zero (bra ket : NodeType) (xs : List NodeType) : closing bra ket 0 (ket :: xs) = 0 := by
  simp [closing]

theorem closing_succ (bra ket : NodeType) (d : Nat) (xs : List NodeType) :
    closing bra ket (d + 1) (ket :: xs) = closing bra ket d xs + 1 := by
  simp [closing]

theorem closing_other {bra ket x : NodeType} (hx : x ≠ ket) (d : Nat) (xs : List NodeType) :
    closing bra ket d (x :: xs) = closing bra ket (if x = bra then d + 1 else d) xs + 1 := by
  simp [closing, hx]

/-- After what is closed, the bracket further out is looked for. -/
theorem closing_next {bra ket : NodeType} {d : Nat} (e : Nat) {xs : List NodeType}
    (h : closing bra ket d xs < xs.length) :
    xs[closing bra ket d xs]? = some ket ∧
      closing bra ket (e + d + 1) xs =
        closing bra ket d xs + 1 + closing bra ket e (xs.drop (closing bra ket d xs + 1)) := by
  induction xs generalizing d with
  | nil => simp at h
  | cons x xs ih =>
    by_cases hx : x = ket
    · subst hx
      cases d with
      | zero => rw [closing_zero, closing_succ]; simp; omega
      | succ d =>
        rw [closing_succ] at h ⊢
        simp only [List.length_cons] at h
        obtain ⟨h1, h2⟩ := ih (d := d) (by omega)
        refine ⟨by simpa using h1, ?_⟩
        rw [closing_succ, show e + (d + 1) = e + d + 1 by omega, h2]
        simp only [List.drop_succ_cons]
        omega
    · rw [closing_other hx] at h ⊢
      simp only [List.length_cons] at h
      obtain ⟨h1, h2⟩ := ih (d := if x = bra then d + 1 else d) (by omega)
      refine ⟨by simpa using h1, ?_⟩
      have : (if x = bra then e + d + 1 + 1 else e + d + 1) = e + (if x = bra then d + 1 else d) + 1 := by
        split <;> omega
      rw [closing_other hx, this, h2]
      simp only [List.drop_succ_cons]
      omega

/-- `closing` counts. -/
theorem closing_counts {bra ket : NodeType} (hne : bra ≠ ket) {d : Nat} {xs : List NodeType} :
    (∀ m, m ≤ closing bra ket d xs → (xs.take m).count ket ≤ (xs.take m).count bra + d) ∧
      (closing bra ket d xs < xs.length → xs[closing bra ket d xs]? = some ket ∧
        (xs.take (closing bra ket d xs)).count ket = (xs.take (closing bra ket d xs)).count bra + d) := by
  induction xs generalizing d with
  | nil => simp
  | cons x xs ih =>
    unfold closing
    by_cases hx : x = ket
    · rw [if_pos hx]
      subst hx
      cases d with
      | zero => simp
      | succ d =>
        obtain ⟨h1, h2⟩ := ih (d := d)
        have hb : (x == bra) = false := by simpa using fun h => hne h.symm
        dsimp only
        constructor
        · intro m hm
          cases m with
          | zero => simp
          | succ m =>
            have := h1 m (by omega)
            simp only [List.take_succ_cons, List.count_cons, hb, beq_self_eq_true, if_true]
            simp
            omega
        · intro h
          obtain ⟨h3, h4⟩ := h2 (by simpa using h)
          refine ⟨by simpa using h3, ?_⟩
          simp only [List.take_succ_cons, List.count_cons, hb, beq_self_eq_true, if_true]
          simp
          omega
    · rw [if_neg hx]
      obtain ⟨h1, h2⟩ := ih (d := if x = bra then d + 1 else d)
      have hk : (x == ket) = false := by simpa using hx
      constructor
      · intro m hm
        cases m with
        | zero => simp
        | succ m =>
          have := h1 m (by omega)
          simp only [List.take_succ_cons, List.count_cons, hk]
          by_cases hxb : x = bra
          · rw [if_pos hxb] at this
            simp [hxb]
            omega
          · rw [if_neg hxb] at this
            simp [hxb]
            omega
      · intro h
        obtain ⟨h3, h4⟩ := h2 (by simpa using h)
        refine ⟨by simpa using h3, ?_⟩
        simp only [List.take_succ_cons, List.count_cons, hk]
        by_cases hxb : x = bra
        · rw [if_pos hxb] at h4 ⊢
          simp [hxb]
          omega
        · rw [if_neg hxb] at h4 ⊢
          simp [hxb]
          omega

theorem closing_closesAt {bra ket : NodeType} (hne : bra ≠ ket) {xs : List NodeType} :
    ClosesAt bra ket xs (closing bra ket 0 xs) := by
  obtain ⟨h1, h2⟩ := closing_counts hne (d := 0) (xs := xs)
  refine ⟨closing_le _ _ _ _, fun m => ?_, fun h => h2 h⟩
  rw [List.take_take]
  exact h1 _ (Nat.min_le_right _ _)

theorem Spec.ClosesAt.unique {bra ket : NodeType} (hne : bra ≠ ket) {xs : List NodeType} {n m : Nat}
    (h : ClosesAt bra ket xs n) (h' : ClosesAt bra ket xs m) : n = m := by
  have key : ∀ {n m : Nat}, ClosesAt bra ket xs n → ClosesAt bra ket xs m → n < m → False := by
    intro n m h h' hlt
    obtain ⟨h1, h2⟩ := h.close (by have := h'.le; omega)
    have h3 := h'.before (n + 1)
    rw [List.take_take, Nat.min_eq_left (by omega), List.take_add_one, h1] at h3
    have hk : List.count bra [ket] = 0 := List.count_eq_zero.2 (by simpa using hne)
    simp [List.count_append, hk] at h3
    omega
  rcases Nat.lt_trichotomy n m with hlt | rfl | hlt
  · exact (key h h' hlt).elim
  · rfl
  · exact (key h' h hlt).elim

/-- What is behind the bracket does not matter. -/
theorem Spec.ClosesAt.local {bra ket : NodeType} {xs ys : List NodeType} {n : Nat}
    (h : ClosesAt bra ket xs n) (hn : n < xs.length) (hxy : ys.take (n + 1) = xs.take (n + 1)) :
    ClosesAt bra ket ys n := by
  have h1 : ys.take n = xs.take n := by
    have := congrArg (List.take n) hxy
    rwa [List.take_take, List.take_take, Nat.min_eq_left (by omega)] at this
  have h2 : ys[n]? = xs[n]? := by
    have := congrArg (fun l => l[n]?) hxy
    simpa [List.getElem?_take] using this
  have h3 : n < ys.length := by
    rw [List.getElem?_eq_getElem hn] at h2
    exact (List.getElem?_eq_some_iff.1 h2).1
  exact ⟨by omega, by rw [h1]; exact h.before, fun _ => by rw [h1, h2]; exact h.close hn⟩

namespace Parser

variable {env : Env} {pos : Pos} {s : PState}

theorem Input.drop {ts : List NodeType} (h : Input env pos ts) {n : Nat} (hn : n ≤ ts.length) :
    Input env ⟨pos.cur + n, pos.stop⟩ (ts.drop n) := by
  induction h generalizing n with
  | nil h =>
    obtain rfl : n = 0 := by simpa using hn
    exact .nil h
  | cons h1 h2 h3 ih =>
    cases n with
    | zero => exact .cons h1 h2 h3
    | succ n =>
      have := ih (n := n) (by simpa using hn)
      simpa [Nat.add_assoc, Nat.add_comm 1] using this

theorem Input.head {ts : List NodeType} {t : NodeType} (h : Input env pos ts) (ht : ts.head? = some t) :
    pos.cur ≠ pos.stop ∧ sigTy env pos.cur = some t := by
  cases h with
  | nil => cases ht
  | cons h1 h2 h3 =>
    cases ht
    exact ⟨h1, h2⟩

theorem token_runs {x : Nat} {t : NodeType} (hx : IsToken env.grammar x t) {ts : List NodeType}
    (hi : Input env pos ts) (s : PState) :
    ∃ s', Runs env x pos s (if ts.head? = some t then some pos.next else none) s' := by
  obtain ⟨ty, h1, h2⟩ := hx
  cases hi with
  | nil h => exact ⟨_, (runs_token h1).2 (Or.inl ⟨h, rfl, rfl⟩)⟩
  | cons h3 h4 h5 =>
    rename_i t' ts
    by_cases ht : t' = t
    · refine ⟨_, (runs_token h1).2 (Or.inr ⟨t', t, h3, h4, h2, Or.inr ⟨ht, ?_, rfl⟩⟩)⟩
      rw [if_pos (by simp [ht])]
    · refine ⟨_, (runs_token h1).2 (Or.inr ⟨t', t, h3, h4, h2, Or.inl ⟨ht, ?_, rfl⟩⟩)⟩
      rw [if_neg (by simpa using ht)]

theorem var_runs {v i x : Nat} {t : NodeType} (hv : env.grammar.rules[v]? = some (.var i))
    (hx : IsToken env.grammar x t) (hs : s.args[i]? = some (some x)) {ts : List NodeType}
    (hi : Input env pos ts) :
    ∃ s', Runs env v pos s (if ts.head? = some t then some pos.next else none) s' := by
  obtain ⟨s1, h1⟩ := token_runs hx hi (ticked s)
  exact ⟨_, (runs_var hv).2 ⟨x, s1, hs, h1, rfl⟩⟩

/-- The arguments are the brackets. -/
def Brackets (i j x y : Nat) (s : PState) : Prop :=
  s.args[i]? = some (some x) ∧ s.args[j]? = some (some y)

theorem Brackets.runs {i j x y e : Nat} {s s' : PState} {r : Option Pos} (h : Brackets i j x y s)
    (hr : Runs env e pos s r s') : Brackets i j x y s' := by
  obtain ⟨_, _, h3⟩ := Runs.scope hr
  unfold Brackets
  rw [h3]
  exact h

theorem set_self {as : List (Option Nat)} {i x : Nat} (h : as[i]? = some (some x)) :
    as.set i (some x) = as := by
  apply List.ext_getElem?
  intro k
  rw [List.getElem?_set]
  split
  · rename_i hk
    subst hk
    split
    · exact h.symm
    · rename_i hl
      rw [List.getElem?_eq_none (by omega)] at h
      cases h
  · rfl

/-- A rule `balanced` reads up to the closing bracket, whatever the state is. -/
theorem balanced_runs {e i j : Nat} {commit : Option Nat} (hb : BalancedRule env.grammar e i j commit)
    {x y : Nat} {bra ket : NodeType} (hx : IsToken env.grammar x bra) (hy : IsToken env.grammar y ket)
    (hne : bra ≠ ket) {ts : List NodeType} : ∀ {pos : Pos} {s : PState}, Input env pos ts →
    Brackets i j x y s → ∃ s', Runs env e pos s (some ⟨pos.cur + closing bra ket 0 ts, pos.stop⟩) s' := by
  obtain ⟨⟨body, loop, alt, nested, single, inner, skip, ebra, recur, eket, ebra', eket', no, any, eket'', h1, h2,
    h3, h4, h5, h6, h7, h8, h9, h10, h11, h12, h13, h14, h15, h16⟩, hcm⟩ := hb
  suffices key : ∀ {pos : Pos} {s : PState}, Input env pos ts → Brackets i j x y s →
      ∃ s', Repeats env alt pos s ⟨pos.cur + closing bra ket 0 ts, pos.stop⟩ s' by
    intro pos s hi hs
    obtain ⟨s', h⟩ := key (s := ticked (ticked (ticked s))) hi hs
    have hloop := (runs_rep (s := ticked (ticked s)) h3).2 ⟨_, rfl, h⟩
    have hbody := (runs_and (s := ticked s) h2).2 ⟨1, _, s', .step hloop .all, Or.inr ⟨by simp, rfl, rfl⟩⟩
    exact ⟨_, (runs_or h1).2 ⟨_, .found hbody, rfl⟩⟩
  induction hk : ts.length using Nat.strongRecOn generalizing ts with
  | ind k IH =>
  have again : ∀ {us : List NodeType}, us.length < k → ∀ {pos : Pos} {s : PState}, Input env pos us →
      Brackets i j x y s → ∃ s', Runs env e pos s (some ⟨pos.cur + closing bra ket 0 us, pos.stop⟩) s' := by
    intro us hus pos s hi hs
    obtain ⟨s', h⟩ := IH us.length hus rfl (s := ticked (ticked (ticked s))) hi hs
    have hloop := (runs_rep (s := ticked (ticked s)) h3).2 ⟨_, rfl, h⟩
    have hbody := (runs_and (s := ticked s) h2).2 ⟨1, _, s', .step hloop .all, Or.inr ⟨by simp, rfl, rfl⟩⟩
    exact ⟨_, (runs_or h1).2 ⟨_, .found hbody, rfl⟩⟩
  intro pos s hi hs
  -- the second alternative
  have hsingle : ∀ {s : PState}, Brackets i j x y s →
      ∃ s', Runs env single pos s (if ts = [] ∨ ts.head? = some ket then none else some pos.next) s' := by
    intro s hs
    have hsk : ∃ s', Runs env skip pos (ticked (ticked s))
        (if ts = [] ∨ ts.head? = some ket then none else some pos.next) s' := by
      obtain ⟨s1, hv⟩ := var_runs (s := { ticked (ticked (ticked (ticked s))) with predicate := true }) h15 hy hs.2 hi
      have hl : Looks env eket'' pos (ticked (ticked (ticked (ticked s)))) _ _ := ⟨s1, hv, rfl⟩
      by_cases hket : ts.head? = some ket
      · rw [if_pos hket] at hl
        have hno := (runs_not h14).2 ⟨_, _, hl, Or.inr ⟨by simp, rfl, rfl⟩⟩
        rw [if_pos (Or.inr hket)]
        exact ⟨_, (runs_and h13).2 ⟨0, _, _, .stuck hno, Or.inl ⟨by simp, rfl, rfl⟩⟩⟩
      · rw [if_neg hket] at hl
        have hno := (runs_not h14).2 ⟨_, _, hl, Or.inl ⟨rfl, rfl, rfl⟩⟩
        cases ts with
        | nil =>
          rw [if_pos (Or.inl rfl)]
          have hend : pos.cur = pos.stop := by cases hi; assumption
          exact ⟨_, (runs_and h13).2 ⟨1, _, _, .step hno (.stuck ((runs_any h16).2 (Or.inl ⟨hend, rfl, rfl⟩))),
            Or.inl ⟨by simp, rfl, rfl⟩⟩⟩
        | cons t ts =>
          rw [if_neg (by simp; simpa using hket)]
          obtain ⟨hp, ht⟩ := Input.head hi rfl
          exact ⟨_, (runs_and h13).2 ⟨2, _, _,
            .step hno (.step ((runs_any h16).2 (Or.inr ⟨t, hp, ht, rfl, rfl⟩)) .all), Or.inr ⟨by simp, rfl, rfl⟩⟩⟩
    by_cases hc : ts = [] ∨ ts.head? = some ket
    · rw [if_pos hc] at hsk ⊢
      obtain ⟨s1, hsk⟩ := hsk
      have hin := (runs_or h12).2 ⟨_, .next hsk .none, rfl⟩
      exact ⟨_, (runs_and h11).2 ⟨0, _, _, .stuck hin, Or.inl ⟨by simp, rfl, rfl⟩⟩⟩
    · rw [if_neg hc] at hsk ⊢
      obtain ⟨s1, hsk⟩ := hsk
      have hin := (runs_or h12).2 ⟨_, .found hsk, rfl⟩
      exact ⟨_, (runs_and h11).2 ⟨1, _, _, .step hin .all, Or.inr ⟨by simp, rfl, rfl⟩⟩⟩
  -- the next round
  have next : ∀ {n : Nat} {s1 : PState}, 0 < n → n ≤ ts.length → Brackets i j x y s →
      Runs env alt pos s (some ⟨pos.cur + n, pos.stop⟩) s1 →
      n + closing bra ket 0 (ts.drop n) = closing bra ket 0 ts →
      ∃ s', Repeats env alt pos s ⟨pos.cur + closing bra ket 0 ts, pos.stop⟩ s' := by
    intro n s1 hn hle hs hr hcl
    obtain ⟨s', h⟩ := IH (ts.drop n).length (by rw [List.length_drop]; omega) rfl (Input.drop hi hle) (hs.runs hr)
    refine ⟨s', .step hr ?_⟩
    simp only at h
    rw [← hcl, ← Nat.add_assoc]
    exact h
  obtain ⟨sb, hbra⟩ := var_runs (s := ticked (ticked s)) h6 hx hs.1 hi
  by_cases hhead : ts.head? = some bra
  · rw [if_pos hhead] at hbra
    obtain ⟨us, rfl⟩ : ∃ us, ts = bra :: us := by
      cases ts with
      | nil => cases hhead
      | cons t ts => exact ⟨ts, by simpa using hhead⟩
    have hsb : Brackets i j x y sb := hs.runs (s := ticked (ticked s)) hbra
    have hi1 : Input env pos.next us := by cases hi; assumption
    simp only [List.length_cons] at hk
    obtain ⟨sr, hrec⟩   := again (us := us) (by omega) hi1 (s := ticked sb) hsb
    have hbind : bindArgs env.grammar sb.args [(i, ebra'), (j, eket')] = some sb.args := by
      have hl1 := (List.getElem?_eq_some_iff.1 hsb.1).1
      have hl2 := (List.getElem?_eq_some_iff.1 hsb.2).1
      simp only [bindArgs, h9, hsb.1, if_pos hl1, set_self hsb.1, h10, hsb.2, if_pos hl2, set_self hsb.2]
    have hcall := (runs_call (s := sb) h7).2 ⟨_, sr, hbind, hrec, rfl⟩
    rw [if_neg (by simp)] at hcall
    have hsr := hsb.runs hcall
    have hlen := closing_le bra ket 0 us
    have hi2 := Input.drop hi1 hlen
    obtain ⟨sk, hket⟩ := var_runs h8 hy hsr.2 hi2
    have hhd : (us.drop (closing bra ket 0 us)).head? = us[closing bra ket 0 us]? := by
      rw [List.head?_drop]
    rw [hhd] at hket
    by_cases hlt : closing bra ket 0 us < us.length
    · obtain ⟨hc1, hc2⟩ := closing_next 0 hlt
      rw [if_pos hc1] at hket
      have hn := (runs_and (s := ticked s) h5).2 ⟨3, _, _, .step hbra (.step hcall (.step hket .all)),
        Or.inr ⟨by rcases hcm with rfl | rfl <;> simp, rfl, rfl⟩⟩
      have halt := (runs_or h4).2 ⟨_, .found hn, rfl⟩
      refine next (n := closing bra ket 0 us + 2) (by omega) (by simp; omega) hs
        (by simpa [Pos.next, Nat.add_assoc, Nat.add_comm, Nat.add_left_comm] using halt) ?_
      rw [closing_other hne, if_pos rfl]
      simp only [List.drop_succ_cons, Nat.zero_add] at hc2 ⊢
      omega
    · have hall : closing bra ket 0 us = us.length := by omega
      rw [if_neg (by rw [hall]; simp)] at hket
      have hturn := InTurn.step hbra (.step hcall (.stuck (ps := []) hket))
      rcases hcm with rfl | rfl
      · have hn := (runs_and (s := ticked s) h5).2 ⟨2, _, _, hturn, Or.inl ⟨by simp, rfl, rfl⟩⟩
        obtain ⟨ss, hs1⟩ := hsingle (Brackets.runs (s := ticked s) hs hn)
        rw [if_neg (by simpa using hne)] at hs1
        have halt := (runs_or h4).2 ⟨_, .next hn (.found hs1), rfl⟩
        refine next (n := 1) (by omega) (by simp) hs halt ?_
        rw [closing_other hne, if_pos rfl, closing_all (Nat.zero_le _) hall]
        simp only [List.drop_succ_cons, List.drop_zero]
        omega
      · have hn := (runs_and (s := ticked s) h5).2 ⟨2, _, _, hturn, Or.inr ⟨by simp, rfl, rfl⟩⟩
        have halt := (runs_or h4).2 ⟨_, .found hn, rfl⟩
        refine next (n := us.length + 1) (by omega) (by simp) hs
          (by simpa [hall, Pos.next, Nat.add_assoc, Nat.add_comm, Nat.add_left_comm] using halt) ?_
        rw [closing_other hne, if_pos rfl, closing_all (Nat.zero_le _) hall]
        simp [closing]
  · rw [if_neg hhead] at hbra
    have hn := (runs_and (s := ticked s) h5).2 ⟨0, _, _, .stuck hbra,
      Or.inl ⟨by rcases hcm with rfl | rfl <;> simp, rfl, rfl⟩⟩
    obtain ⟨ss, hs1⟩ := hsingle (Brackets.runs (s := ticked s) hs hn)
    by_cases hc : ts = [] ∨ ts.head? = some ket
    · rw [if_pos hc] at hs1
      have halt := (runs_or h4).2 ⟨_, .next hn (.next hs1 .none), rfl⟩
      have h0 : closing bra ket 0 ts = 0 := by
        cases ts with
        | nil => rfl
        | cons t ts =>
          obtain rfl : t = ket := by simpa using hc
          exact closing_zero _ _ _
      rw [h0]
      exact ⟨_, .stop halt⟩
    · rw [if_neg hc] at hs1
      have halt := (runs_or h4).2 ⟨_, .next hn (.found hs1), rfl⟩
      cases ts with
      | nil => simp at hc
      | cons t ts =>
        refine next (n := 1) (by omega) (by simp) hs halt ?_
        have ht : t ≠ ket := by simpa using hc
        have ht' : t ≠ bra := by simpa using hhead
        rw [closing_other ht, if_neg ht']
        simp only [List.drop_succ_cons, List.drop_zero]
        omega

end Parser

end Fall
