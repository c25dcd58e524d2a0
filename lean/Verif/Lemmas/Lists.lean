import Verif.Lemmas.Acts

/-!
Lists in brackets, as the grammar of JSON has them: a layer up to the closing bracket, in it items separated by
commas, and tokens that begin no item are skipped.
-/

namespace Fall

open Spec

namespace Parser

variable {env : Env} {e : Nat} {pos q : Pos} {s s' : PState}

/-- A rule that reads up to the closing bracket: nested pairs of brackets and other tokens. -/
def ToClose (g : Grammar) (e : Nat) (bra ket : NodeType) : Prop :=
  ∃ body loop alt nested single inner skip ebra eket no any eket', g.rules[e]? = some (.or [body]) ∧
    g.rules[body]? = some (.and [loop] none) ∧ g.rules[loop]? = some (.rep alt) ∧
    g.rules[alt]? = some (.or [nested, single]) ∧ g.rules[nested]? = some (.and [ebra, e, eket] (some 1)) ∧
    IsToken g ebra bra ∧ IsToken g eket ket ∧ g.rules[single]? = some (.and [inner] none) ∧
    g.rules[inner]? = some (.or [skip]) ∧ g.rules[skip]? = some (.and [no, any] none) ∧
    g.rules[no]? = some (.not eket') ∧ IsToken g eket' ket ∧ g.rules[any]? = some .any

/-- The rule reads up to the closing bracket, whatever the state is. -/
theorem toClose_runs {bra ket : NodeType} (hb : ToClose env.grammar e bra ket) (hne : bra ≠ ket)
    {ts : List NodeType} : ∀ {pos : Pos} {s : PState}, Input env pos ts →
    ∃ s', Runs env e pos s (some ⟨pos.cur + closing bra ket 0 ts, pos.stop⟩) s' := by
  obtain ⟨body, loop, alt, nested, single, inner, skip, ebra, eket, no, any, eket', h1, h2, h3, h4, h5, h6, h7, h11,
    h12, h13, h14, h15, h16⟩ := hb
  suffices key : ∀ {pos : Pos} {s : PState}, Input env pos ts →
      ∃ s', Repeats env alt pos s ⟨pos.cur + closing bra ket 0 ts, pos.stop⟩ s' by
    intro pos s hi
    obtain ⟨s', h⟩ := key (s := ticked (ticked (ticked s))) hi
    have hloop := (runs_rep (s := ticked (ticked s)) h3).2 ⟨_, rfl, h⟩
    have hbody := (runs_and (s := ticked s) h2).2 ⟨1, _, s', .step hloop .all, Or.inr ⟨by simp, rfl, rfl⟩⟩
    exact ⟨_, (runs_or h1).2 ⟨_, .found hbody, rfl⟩⟩
  induction hk : ts.length using Nat.strongRecOn generalizing ts with
  | ind k IH =>
  have again : ∀ {us : List NodeType}, us.length < k → ∀ {pos : Pos} {s : PState}, Input env pos us →
      ∃ s', Runs env e pos s (some ⟨pos.cur + closing bra ket 0 us, pos.stop⟩) s' := by
    intro us hus pos s hi
    obtain ⟨s', h⟩ := IH us.length hus rfl (s := ticked (ticked (ticked s))) hi
    have hloop := (runs_rep (s := ticked (ticked s)) h3).2 ⟨_, rfl, h⟩
    have hbody := (runs_and (s := ticked s) h2).2 ⟨1, _, s', .step hloop .all, Or.inr ⟨by simp, rfl, rfl⟩⟩
    exact ⟨_, (runs_or h1).2 ⟨_, .found hbody, rfl⟩⟩
  intro pos s hi
  -- the second alternative
  have hsingle : ∀ {s : PState},
      ∃ s', Runs env single pos s (if ts = [] ∨ ts.head? = some ket then none else some pos.next) s' := by
    intro s
    have hsk : ∃ s', Runs env skip pos (ticked (ticked s))
        (if ts = [] ∨ ts.head? = some ket then none else some pos.next) s' := by
      obtain ⟨s1, hv⟩ := token_runs h15 hi { ticked (ticked (ticked (ticked s))) with predicate := true }
      have hl : Looks env eket' pos (ticked (ticked (ticked (ticked s)))) _ _ := ⟨s1, hv, rfl⟩
      by_cases hket : ts.head? = some ket
      · rw [if_pos hket] at hl
        have hno := (runs_not h14).2 ⟨_, _, hl, Or.inr ⟨by simp, rfl, rfl⟩⟩
        rw [if_pos (Or.inr hket)]
        exact ⟨_, (runs_and h13).2 ⟨0, _, _, .stuck hno, Or.inl ⟨by simp, rfl, rfl⟩⟩⟩
      · rw [if_neg hket] at hl
        have hno := (runs_not h14).2 ⟨_, _, hl, Or.inl ⟨rfl, rfl, rfl⟩⟩
        cases ts with
        | nil =>
          rw [if_pos (Or.inl rfl)]
          have hend : pos.cur = pos.stop := by cases hi; assumption
          exact ⟨_, (runs_and h13).2 ⟨1, _, _, .step hno (.stuck ((runs_any h16).2 (Or.inl ⟨hend, rfl, rfl⟩))),
            Or.inl ⟨by simp, rfl, rfl⟩⟩⟩
        | cons t ts =>
          rw [if_neg (by simp; simpa using hket)]
          obtain ⟨hp, ht⟩ := Input.head hi rfl
          exact ⟨_, (runs_and h13).2 ⟨2, _, _,
            .step hno (.step ((runs_any h16).2 (Or.inr ⟨t, hp, ht, rfl, rfl⟩)) .all), Or.inr ⟨by simp, rfl, rfl⟩⟩⟩
    by_cases hc : ts = [] ∨ ts.head? = some ket
    · rw [if_pos hc] at hsk ⊢
      obtain ⟨s1, hsk⟩ := hsk
      have hin := (runs_or h12).2 ⟨_, .next hsk .none, rfl⟩
      exact ⟨_, (runs_and h11).2 ⟨0, _, _, .stuck hin, Or.inl ⟨by simp, rfl, rfl⟩⟩⟩
    · rw [if_neg hc] at hsk ⊢
      obtain ⟨s1, hsk⟩ := hsk
      have hin := (runs_or h12).2 ⟨_, .found hsk, rfl⟩
      exact ⟨_, (runs_and h11).2 ⟨1, _, _, .step hin .all, Or.inr ⟨by simp, rfl, rfl⟩⟩⟩
  -- the next round
  have next : ∀ {n : Nat} {s1 : PState}, 0 < n → n ≤ ts.length →
      Runs env alt pos s (some ⟨pos.cur + n, pos.stop⟩) s1 →
      n + closing bra ket 0 (ts.drop n) = closing bra ket 0 ts →
      ∃ s', Repeats env alt pos s ⟨pos.cur + closing bra ket 0 ts, pos.stop⟩ s' := by
    intro n s1 hn hle hr hcl
    obtain ⟨s', h⟩ := IH (ts.drop n).length (by rw [List.length_drop]; omega) rfl (s := s1) (Input.drop hi hle)
    refine ⟨s', .step hr ?_⟩
    simp only at h
    rw [← hcl, ← Nat.add_assoc]
    exact h
  obtain ⟨sb, hbra⟩ := token_runs h6 hi (ticked (ticked s))
  by_cases hhead : ts.head? = some bra
  · rw [if_pos hhead] at hbra
    obtain ⟨us, rfl⟩ : ∃ us, ts = bra :: us := by
      cases ts with
      | nil => cases hhead
      | cons t ts => exact ⟨ts, by simpa using hhead⟩
    have hi1 : Input env pos.next us := by cases hi; assumption
    simp only [List.length_cons] at hk
    obtain ⟨sr, hrec⟩ := again (us := us) (by omega) hi1 (s := sb)
    have hlen := closing_le bra ket 0 us
    have hi2 := Input.drop hi1 hlen
    obtain ⟨sk, hket⟩ := token_runs h7 hi2 sr
    rw [List.head?_drop] at hket
    by_cases hlt : closing bra ket 0 us < us.length
    · obtain ⟨hc1, hc2⟩ := closing_next 0 hlt
      rw [if_pos hc1] at hket
      have hn := (runs_and (s := ticked s) h5).2 ⟨3, _, _, .step hbra (.step hrec (.step hket .all)),
        Or.inr ⟨by simp, rfl, rfl⟩⟩
      have halt := (runs_or h4).2 ⟨_, .found hn, rfl⟩
      refine next (n := closing bra ket 0 us + 2) (by omega) (by simp; omega)
        (by simpa [Pos.next, Nat.add_assoc, Nat.add_comm, Nat.add_left_comm] using halt) ?_
      rw [closing_other hne, if_pos rfl]
      simp only [List.drop_succ_cons, Nat.zero_add] at hc2 ⊢
      omega
    · have hall : closing bra ket 0 us = us.length := by omega
      rw [if_neg (by rw [hall]; simp)] at hket
      have hturn := InTurn.step hbra (.step hrec (.stuck (ps := []) hket))
      have hn := (runs_and (s := ticked s) h5).2 ⟨2, _, _, hturn, Or.inr ⟨by simp, rfl, rfl⟩⟩
      have halt := (runs_or h4).2 ⟨_, .found hn, rfl⟩
      refine next (n := us.length + 1) (by omega) (by simp)
        (by simpa [hall, Pos.next, Nat.add_assoc, Nat.add_comm, Nat.add_left_comm] using halt) ?_
      rw [closing_other hne, if_pos rfl, closing_all (Nat.zero_le _) hall]
      simp [closing]
  · rw [if_neg hhead] at hbra
    have hn := (runs_and (s := ticked s) h5).2 ⟨0, _, _, .stuck hbra, Or.inl ⟨by simp, rfl, rfl⟩⟩
    obtain ⟨ss, hs1⟩ := hsingle (s := rewind sb (ticked s))
    by_cases hc : ts = [] ∨ ts.head? = some ket
    · rw [if_pos hc] at hs1
      have halt := (runs_or h4).2 ⟨_, .next hn (.next hs1 .none), rfl⟩
      have h0 : closing bra ket 0 ts = 0 := by
        cases ts with
        | nil => rfl
        | cons t ts =>
          obtain rfl : t = ket := by simpa using hc
          exact closing_zero _ _ _
      rw [h0]
      exact ⟨_, .stop halt⟩
    · rw [if_neg hc] at hs1
      have halt := (runs_or h4).2 ⟨_, .next hn (.found hs1), rfl⟩
      cases ts with
      | nil => simp at hc
      | cons t ts =>
        refine next (n := 1) (by omega) (by simp) halt ?_
        have ht : t ≠ ket := by simpa using hc
        have ht' : t ≠ bra := by simpa using hhead
        rw [closing_other ht, if_neg ht']
        simp only [List.drop_succ_cons, List.drop_zero]
        omega

/-- It reads the same events in lookahead: none. -/
theorem toClose_looks {bra ket : NodeType} (hb : ToClose env.grammar e bra ket) (hne : bra ≠ ket)
    {ts : List NodeType} (hi : Input env pos ts) (s : PState) :
    ∃ s', Looks env e pos s (some ⟨pos.cur + closing bra ket 0 ts, pos.stop⟩) s' := by
  obtain ⟨s1, h⟩ := toClose_runs hb hne hi (s := { s with predicate := true })
  exact ⟨_, s1, h, rfl⟩

theorem Input.take {ts : List NodeType} (h : Input env pos ts) {n : Nat} (hn : n ≤ ts.length) :
    Input env ⟨pos.cur, pos.cur + n⟩ (ts.take n) := by
  induction h generalizing n with
  | nil h =>
    obtain rfl : n = 0 := by simpa using hn
    exact .nil rfl
  | cons h1 h2 h3 ih =>
    cases n with
    | zero => exact .nil rfl
    | succ n =>
      have := ih (n := n) (by simpa using hn)
      exact .cons (by simp) h2 (by simpa [Nat.add_assoc, Nat.add_comm 1] using this)

theorem Input.after {xs ts : List NodeType} (h : Input env pos (xs ++ ts)) :
    Input env ⟨pos.cur + xs.length, pos.stop⟩ ts := by
  have := Input.drop h (n := xs.length) (by simp)
  simpa using this

/-! ## The items -/

/-- What is between the brackets: items, each followed by a comma that is not the last token or by the end.
Where no token of `first` is, tokens are skipped. -/
def ListBody (g : Grammar) (e first item : Nat) (comma : NodeType) : Prop :=
  ∃ b loop skip one two sep c1 c2 ecomma no eof1 eof2, g.rules[e]? = some (.or [b]) ∧
    g.rules[b]? = some (.and [loop] none) ∧ g.rules[loop]? = some (.rep skip) ∧
    g.rules[skip]? = some (.withSkip first one) ∧ g.rules[one]? = some (.or [two]) ∧
    g.rules[two]? = some (.and [item, sep] (some 1)) ∧ g.rules[sep]? = some (.or [c1, c2]) ∧
    g.rules[c1]? = some (.and [ecomma, no] none) ∧ IsToken g ecomma comma ∧ g.rules[no]? = some (.not eof1) ∧
    g.rules[eof1]? = some .eof ∧ g.rules[c2]? = some (.and [eof2] none) ∧ g.rules[eof2]? = some .eof

/-- A node with a list in brackets. -/
def ListNode (g : Grammar) (e : Nat) (ty bra ket comma : NodeType) (first item : Nat) : Prop :=
  ∃ t b b1 ebra lay eket close body, g.rules[e]? = some (.pub t b false) ∧ g.nodeTypes[t]? = some ty ∧
    g.rules[b]? = some (.or [b1]) ∧ g.rules[b1]? = some (.and [ebra, lay, eket] (some 1)) ∧
    IsToken g ebra bra ∧ IsToken g eket ket ∧ g.rules[lay]? = some (.layer close body) ∧
    ToClose g close bra ket ∧ ListBody g body first item comma

/-- Items with their events, separated by commas. -/
def joined (comma : NodeType) : List (List NodeType × List Event) → List NodeType × List Event
  | [] => ([], [])
  | [x] => x
  | x :: y :: xs => (x.1 ++ comma :: (joined comma (y :: xs)).1, x.2 ++ .token comma 1 :: (joined comma (y :: xs)).2)

/-- The rule reads the item, whatever comes behind it. -/
def ItemActs (env : Env) (first item : Nat) (x : List NodeType × List Event) : Prop :=
  ∀ pos rest, Input env pos (x.1 ++ rest) → (∃ q es, Acts env first pos q es) ∧
    Acts env item pos ⟨pos.cur + x.1.length, pos.stop⟩ x.2

theorem listBody_acts (hc : env.cache = none) {first item : Nat} {comma : NodeType}
    (hb : ListBody env.grammar e first item comma) {xs : List (List NodeType × List Event)}
    (hx : ∀ x ∈ xs, ItemActs env first item x) (hf : ∀ pos, Input env pos [] → Fails env first pos)
    (hne : ∀ x ∈ xs, x.1 ≠ []) {pos : Pos} (hi : Input env pos (joined comma xs).1) :
    Acts env e pos ⟨pos.stop, pos.stop⟩ (joined comma xs).2 := by
  obtain ⟨b, loop, skip, one, two, sep, c1, c2, ecomma, no, eof1, eof2, h1, h2, h3, h4, h5, h6, h7, h8, h9, h10, h11,
    h12, h13⟩ := hb
  suffices key : ActsRep env skip pos ⟨pos.stop, pos.stop⟩ (joined comma xs).2 by
    refine acts_or h1 (Acts.found (acts_and h2 (by simp) ?_))
    have := (acts_rep h3 key).then acts_done
    simpa using this
  have hstop : ∀ pos, Input env pos [] → ActsRep env skip pos pos [] := by
    intro pos hi
    exact (fails_withSkip hc h4 (hf pos hi) hi).stop
  have hpos : ∀ {pos : Pos}, Input env pos [] → pos = ⟨pos.stop, pos.stop⟩ := by
    intro pos hi
    cases hi with
    | nil h => cases pos; simp at h; simp [h]
  induction xs generalizing pos with
  | nil =>
    have := hstop pos hi
    rw [hpos hi] at this ⊢
    exact this
  | cons x xs ih =>
    have hx0 := hx x List.mem_cons_self
    cases xs with
    | nil =>
      have hi' : Input env pos (x.1 ++ []) := by rw [List.append_nil]; exact hi
      obtain ⟨⟨q, es, hfirst⟩, hitem⟩ := hx0 pos [] hi'
      have hend : Input env ⟨pos.cur + x.1.length, pos.stop⟩ [] := Input.after hi'
      have hsep : Acts env sep ⟨pos.cur + x.1.length, pos.stop⟩ ⟨pos.cur + x.1.length, pos.stop⟩ [] := by
        refine acts_or h7 (Fails.next (fails_and h8 (by simp) (fails_token h9 hend (by simp))) (Acts.found
          (acts_and h12 (by simp) ((acts_eof h13 hend).then acts_done))))
      have hone := acts_or h5 (Acts.found (parts := []) (acts_and h6 (by simp) (hitem.then (hsep.then acts_done))))
      have hskip := acts_withSkip hc h4 hfirst hone
      have := hskip.again (hstop _ hend)
      rw [hpos hend] at this
      simpa [joined] using this
    | cons y ys =>
      have hi' : Input env pos (x.1 ++ comma :: (joined comma (y :: ys)).1) := hi
      obtain ⟨⟨q, es, hfirst⟩, hitem⟩ := hx0 pos _ hi'
      have hend := Input.after hi'
      have hend1 : Input env ⟨pos.cur + x.1.length + 1, pos.stop⟩ (joined comma (y :: ys)).1 := by
        cases hend; assumption
      obtain ⟨t, ts, hts⟩ : ∃ t ts, (joined comma (y :: ys)).1 = t :: ts := by
        have hy := hne y (by simp)
        obtain ⟨t, ts, hy⟩ := List.exists_cons_of_ne_nil hy
        cases ys with
        | nil => exact ⟨t, ts, hy⟩
        | cons z zs => exact ⟨t, _, by simp [joined, hy]; rfl⟩
      have hsep : Acts env sep ⟨pos.cur + x.1.length, pos.stop⟩ ⟨pos.cur + x.1.length + 1, pos.stop⟩
          [.token comma 1] := by
        refine acts_or h7 (Acts.found (acts_and h8 (by simp) ?_))
        have := (acts_token h9 hend).then ((acts_not h10 (fails_eof h11 (by rw [hts] at hend1; exact hend1))).then acts_done)
        exact this
      have hone := acts_or h5 (Acts.found (parts := []) (acts_and h6 (by simp) (hitem.then (hsep.then acts_done))))
      have hskip := acts_withSkip hc h4 hfirst hone
      have := hskip.again (ih (fun x hx' => hx x (List.mem_cons_of_mem _ hx')) (fun x hx' => hne x (List.mem_cons_of_mem _ hx')) hend1)
      simpa [joined] using this

theorem listNode_acts (hc : env.cache = none) {first item : Nat} {ty bra ket comma : NodeType}
    (hb : ListNode env.grammar e ty bra ket comma first item) (hbk : bra ≠ ket)
    {xs : List (List NodeType × List Event)} {rest : List NodeType}
    (hx : ∀ x ∈ xs, ItemActs env first item x) (hf : ∀ pos, Input env pos [] → Fails env first pos)
    (hne : ∀ x ∈ xs, x.1 ≠ [])
    (hclose : closing bra ket 0 ((joined comma xs).1 ++ ket :: rest) = (joined comma xs).1.length)
    {pos : Pos} (hi : Input env pos (bra :: ((joined comma xs).1 ++ ket :: rest))) :
    Acts env e pos ⟨pos.cur + (joined comma xs).1.length + 2, pos.stop⟩
      (.start ty none :: .token bra 1 :: ((joined comma xs).2 ++ [.token ket 1, .fin])) := by
  obtain ⟨t, b, b1, ebra, lay, eket, close, body, h1, h2, h3, h4, h5, h6, h7, h8, h9⟩ := hb
  have hi1 : Input env pos.next ((joined comma xs).1 ++ ket :: rest) := by cases hi; assumption
  have hi2 := Input.after hi1
  have hin := Input.take hi1 (n := (joined comma xs).1.length) (by simp)
  rw [List.take_left] at hin
  have hbody := listBody_acts hc h9 hx hf hne hin
  have hlook : ∀ s, ∃ s', Looks env close pos.next s (some ⟨pos.next.cur + (joined comma xs).1.length, pos.next.stop⟩) s' := by
    intro s
    have := toClose_looks h8 hbk hi1 s
    rwa [hclose] at this
  have hlay : Acts env lay pos.next ⟨pos.next.cur + (joined comma xs).1.length, pos.next.stop⟩ (joined comma xs).2 := by
    intro s
    obtain ⟨s1, l1⟩ := hlook (ticked s)
    obtain ⟨l2, l3⟩ := looks_same l1 hc
    obtain ⟨s2, l4, l5⟩ := hbody s1
    refine ⟨_, (runs_layer h7).2 ⟨_, s1, l1, Or.inr ⟨_, _, s2, [], rfl, l4, .nil rfl, rfl, rfl⟩⟩, ?_⟩
    rw [emit_events, l5, emit_events, emit_events, (Runs.scope l4).1, l3, l2]
    by_cases hs : s.predicate <;> simp [hs, skippedNode, ticked]
  have := acts_pub h1 h2 (acts_or h3 (Acts.found (parts := []) (acts_and h4 (by simp)
    ((acts_token h5 hi).then (hlay.then ((acts_token h6 hi2).then acts_done))))))
  rw [show pos.cur + (joined comma xs).1.length + 2 = pos.cur + 1 + (joined comma xs).1.length + 1 by omega]
  simpa [Pos.next] using this

/-! ## Reading lists without errors -/

/-- Items separated by commas. -/
inductive Joined (comma : NodeType) (Good : List NodeType → Prop) : List NodeType → Prop
  | nil : Joined comma Good []
  | one : Good x → Joined comma Good x
  | cons : Good x → Joined comma Good rest → rest ≠ [] → Joined comma Good (x ++ comma :: rest)

/-- What a rule has read when it adds no error. -/
def Sound (env : Env) (item : Nat) (Good : List NodeType → Prop) (N : Nat) : Prop :=
  ∀ pos ts s q s', ts.length < N → Input env pos ts → s.predicate = false → Runs env item pos s (some q) s' →
    errs s' = errs s → ∃ x rest, Good x ∧ ts = x ++ rest ∧ q = ⟨pos.cur + x.length, pos.stop⟩

theorem listBody_sound (hc : env.cache = none) {first item : Nat} {comma : NodeType}
    (hb : ListBody env.grammar e first item comma) {Good : List NodeType → Prop} {N : Nat}
    (hs : Sound env item Good N) {pos : Pos} {ts : List NodeType} (hts : ts.length < N) (hi : Input env pos ts)
    {s s' : PState} (hp : s.predicate = false) {r : Option Pos} (h : Runs env e pos s r s')
    (hcl : errs s' = errs s) (hall : (r.getD pos).cur = (r.getD pos).stop) : Joined comma Good ts := by
  obtain ⟨b, loop, skip, one, two, sep, c1, c2, ecomma, no, eof1, eof2, h1, h2, h3, h4, h5, h6, h7, h8, h9, h10, h11,
    h12, h13⟩ := hb
  cases r with
  | none =>
    simp only [Option.getD_none] at hall
    cases hi with
    | nil => exact .nil
    | cons h => exact (h hall).elim
  | some q =>
  simp only [Option.getD_some] at hall
  have hb1 := clean_or_one h1 h
  have hb2 := clean_and (by exact hp) hc h2 hb1 hcl
  obtain ⟨q1, s1, hl, hnil, he1, he2, hp1⟩ := turn_cons hc hb2 hcl
  obtain ⟨rfl, rfl⟩ := turn_nil hnil
  obtain ⟨q2, hq, hrep⟩ := (runs_rep h3).1 hl
  cases hq
  have hp' : (ticked (ticked (ticked s))).predicate = false := hp
  have hcl' : errs s' = errs (ticked (ticked (ticked s))) := hcl
  clear hcl hp hb1 hb2 h hnil hl he1 he2 hp1
  generalize ticked (ticked (ticked s)) = s0 at *
  induction hrep generalizing ts with
  | stop h =>
    cases hi with
    | nil => exact .nil
    | cons h => exact (h hall).elim
  | step hstep hrest ih =>
    have m1 := errs_mono hc hstep
    have m2 := repeats_errs hc hrest
    obtain ⟨s1, q1, s0', _, k1, k2, k3⟩ := clean_withSkip hc hp' h4 hstep (by omega)
    have k4 := clean_or_one h5 k1
    have k5 := clean_and (by exact k2) hc h6 k4 (by rw [errs_ticked]; omega)
    obtain ⟨q3, s3, k6, k7, k8, k9, k10⟩ := turn_cons hc k5 (by rw [errs_ticked, errs_ticked]; omega)
    obtain ⟨q4, s4, k11, k12, k13, k14, k15⟩ := turn_cons hc k7 k9
    obtain ⟨rfl, rfl⟩ := turn_nil k12
    obtain ⟨x, rest, hx, rfl, rfl⟩ := hs _ _ _ _ _ hts hi (by exact k2) k6 k8
    have hi1 := Input.after hi
    obtain ⟨s5, k16, k17⟩ := (runs_or h7).1 k11
    have hstepScope := (Runs.scope hstep).1
    cases k16 with
    | found k16 =>
      rw [if_neg (by simp)] at k17
      subst k17
      have hp3 : s3.predicate = false := by rw [k10]; exact k2
      have k18 := clean_and (by exact hp3) hc h8 k16 (by rw [errs_ticked]; exact k13)
      obtain ⟨q6, s6, k19, k20, k21, k22, k23⟩ := turn_cons hc k18 (by rw [errs_ticked, errs_ticked]; exact k13)
      obtain ⟨us, rfl, rfl, hi2⟩ := clean_token h9 hi1 k19
      obtain ⟨q7, s7, k24, k25, _⟩ := turn_cons hc k20 k22
      obtain ⟨rfl, rfl⟩ := turn_nil k25
      obtain ⟨rb, s8, k26, k27⟩ := (runs_not h10).1 k24
      rcases k27 with ⟨rfl, k27, _⟩ | ⟨_, k27, _⟩
      · cases k27
        have hne : us ≠ [] := by
          rintro rfl
          cases hi2 with
          | nil hend =>
            obtain ⟨s9, k28, _⟩ := k26
            have := ((runs_eof h11).1 k28).2
            rw [if_pos hend] at this
            cases this
        exact .cons hx (ih (by simp at hts; omega) hi2 hall (by rw [hstepScope]; exact hp') (by omega)) hne
      · cases k27
    | next k16 k16' =>
      have hrest0 : rest = [] := by
        cases k16' with
        | next _ k => cases k
        | found k =>
          obtain ⟨k', q', s6, j1, j2⟩ := (runs_and h12).1 k
          rcases j2 with ⟨_, j2, _⟩ | ⟨j2, j3, _⟩
          · cases j2
          · cases j1 with
            | stuck => simp at j2
            | step j4 _ =>
              have := ((runs_eof h13).1 j4).2
              cases hi1 with
              | nil => rfl
              | cons hn =>
                rw [if_neg hn] at this
                cases this
      subst hrest0
      rw [List.append_nil]
      exact .one hx

theorem listNode_sound (hc : env.cache = none) {first item : Nat} {ty bra ket comma : NodeType}
    (hb : ListNode env.grammar e ty bra ket comma first item) (hbk : bra ≠ ket) {Good : List NodeType → Prop} {N : Nat}
    (hs : Sound env item Good N) :
    Sound env e (fun x => ∃ mid, Joined comma Good mid ∧ x = bra :: (mid ++ [ket])) (N + 1) := by
  obtain ⟨t, b, b1, ebra, lay, eket, close, body, h1, h2, h3, h4, h5, h6, h7, h8, h9⟩ := hb
  intro pos ts s q s' hts hi hp h hcl
  obtain ⟨s1, s2, k1, k2, k3⟩ := clean_pub hc h1 h2 h hcl
  have k4 := clean_or_one h3 k1
  have k5 := clean_and (by exact k2.trans hp) hc h4 k4 (by rw [errs_ticked]; exact k3)
  obtain ⟨q1, s3, k6, k7, k8, k9, k10⟩ := turn_cons hc k5 (by rw [errs_ticked, errs_ticked]; exact k3)
  obtain ⟨us, rfl, rfl, hi1⟩ := clean_token h5 hi k6
  obtain ⟨q2, s4, k11, k12, k13, k14, k15⟩ := turn_cons hc k7 k9
  obtain ⟨q3, s5, k16, k17, _⟩ := turn_cons hc k12 k14
  obtain ⟨rfl, rfl⟩ := turn_nil k17
  have hp3 : s3.predicate = false := by rw [k10]; exact k2.trans hp
  obtain ⟨s6, s7, rb, k18, k19, k20, k21, k22⟩ := clean_layer hc hp3 h7 k11 k13
  obtain ⟨s8, k23⟩ := toClose_looks h8 hbk hi1 (ticked s3)
  have hq2 : q2 = ⟨pos.cur + 1 + closing bra ket 0 us, pos.stop⟩ := by
    obtain ⟨a, a1, _⟩ := k18
    obtain ⟨b, b1, _⟩ := k23
    have := (Runs.det a1 b1).1
    simpa using this
  have hle := closing_le bra ket 0 us
  have hin := Input.take hi1 hle
  have hafter := Input.drop hi1 hle
  subst hq2
  have hj := listBody_sound hc h9 hs (by rw [List.length_take]; simp at hts; omega) hin k20 k19 k21 k22
  obtain ⟨vs, hvs, rfl, _⟩ := clean_token h6 hafter k16
  refine ⟨_, vs, ⟨_, hj, rfl⟩, ?_, ?_⟩
  · have := List.take_append_drop (closing bra ket 0 us) us
    rw [hvs] at this
    simp [this]
  · simp [List.length_take, Nat.min_eq_left hle, Nat.add_comm, Nat.add_left_comm]

end Parser

end Fall
