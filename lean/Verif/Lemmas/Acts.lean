import Verif.Lemmas.Balanced
import Verif.Lemmas.Lockstep
import Verif.Lemmas.SynCut

/-!
Runs that do the same whatever the state is, and runs that add no ERROR node, put together from those of the
parts.
-/

namespace Fall

open Spec

namespace Parser

variable {env : Env} {e : Nat} {pos q : Pos} {s s' : PState}

/-- The expression reads up to `q` and adds the events. -/
def Acts (env : Env) (e : Nat) (pos q : Pos) (es : List Event) : Prop :=
  ∀ s, ∃ s', Runs env e pos s (some q) s' ∧ s'.events = (emit s es).events

/-- The expression fails. -/
def Fails (env : Env) (e : Nat) (pos : Pos) : Prop := ∀ s, ∃ s', Runs env e pos s none s'

/-- The first of the expressions that does not fail reads up to `q` and adds the events. -/
def ActsFirst (env : Env) (parts : List Nat) (pos q : Pos) (es : List Event) : Prop :=
  ∀ s, ∃ s', FirstOf env parts pos s (some q) s' ∧ s'.events = (emit s es).events

/-- One after the other the expressions read up to `q` and add the events. -/
def ActsTurn (env : Env) (parts : List Nat) (pos q : Pos) (es : List Event) : Prop :=
  ∀ s, ∃ s', InTurn env parts pos s parts.length q s' ∧ s'.events = (emit s es).events

/-- Again and again the expression reads up to `q` and adds the events. -/
def ActsRep (env : Env) (body : Nat) (pos q : Pos) (es : List Event) : Prop :=
  ∀ s, ∃ s', Repeats env body pos s q s' ∧ s'.events = (emit s es).events

theorem emit_events (s : PState) (es : List Event) :
    (emit s es).events = if s.predicate then s.events else s.events ++ es := by
  unfold emit; split <;> rfl

theorem emit_then {s s1 s2 : PState} {es es' : List Event} (h1 : s1.events = (emit s es).events)
    (hp : s1.predicate = s.predicate) (h2 : s2.events = (emit s1 es').events) :
    s2.events = (emit s (es ++ es')).events := by
  rw [emit_events] at *
  rw [h2, hp, h1]
  split <;> simp

theorem Acts.then {q' : Pos} {es es' : List Event} {parts : List Nat} (h : Acts env e pos q es)
    (h' : ActsTurn env parts q q' es') : ActsTurn env (e :: parts) pos q' (es ++ es') := by
  intro s
  obtain ⟨s1, h1, h2⟩ := h s
  obtain ⟨s2, h3, h4⟩ := h' s1
  exact ⟨s2, .step h1 h3, emit_then h2 (Runs.scope h1).1 h4⟩

theorem acts_done : ActsTurn env [] pos pos [] := fun s => ⟨s, .all, by simp [emit_events]⟩

theorem Acts.found {es : List Event} {parts : List Nat} (h : Acts env e pos q es) :
    ActsFirst env (e :: parts) pos q es := by
  intro s
  obtain ⟨s1, h1, h2⟩ := h s
  exact ⟨s1, .found h1, h2⟩

theorem Fails.next {es : List Event} {parts : List Nat} (h : Fails env e pos) (h' : ActsFirst env parts pos q es) :
    ActsFirst env (e :: parts) pos q es := by
  intro s
  obtain ⟨s1, h1⟩ := h s
  obtain ⟨s2, h3, h4⟩ := h' s1
  refine ⟨s2, .next h1 h3, ?_⟩
  rw [h4, emit_events, emit_events, (Runs.scope h1).1, h1.fail_events]

theorem acts_or {parts : List Nat} {es : List Event} (he : env.grammar.rules[e]? = some (.or parts))
    (h : ActsFirst env parts pos q es) : Acts env e pos q es := by
  intro s
  obtain ⟨s1, h1, h2⟩ := h (ticked s)
  refine ⟨s1, (runs_or he).2 ⟨s1, h1, by simp⟩, ?_⟩
  rw [h2, emit_events, emit_events]; rfl

theorem acts_and {parts : List Nat} {commit : Option Nat} {es : List Event}
    (he : env.grammar.rules[e]? = some (.and parts commit)) (hc : commit.getD parts.length ≤ parts.length)
    (h : ActsTurn env parts pos q es) : Acts env e pos q es := by
  intro s
  obtain ⟨s1, h1, h2⟩ := h (ticked s)
  refine ⟨s1, (runs_and he).2 ⟨_, q, s1, h1, Or.inr ⟨hc, rfl, by simp⟩⟩, ?_⟩
  rw [h2, emit_events, emit_events]; rfl

theorem acts_rep {body : Nat} {es : List Event} (he : env.grammar.rules[e]? = some (.rep body))
    (h : ActsRep env body pos q es) : Acts env e pos q es := by
  intro s
  obtain ⟨s1, h1, h2⟩ := h (ticked s)
  refine ⟨s1, (runs_rep he).2 ⟨q, rfl, h1⟩, ?_⟩
  rw [h2, emit_events, emit_events]; rfl

theorem Acts.again {body : Nat} {q' : Pos} {es es' : List Event} (h : Acts env body pos q es)
    (h' : ActsRep env body q q' es') : ActsRep env body pos q' (es ++ es') := by
  intro s
  obtain ⟨s1, h1, h2⟩ := h s
  obtain ⟨s2, h3, h4⟩ := h' s1
  exact ⟨s2, .step h1 h3, emit_then h2 (Runs.scope h1).1 h4⟩

theorem Fails.stop {body : Nat} (h : Fails env body pos) : ActsRep env body pos pos [] := by
  intro s
  obtain ⟨s1, h1⟩ := h s
  exact ⟨s1, .stop h1, by rw [h1.fail_events]; simp [emit_events]⟩

theorem acts_pub {ty body : Nat} {t : NodeType} {es : List Event}
    (he : env.grammar.rules[e]? = some (.pub ty body false)) (ht : env.grammar.nodeTypes[ty]? = some t)
    (h : Acts env body pos q es) : Acts env e pos q (.start t none :: (es ++ [.fin])) := by
  intro s
  obtain ⟨s1, h1, h2⟩ := h (emit (ticked s) [.start t none])
  refine ⟨_, (runs_pub he ht).2 ⟨s1, h1, by simp; rfl⟩, ?_⟩
  have hp := (Runs.scope h1).1
  simp only [emit_events] at *
  rw [hp, h2]
  by_cases hs : s.predicate <;> simp [emit, ticked, hs]

theorem acts_token {t : NodeType} {ts : List NodeType} (hx : IsToken env.grammar e t) (hi : Input env pos (t :: ts)) :
    Acts env e pos pos.next [.token t 1] := by
  obtain ⟨ty, h1, h2⟩ := hx
  intro s
  obtain ⟨h3, h4⟩ := Input.head hi rfl
  refine ⟨_, (runs_token h1).2 (Or.inr ⟨t, t, h3, h4, h2, Or.inr ⟨rfl, rfl, rfl⟩⟩), ?_⟩
  simp only [emit_events]; rfl

theorem fails_token {t : NodeType} {ts : List NodeType} (hx : IsToken env.grammar e t) (hi : Input env pos ts)
    (h : ts.head? ≠ some t) : Fails env e pos := by
  intro s
  obtain ⟨s', hr⟩ := token_runs hx hi s
  rw [if_neg h] at hr
  exact ⟨s', hr⟩

theorem fails_and {p : Nat} {ps : List Nat} {commit : Option Nat}
    (he : env.grammar.rules[e]? = some (.and (p :: ps) commit)) (hc : 0 < commit.getD (ps.length + 1))
    (h : Fails env p pos) : Fails env e pos := by
  intro s
  obtain ⟨s1, h1⟩ := h (ticked s)
  exact ⟨_, (runs_and he).2 ⟨0, pos, s1, .stuck h1, Or.inl ⟨by simpa using hc, rfl, rfl⟩⟩⟩

theorem fails_or {parts : List Nat} (he : env.grammar.rules[e]? = some (.or parts))
    (h : ∀ p ∈ parts, Fails env p pos) : Fails env e pos := by
  intro s
  have key : ∀ (parts : List Nat), (∀ p ∈ parts, Fails env p pos) → ∀ s, ∃ s', FirstOf env parts pos s none s' := by
    intro parts
    induction parts with
    | nil => exact fun _ s => ⟨s, .none⟩
    | cons p ps ih =>
      intro h s
      obtain ⟨s1, h1⟩ := h p List.mem_cons_self s
      obtain ⟨s2, h2⟩ := ih (fun p hp => h p (List.mem_cons_of_mem _ hp)) s1
      exact ⟨s2, .next h1 h2⟩
  obtain ⟨s1, h1⟩ := key parts h (ticked s)
  exact ⟨_, (runs_or he).2 ⟨s1, h1, rfl⟩⟩

/-- A rule that does not fail, whatever the state is. -/
def Ongoing (env : Env) (e : Nat) (pos : Pos) : Prop := ∀ s s', ¬ Runs env e pos s none s'

theorem Acts.ongoing {es : List Event} (h : Acts env e pos q es) : Ongoing env e pos := by
  intro s s' h1
  obtain ⟨s2, h2, _⟩ := h s
  have := (Runs.det h1 h2).1
  cases this

theorem ongoing_and {p : Nat} {ps : List Nat} {commit : Option Nat}
    (he : env.grammar.rules[e]? = some (.and (p :: ps) commit)) (hc : commit.getD (ps.length + 1) = 1)
    (h : Ongoing env p pos) : Ongoing env e pos := by
  intro s s' h1
  obtain ⟨k, q', s1, h1, h2⟩ := (runs_and he).1 h1
  rcases h2 with ⟨h3, _, _⟩ | ⟨_, h3, _⟩
  · have hk : k < 1 := by simpa [hc] using h3
    obtain rfl : k = 0 := by omega
    cases h1 with
    | stuck h1 => exact h _ _ h1
  · cases h3

theorem ongoing_or {p : Nat} {parts : List Nat} (he : env.grammar.rules[e]? = some (.or parts)) (hp : p ∈ parts)
    (h : Ongoing env p pos) : Ongoing env e pos := by
  have key : ∀ (parts : List Nat), p ∈ parts → ∀ s s', ¬ FirstOf env parts pos s none s' := by
    intro parts
    induction parts with
    | nil => intro hp; cases hp
    | cons x xs ih =>
      intro hp s s' h1
      cases h1 with
      | next h1 h2 =>
        rcases List.mem_cons.1 hp with rfl | hp
        · exact h _ _ h1
        · exact ih hp _ _ h2
  intro s s' h1
  obtain ⟨s1, h2, _⟩ := (runs_or he).1 h1
  exact key _ hp _ _ h2

theorem ongoing_pub {ty body : Nat} {t : NodeType} (he : env.grammar.rules[e]? = some (.pub ty body false))
    (ht : env.grammar.nodeTypes[ty]? = some t) (h : Ongoing env body pos) : Ongoing env e pos := by
  intro s s' h1
  obtain ⟨s1, h2, _⟩ := (runs_pub he ht).1 h1
  exact h _ _ h2

theorem fails_pub {ty body : Nat} {t : NodeType} (he : env.grammar.rules[e]? = some (.pub ty body false))
    (ht : env.grammar.nodeTypes[ty]? = some t) (h : Fails env body pos) : Fails env e pos := by
  intro s
  obtain ⟨s1, h1⟩ := h (emit (ticked s) [.start t none])
  exact ⟨_, (runs_pub he ht).2 ⟨s1, h1, rfl⟩⟩

theorem Acts.looks {es : List Event} (h : Acts env e pos q es) (s : PState) :
    ∃ s', Looks env e pos s (some q) s' ∧ s'.events = s.events ∧ s'.predicate = s.predicate := by
  obtain ⟨s1, h1, h2⟩ := h { s with predicate := true }
  refine ⟨_, ⟨s1, h1, rfl⟩, ?_, rfl⟩
  rw [emit_events] at h2
  simpa using h2

theorem Fails.looks (h : Fails env e pos) (s : PState) :
    ∃ s', Looks env e pos s none s' ∧ s'.events = s.events ∧ s'.predicate = s.predicate := by
  obtain ⟨s1, h1⟩ := h { s with predicate := true }
  exact ⟨_, ⟨s1, h1, rfl⟩, h1.fail_events, rfl⟩

theorem acts_not {body : Nat} (he : env.grammar.rules[e]? = some (.not body)) (h : Fails env body pos) :
    Acts env e pos pos [] := by
  intro s
  obtain ⟨s1, h1, h2, h3⟩ := h.looks (ticked s)
  refine ⟨s1, (runs_not he).2 ⟨none, s1, h1, Or.inl ⟨rfl, rfl, rfl⟩⟩, ?_⟩
  rw [h2]; simp [emit_events, ticked]

theorem fails_not {body : Nat} {es : List Event} (he : env.grammar.rules[e]? = some (.not body))
    (h : Acts env body pos q es) : Fails env e pos := by
  intro s
  obtain ⟨s1, h1, h2, h3⟩ := h.looks (ticked s)
  exact ⟨_, (runs_not he).2 ⟨some q, s1, h1, Or.inr ⟨by simp, rfl, rfl⟩⟩⟩

theorem acts_eof (he : env.grammar.rules[e]? = some .eof) (hi : Input env pos []) : Acts env e pos pos [] := by
  intro s
  cases hi with
  | nil h => exact ⟨ticked s, (runs_eof he).2 ⟨rfl, by simp [h]⟩, by simp [emit_events, ticked]⟩

theorem fails_eof {t : NodeType} {ts : List NodeType} (he : env.grammar.rules[e]? = some .eof)
    (hi : Input env pos (t :: ts)) : Fails env e pos := by
  intro s
  cases hi with
  | cons h => exact ⟨ticked s, (runs_eof he).2 ⟨rfl, by simp [h]⟩⟩

theorem acts_withSkip (hc : env.cache = none) {first body : Nat} {q' : Pos} {es es' : List Event}
    (he : env.grammar.rules[e]? = some (.withSkip first body)) (hf : Acts env first pos q' es')
    (h : Acts env body pos q es) : Acts env e pos q es := by
  intro s
  obtain ⟨s1, h1, h2, h3⟩ := hf.looks (ticked s)
  obtain ⟨s2, h4, h5⟩ := h s1
  refine ⟨s2, (runs_withSkip hc he).2 ⟨s2, .found (Or.inr ⟨q', s1, h1, h4⟩), by simp⟩, ?_⟩
  rw [h5, emit_events, emit_events, h3, h2]; rfl

theorem fails_withSkip (hc : env.cache = none) {first body : Nat}
    (he : env.grammar.rules[e]? = some (.withSkip first body)) (hf : Fails env first pos) (hi : Input env pos []) :
    Fails env e pos := by
  intro s
  obtain ⟨s1, h1, _⟩ := hf.looks (ticked s)
  cases hi with
  | nil h => exact ⟨_, (runs_withSkip hc he).2 ⟨s1, .exhausted (Or.inl ⟨h1, rfl⟩) h, rfl⟩⟩

theorem acts_layer {l body : Nat} {rest : Pos} {es es' : List Event}
    (he : env.grammar.rules[e]? = some (.layer l body)) (hl : Acts env l pos rest es')
    (h : Acts env body ⟨pos.cur, rest.cur⟩ ⟨rest.cur, rest.cur⟩ es) : Acts env e pos rest es := by
  intro s
  obtain ⟨s1, h1, h2, h3⟩ := hl.looks (ticked s)
  obtain ⟨s2, h4, h5⟩ := h s1
  refine ⟨_, (runs_layer he).2 ⟨some rest, s1, h1, Or.inr ⟨rest, _, s2, [], rfl, h4, .nil rfl, rfl, rfl⟩⟩, ?_⟩
  rw [emit_events, h5, emit_events, emit_events, (Runs.scope h4).1, h3, h2]
  by_cases hs : s.predicate <;> simp [hs, skippedNode, ticked]

/-! ## Runs without errors -/

/-- The number of ERROR nodes so far. -/
def errs (s : PState) : Nat := s.events.count (.start ERROR none)

theorem errs_prefix {s s' : PState} (h : s.events <+: s'.events) : errs s ≤ errs s' :=
  h.sublist.count_le _

theorem errs_mono (hc : env.cache = none) {r : Option Pos} (h : Runs env e pos s r s') : errs s ≤ errs s' :=
  errs_prefix (runs_grow hc h)

theorem errs_ticked (s : PState) : errs (ticked s) = errs s := rfl

theorem errs_emit (s : PState) (es : List Event) :
    errs (emit s es) = if s.predicate then errs s else errs s + es.count (.start ERROR none) := by
  unfold errs
  rw [emit_events]
  split <;> simp

theorem looks_same (h : Looks env e pos s r s') (hc : env.cache = none) :
    s'.events = s.events ∧ s'.predicate = s.predicate := by
  have := looks_adv hc h
  obtain ⟨s1, h1, h2⟩ := h
  refine ⟨?_, by rw [h2]⟩
  have := this.events
  simpa [app] using this

theorem turn_errs (hc : env.cache = none) {parts : List Nat} {k : Nat} (h : InTurn env parts pos s k q s') :
    errs s ≤ errs s' := by
  induction h with
  | all => exact Nat.le_refl _
  | stuck h => exact errs_mono hc h
  | step h _ ih => exact Nat.le_trans (errs_mono hc h) ih

theorem repeats_errs (hc : env.cache = none) {body : Nat} (h : Repeats env body pos s q s') :
    errs s ≤ errs s' := by
  induction h with
  | stop h => exact errs_mono hc h
  | step h _ ih => exact Nat.le_trans (errs_mono hc h) ih

theorem turn_scope {parts : List Nat} {k : Nat} (h : InTurn env parts pos s k q s') :
    s'.predicate = s.predicate := by
  induction h with
  | all => rfl
  | stuck h => exact (Runs.scope h).1
  | step h _ ih => exact ih.trans (Runs.scope h).1

theorem turn_le {parts : List Nat} {k : Nat} (h : InTurn env parts pos s k q s') : k ≤ parts.length := by
  induction h with
  | all => simp
  | stuck => simp
  | step _ _ ih => simpa using ih

/-- A rule with one alternative. -/
theorem clean_or_one {b : Nat} (he : env.grammar.rules[e]? = some (.or [b])) (h : Runs env e pos s (some q) s') :
    Runs env b pos (ticked s) (some q) s' := by
  obtain ⟨s1, h1, h2⟩ := (runs_or he).1 h
  rw [if_neg (by simp)] at h2
  subst h2
  cases h1 with
  | found h => exact h
  | next _ h => cases h

/-- A sequence that adds no error is read to its end. -/
theorem clean_and {parts : List Nat} {commit : Option Nat} (hp : s.predicate = false)
    (hc : env.cache = none) (he : env.grammar.rules[e]? = some (.and parts commit))
    (h : Runs env e pos s (some q) s') (hcl : errs s' = errs s) :
    InTurn env parts pos (ticked s) parts.length q s' := by
  obtain ⟨k, q', s1, h1, h2⟩ := (runs_and he).1 h
  rcases h2 with ⟨_, h2, _⟩ | ⟨_, h2, h3⟩
  · cases h2
  cases h2
  have hk : k ≤ parts.length := by
    exact turn_le h1
  by_cases hlt : k < parts.length
  · exfalso
    rw [if_pos hlt] at h3
    have h4 := turn_errs hc h1
    have h5 := turn_scope h1
    rw [h3, errs_emit, h5] at hcl
    simp only [ticked, hp, Bool.false_eq_true, if_false] at hcl
    have : List.count (Event.start ERROR none) (errorNode []) = 1 := by decide
    rw [errs_ticked] at h4
    omega
  · rw [if_neg hlt] at h3
    obtain rfl : k = parts.length := by omega
    rw [h3]
    exact h1

/-- The parts of a sequence. -/
theorem turn_cons (hc : env.cache = none) {p k : Nat} {ps : List Nat}
    (h : InTurn env (p :: ps) pos s (k + 1) q s') (hcl : errs s' = errs s) :
    ∃ q1 s1, Runs env p pos s (some q1) s1 ∧ InTurn env ps q1 s1 k q s' ∧ errs s1 = errs s ∧ errs s' = errs s1 ∧
      s1.predicate = s.predicate := by
  cases h with
  | step h1 h2 =>
    have h3 := errs_mono hc h1
    have h4 := turn_errs hc h2
    exact ⟨_, _, h1, h2, by omega, by omega, (Runs.scope h1).1⟩

theorem turn_nil {k : Nat} (h : InTurn env [] pos s k q s') : q = pos ∧ s' = s := by
  cases h
  exact ⟨rfl, rfl⟩

theorem clean_token {t : NodeType} {ts : List NodeType} (hx : IsToken env.grammar e t) (hi : Input env pos ts)
    (h : Runs env e pos s (some q) s') :
    ∃ us, ts = t :: us ∧ q = ⟨pos.cur + 1, pos.stop⟩ ∧ Input env q us := by
  obtain ⟨ty, h1, h2⟩ := hx
  rcases (runs_token h1).1 h with ⟨_, h3, _⟩ | ⟨t1, t2, h3, h4, h5, h6⟩
  · cases h3
  · rcases h6 with ⟨_, h6, _⟩ | ⟨h6, h7, _⟩
    · cases h6
    · rw [h2] at h5
      cases h5
      cases hi with
      | nil h => exact (h3 h).elim
      | cons _ h8 h9 =>
        rw [h4] at h8
        cases h8
        cases h7
        exact ⟨_, by rw [h6], rfl, h9⟩

/-- A node that adds no error. -/
theorem clean_pub (hc : env.cache = none) {ty body : Nat} {t : NodeType}
    (he : env.grammar.rules[e]? = some (.pub ty body false)) (ht : env.grammar.nodeTypes[ty]? = some t)
    (h : Runs env e pos s (some q) s') (hcl : errs s' = errs s) :
    ∃ s1 s2, Runs env body pos s1 (some q) s2 ∧ s1.predicate = s.predicate ∧ errs s2 = errs s1 := by
  obtain ⟨s2, h1, h2⟩ := (runs_pub he ht).1 h
  rw [if_neg (by simp)] at h2
  have h3 := errs_mono hc h1
  have h4 := errs_emit (ticked s) [.start t none]
  have h5 : errs s' = errs (emit s2 [.fin]) := by rw [h2]; rfl
  rw [errs_emit] at h5
  have h6 := (Runs.scope h1).1
  have hpe : (emit (ticked s) [.start t none]).predicate = s.predicate := by
    unfold emit ticked; split <;> rfl
  have hf : List.count (Event.start ERROR none) [Event.fin] = 0 := by decide
  rw [hf] at h5
  rw [errs_ticked] at h4
  refine ⟨_, s2, h1, hpe, ?_⟩
  by_cases hs : (ticked s).predicate <;> simp [hs] at h4 <;> split at h5 <;> omega

theorem skip_errs (hc : env.cache = none) {first body K : Nat} {E es : List Event} {r : Option Pos}
    (h : SkipTo env first body E es pos s r s') (hp : s.predicate = false) (hs : K ≤ errs s)
    (hE : K ≤ E.count (.start ERROR none) + 1) : K ≤ errs s' := by
  induction h with
  | found h =>
    rcases h with ⟨h, hr⟩ | ⟨q, s1, h1, h2⟩
    · cases hr
    · have := errs_mono hc h2
      have h3 := (looks_same h1 hc).1
      unfold errs at *
      rw [h3] at this
      omega
  | exhausted h =>
    have := (attempt_none hc h).1
    unfold errs at *
    rw [this]
    exact hs
  | skip h _ _ _ ih =>
    have h1 := (attempt_none hc h).2
    rw [hp] at h1
    simp only [h1, Bool.false_eq_true, if_false] at ih
    refine ih trivial ?_
    simp only [errs, errorNode, List.count_append, List.count_cons]
    simp
    omega

/-- Nothing is skipped when there are no errors. -/
theorem clean_withSkip (hc : env.cache = none) {first body : Nat} (hp : s.predicate = false)
    (he : env.grammar.rules[e]? = some (.withSkip first body)) (h : Runs env e pos s (some q) s')
    (hcl : errs s' = errs s) :
    ∃ s1 q1 s0, Looks env first pos s0 (some q1) s1 ∧ Runs env body pos s1 (some q) s' ∧ s1.predicate = false ∧
      errs s1 = errs s := by
  obtain ⟨s1, h1, h2⟩ := (runs_withSkip hc he).1 h
  rw [if_neg (by simp)] at h2
  subst h2
  cases h1 with
  | found h =>
    rcases h with ⟨h, hr⟩ | ⟨q1, s1, h1, h2⟩
    · cases hr
    · obtain ⟨h3, h4⟩ := looks_same h1 hc
      refine ⟨s1, q1, _, h1, h2, by rw [h4]; exact hp, ?_⟩
      unfold errs
      rw [h3]
      rfl
  | skip h h3 h4 h5 =>
    have h6 := (attempt_none hc h).2
    have h7 : (ticked s).predicate = false := hp
    rw [h7] at h6
    simp only [h6, Bool.false_eq_true, if_false] at h5
    have := skip_errs (K := errs s + 1) hc h5 rfl (by
      simp only [errs, errorNode, List.count_append, List.count_cons]
      simp) (Nat.le_refl _)
    omega

/-- Everything in a layer is read when there are no errors. -/
theorem clean_layer (hc : env.cache = none) {l body : Nat} (hp : s.predicate = false)
    (he : env.grammar.rules[e]? = some (.layer l body)) (h : Runs env e pos s (some q) s')
    (hcl : errs s' = errs s) :
    ∃ s1 s2 rb, Looks env l pos (ticked s) (some q) s1 ∧ Runs env body ⟨pos.cur, q.cur⟩ s1 rb s2 ∧
      s1.predicate = false ∧ errs s2 = errs s1 ∧
      (rb.getD ⟨pos.cur, q.cur⟩).cur = (rb.getD ⟨pos.cur, q.cur⟩).stop := by
  obtain ⟨rl, s1, h1, h2⟩ := (runs_layer he).1 h
  rcases h2 with ⟨_, h2, _⟩ | ⟨rest, rb, s2, es, rfl, h3, h4, h5, h6⟩
  · cases h2
  cases h5
  obtain ⟨h7, h8⟩ := looks_same h1 hc
  have h9 := errs_mono hc h3
  have h8' : s1.predicate = false := h8.trans hp
  have h10 : errs s1 = errs s := by unfold errs; rw [h7]; rfl
  have h11 := (Runs.scope h3).1
  rw [h6, errs_emit, h11, h8'] at hcl
  simp only [Bool.false_eq_true, if_false] at hcl
  refine ⟨s1, s2, rb, h1, h3, h8', by omega, ?_⟩
  cases h4 with
  | nil h => exact h
  | cons =>
    exfalso
    simp [skippedNode, errorNode] at hcl
    omega

end Parser

end Fall
