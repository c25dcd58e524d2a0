import Verif.Spec.Runs
import Verif.Lemmas.SynFuel
import Verif.Lemmas.SynItems

/-!
Running a construct in terms of running its parts.
-/

namespace Fall

open Spec

theorem Spec.Runs.det {env : Env} {e : Nat} {pos : Pos} {s s1 s2 : PState} {r1 r2 : Option Pos}
    (h1 : Runs env e pos s r1 s1) (h2 : Runs env e pos s r2 s2) : r1 = r2 ∧ s1 = s2 := by
  obtain ⟨n, h1⟩ := h1
  obtain ⟨m, h2⟩ := h2
  have h3 := (Parser.parseExpr_le env (Nat.le_max_left n m) e pos).ok h1
  have h4 := (Parser.parseExpr_le env (Nat.le_max_right n m) e pos).ok h2
  rw [h3] at h4
  cases h4
  exact ⟨rfl, rfl⟩

theorem Spec.Runs.fail_events {env : Env} {e : Nat} {pos : Pos} {s s1 : PState}
    (h : Runs env e pos s none s1) : s1.events = s.events := by
  obtain ⟨n, h⟩ := h
  exact Parser.parseExpr_none h

namespace Parser

theorem inner_of {env : Env} {rec : Rec} {n e : Nat} {pos : Pos} {s : PState} {rule : Expr}
    (he : env.grammar.rules[e]? = some rule) :
    parseExprInner env rec n e pos s =
    (match (generalizing := false) rule with
      | .pub ty body replaceable => parsePub env rec pos ty body replaceable
      | .pubReplace ty body => parsePubReplace rec pos ty body
      | .or parts => parseOr rec pos parts
      | .and parts commit => parseAnd rec pos parts commit
      | .token ty => parseToken env pos ty
      | .contextualToken ty text => bumpByText env pos text ty
      | .opt body => parseOpt rec pos body
      | .not e => parseNot rec pos e
      | .eof => pure (if pos.isEmpty then some pos else none)
      | .any => do
        match ← bump env pos with
        | some (_, ts) => pure (some ts)
        | none => pure none
      | .layer l e => parseLayer env rec pos l e
      | .rep body => repLoop rec body n pos
      | .withSkip first body => withSkipLoop env rec first body n false pos
      | .pratt table => prattGo env rec table n pos 0
      | .enter ctx e => parseWithContext rec pos ctx e true
      | .exit ctx e => parseWithContext rec pos ctx e false
      | .isIn ctx => parseIsIn pos ctx
      | .call body args => parseCall env rec pos body args
      | .var i => parseVar rec pos i
      | .prevIs tys => parsePrevIs env pos tys
      | .inject pre body => parseInject rec pos pre body
      | .cached body => parseCached env rec pos body : P (Option Pos)) s := by
  simp only [parseExprInner, he]
  rfl

theorem parseExpr_succ_ok {env : Env} {n e : Nat} {pos : Pos} {s s' : PState} {r : Option Pos} :
    parseExpr env (n + 1) e pos s = .ok r s' ↔
      ∃ s1, parseExprInner env (parseExpr env n) n e pos (ticked s) = .ok r s1 ∧
        s' = if r = none then rewind s1 s else s1 := by
  unfold parseExpr
  constructor
  · intro h
    obtain ⟨_, s1, h1, h⟩ := P.bind_ok.1 h
    obtain rfl := P.modify_ok.1 h1
    obtain ⟨m, s2, h2, h⟩ := P.bind_ok.1 h
    obtain ⟨_, _, h3, h4⟩ := P.bind_ok.1 h2
    obtain ⟨rfl, rfl⟩ := P.get_ok.1 h3
    obtain ⟨rfl, rfl⟩ := P.pure_ok.1 h4
    obtain ⟨r, s3, h5, h⟩ := P.bind_ok.1 h
    obtain ⟨_, s4, h6, h⟩ := P.bind_ok.1 h
    obtain ⟨rfl, rfl⟩ := P.pure_ok.1 h
    refine ⟨s3, h5, ?_⟩
    cases r with
    | some p =>
      rcases cond_ok h6 with ⟨h6, _⟩ | ⟨_, rfl⟩
      · cases h6
      · rfl
    | none =>
      replace h6 : rollback s.events.length s3 = .ok _ s4 := h6
      obtain ⟨_, hle, htake, _⟩ := parseExprInner_keeps (base := s.events.length) parseExpr_keeps
        _ _ _ (by exact Nat.le_refl _) h5
      unfold rollback at h6
      rw [if_pos hle] at h6
      cases h6
      have : s3.events.take s.events.length = s.events := by simpa using htake
      simp [rewind, this]
  · rintro ⟨s3, h5, rfl⟩
    refine P.bind_ok.2 ⟨(), _, P.modify_ok.2 rfl, P.bind_ok.2 ⟨_, _, P.bind_ok.2 ⟨_, _, P.get_ok.2 ⟨rfl, rfl⟩,
      P.pure_ok.2 ⟨rfl, rfl⟩⟩, P.bind_ok.2 ⟨r, s3, h5, P.bind_ok.2 ⟨(), _, ?_, P.pure_ok.2 ⟨rfl, rfl⟩⟩⟩⟩⟩
    cases r with
    | some p => rfl
    | none =>
      obtain ⟨_, hle, htake, _⟩ := parseExprInner_keeps (base := s.events.length) parseExpr_keeps
        _ _ _ (by exact Nat.le_refl _) h5
      have : s3.events.take s.events.length = s.events := by simpa [ticked] using htake
      show rollback s.events.length s3 = _
      unfold rollback
      rw [if_pos hle, this]
      rfl

theorem runs_iff {env : Env} {e : Nat} {pos : Pos} {s s' : PState} {r : Option Pos} :
    Runs env e pos s r s' ↔
      ∃ n s1, parseExprInner env (parseExpr env n) n e pos (ticked s) = .ok r s1 ∧
        s' = if r = none then rewind s1 s else s1 := by
  constructor
  · rintro ⟨n, h⟩
    cases n with
    | zero => exact (P.timeout_ok.1 h).elim
    | succ n => exact ⟨n, parseExpr_succ_ok.1 h⟩
  · rintro ⟨n, h⟩
    exact ⟨n + 1, parseExpr_succ_ok.2 h⟩

variable {env : Env} {e : Nat} {pos : Pos} {s s' : PState} {r : Option Pos}

theorem pred_ok {rec : Rec} : parseExprPred rec e pos s = .ok r s' ↔
    ∃ s1, rec e pos { s with predicate := true } = .ok r s1 ∧
      s' = { s1 with predicate := s.predicate } := by
  unfold parseExprPred
  constructor
  · intro h
    obtain ⟨s0, s1, h1, hs⟩ := P.bind_ok.1 h
    obtain ⟨rfl, rfl⟩ := P.get_ok.1 h1
    obtain ⟨_, s2, h2, hs⟩ := P.bind_ok.1 hs
    obtain rfl := P.modify_ok.1 h2
    obtain ⟨r, s3, h3, hs⟩ := P.bind_ok.1 hs
    obtain ⟨_, s4, h4, hs⟩ := P.bind_ok.1 hs
    obtain rfl := P.modify_ok.1 h4
    obtain ⟨rfl, rfl⟩ := P.pure_ok.1 hs
    exact ⟨s3, h3, rfl⟩
  · rintro ⟨s1, h1, rfl⟩
    exact P.bind_ok.2 ⟨_, _, P.get_ok.2 ⟨rfl, rfl⟩, P.bind_ok.2 ⟨(), _, P.modify_ok.2 rfl,
      P.bind_ok.2 ⟨_, _, h1, P.bind_ok.2 ⟨(), _, P.modify_ok.2 rfl, P.pure_ok.2 ⟨rfl, rfl⟩⟩⟩⟩⟩

theorem looks_of {n : Nat} (h : parseExprPred (parseExpr env n) e pos s = .ok r s') :
    Looks env e pos s r s' := by
  obtain ⟨s1, h1, h2⟩ := pred_ok.1 h
  exact ⟨s1, ⟨n, h1⟩, h2⟩

theorem of_looks (h : Looks env e pos s r s') :
    ∃ n, ∀ m, n ≤ m → parseExprPred (parseExpr env m) e pos s = .ok r s' := by
  obtain ⟨s1, ⟨n, h1⟩, h2⟩ := h
  exact ⟨n, fun m hm => pred_ok.2 ⟨s1, (parseExpr_le env hm e _).ok h1, h2⟩⟩

theorem of_runs (h : Runs env e pos s r s') :
    ∃ n, ∀ m, n ≤ m → parseExpr env m e pos s = .ok r s' := by
  obtain ⟨n, h1⟩ := h
  exact ⟨n, fun m hm => (parseExpr_le env hm e _).ok h1⟩

/-! ## Choice -/

theorem firstOf_of {n : Nat} {parts : List Nat} (h : parseOr (parseExpr env n) pos parts s = .ok r s') :
    FirstOf env parts pos s r s' := by
  induction parts generalizing s with
  | nil => obtain ⟨rfl, rfl⟩ := P.pure_ok.1 h; exact .none
  | cons p ps ih =>
    unfold parseOr at h
    obtain ⟨r1, s1, h1, h⟩ := P.bind_ok.1 h
    cases r1 with
    | some q => obtain ⟨rfl, rfl⟩ := P.pure_ok.1 h; exact .found ⟨n, h1⟩
    | none => exact .next ⟨n, h1⟩ (ih h)

theorem of_firstOf {parts : List Nat} (h : FirstOf env parts pos s r s') :
    ∃ n, ∀ m, n ≤ m → parseOr (parseExpr env m) pos parts s = .ok r s' := by
  induction h with
  | none => exact ⟨0, fun _ _ => rfl⟩
  | found h =>
    obtain ⟨n, h⟩ := of_runs h
    exact ⟨n, fun m hm => P.bind_ok.2 ⟨_, _, h m hm, rfl⟩⟩
  | next h _ ih =>
    obtain ⟨n, h⟩ := of_runs h
    obtain ⟨n', ih⟩ := ih
    exact ⟨max n n', fun m hm => P.bind_ok.2 ⟨_, _, h m (by omega), ih m (by omega)⟩⟩

theorem runs_or {parts : List Nat} (he : env.grammar.rules[e]? = some (.or parts)) :
    Runs env e pos s r s' ↔ ∃ s1, FirstOf env parts pos (ticked s) r s1 ∧
      s' = if r = none then rewind s1 s else s1 := by
  rw [runs_iff]
  constructor
  · rintro ⟨n, s1, h, h'⟩
    rw [inner_of he] at h
    exact ⟨s1, firstOf_of h, h'⟩
  · rintro ⟨s1, h, h'⟩
    obtain ⟨n, h⟩ := of_firstOf h
    exact ⟨n, s1, by rw [inner_of he]; exact h n (Nat.le_refl _), h'⟩

/-! ## Sequence -/

theorem inTurn_of {n : Nat} {parts : List Nat} {k k' : Nat} {q : Pos}
    (h : andLoop (parseExpr env n) parts k pos s = .ok (k', q) s') :
    ∃ d, k' = k + d ∧ InTurn env parts pos s d q s' := by
  induction parts generalizing s k pos with
  | nil =>
    obtain ⟨h, rfl⟩ := P.pure_ok.1 h
    cases h
    exact ⟨0, rfl, .all⟩
  | cons p ps ih =>
    unfold andLoop at h
    obtain ⟨r1, s1, h1, h⟩ := P.bind_ok.1 h
    cases r1 with
    | some q =>
      obtain ⟨d, rfl, hd⟩ := ih h
      exact ⟨d + 1, by omega, .step ⟨n, h1⟩ hd⟩
    | none =>
      obtain ⟨h, rfl⟩ := P.pure_ok.1 h
      cases h
      exact ⟨0, rfl, .stuck ⟨n, h1⟩⟩

theorem of_inTurn {parts : List Nat} {d : Nat} {q : Pos} (h : InTurn env parts pos s d q s') :
    ∃ n, ∀ m, n ≤ m → ∀ k, andLoop (parseExpr env m) parts k pos s = .ok (k + d, q) s' := by
  induction h with
  | all => exact ⟨0, fun _ _ _ => rfl⟩
  | stuck h =>
    obtain ⟨n, h⟩ := of_runs h
    exact ⟨n, fun m hm k => P.bind_ok.2 ⟨_, _, h m hm, rfl⟩⟩
  | step h _ ih =>
    obtain ⟨n, h⟩ := of_runs h
    obtain ⟨n', ih⟩ := ih
    refine ⟨max n n', fun m hm k => P.bind_ok.2 ⟨_, _, h m (by omega), ?_⟩⟩
    have := ih m (by omega) (k + 1)
    rw [Nat.add_right_comm] at this
    exact this

theorem emit_ok {m : P Unit} {es : List Event} (hm : ∀ s, m s = .ok () (emit s es)) :
    m s = .ok () s' ↔ s' = emit s es := by
  rw [hm]
  simp [eq_comm]

theorem event_emit (ev : Event) (s : PState) : event ev s = .ok () (emit s [ev]) := rfl

theorem emit_emit (s : PState) (a b : List Event) : emit (emit s a) b = emit s (a ++ b) := by
  unfold emit
  by_cases h : s.predicate = true <;> simp [h]

theorem emit_nil (s : PState) : emit s [] = s := by
  unfold emit
  split <;> simp

theorem startError_emit (s : PState) : startError s = .ok () (emit s [.start ERROR none]) := rfl

theorem runs_and {parts : List Nat} {commit : Option Nat}
    (he : env.grammar.rules[e]? = some (.and parts commit)) :
    Runs env e pos s r s' ↔ ∃ k q s1, InTurn env parts pos (ticked s) k q s1 ∧
      (k < commit.getD parts.length ∧ r = none ∧ s' = rewind s1 s ∨
       commit.getD parts.length ≤ k ∧ r = some q ∧
        s' = if k < parts.length then emit s1 (errorNode []) else s1) := by
  rw [runs_iff]
  constructor
  · rintro ⟨n, s1, h, h'⟩
    rw [inner_of he] at h
    simp only [parseAnd] at h
    obtain ⟨⟨k, q⟩, s2, h1, h⟩ := P.bind_ok.1 h
    obtain ⟨d, rfl, hd⟩ := inTurn_of h1
    rw [Nat.zero_add] at h
    refine ⟨d, q, s2, hd, ?_⟩
    dsimp only at h
    split at h
    · obtain ⟨rfl, rfl⟩ := P.pure_ok.1 h
      exact Or.inl ⟨‹_›, rfl, by simpa using h'⟩
    · obtain ⟨_, s3, h3, h⟩ := P.bind_ok.1 h
      obtain ⟨rfl, rfl⟩ := P.pure_ok.1 h
      refine Or.inr ⟨by omega, rfl, ?_⟩
      rw [if_neg (by simp)] at h'
      subst h'
      rcases cond_ok h3 with ⟨hc, h3⟩ | ⟨hc, rfl⟩
      · rw [if_pos (by simpa using hc)]
        obtain ⟨_, s4, h4, h5⟩ := P.bind_ok.1 h3
        rw [startError_emit] at h4
        cases h4
        cases (event_emit _ _).symm.trans h5
        rw [emit_emit]
        rfl
      · rw [if_neg (by simpa using hc)]
  · rintro ⟨k, q, s1, h, h'⟩
    obtain ⟨n, h⟩ := of_inTurn h
    have h := h n (Nat.le_refl _) 0
    rw [Nat.zero_add] at h
    rcases h' with ⟨h1, rfl, rfl⟩ | ⟨h1, rfl, rfl⟩
    · refine ⟨n, s1, ?_, by simp⟩
      rw [inner_of he]
      simp only [parseAnd]
      refine P.bind_ok.2 ⟨_, _, h, ?_⟩
      simp only [if_pos h1]
      rfl
    · refine ⟨n, _, ?_, by simp; rfl⟩
      rw [inner_of he]
      simp only [parseAnd]
      refine P.bind_ok.2 ⟨_, _, h, ?_⟩
      simp only [if_neg (by omega : ¬ k < commit.getD parts.length)]
      by_cases hk : k < parts.length
      · simp only [hk, decide_true, if_true]
        refine P.bind_ok.2 ⟨(), _, ?_, P.pure_ok.2 ⟨rfl, rfl⟩⟩
        refine P.bind_ok.2 ⟨_, _, startError_emit _, ?_⟩
        rw [show finish = event .fin from rfl, event_emit, emit_emit]
        rfl
      · simp only [hk, decide_false, if_false]
        rfl

/-! ## Optional, repetition, lookahead -/

theorem runs_opt {body : Nat} (he : env.grammar.rules[e]? = some (.opt body)) :
    Runs env e pos s r s' ↔ ∃ rb, Runs env body pos (ticked s) rb s' ∧ r = some (rb.getD pos) := by
  rw [runs_iff]
  constructor
  · rintro ⟨n, s1, h, h'⟩
    rw [inner_of he] at h
    simp only [parseOpt] at h
    obtain ⟨rb, s2, h1, h⟩ := P.bind_ok.1 h
    obtain ⟨rfl, rfl⟩ := P.pure_ok.1 h
    rw [if_neg (by simp)] at h'
    subst h'
    exact ⟨rb, ⟨n, h1⟩, rfl⟩
  · rintro ⟨rb, ⟨n, h1⟩, rfl⟩
    refine ⟨n, s', ?_, by simp⟩
    rw [inner_of he]
    exact P.bind_ok.2 ⟨_, _, h1, rfl⟩

theorem repeats_of {n m body : Nat} (h : repLoop (parseExpr env n) body m pos s = .ok r s') :
    ∃ q, r = some q ∧ Repeats env body pos s q s' := by
  induction m generalizing pos s with
  | zero => exact (P.timeout_ok.1 h).elim
  | succ m ih =>
    unfold repLoop at h
    obtain ⟨r1, s1, h1, h⟩ := P.bind_ok.1 h
    cases r1 with
    | some q =>
      obtain ⟨q', rfl, hq⟩ := ih h
      exact ⟨q', rfl, .step ⟨n, h1⟩ hq⟩
    | none =>
      obtain ⟨rfl, rfl⟩ := P.pure_ok.1 h
      exact ⟨pos, rfl, .stop ⟨n, h1⟩⟩

theorem of_repeats {body : Nat} {q : Pos} (h : Repeats env body pos s q s') :
    ∃ n, ∀ m, n ≤ m → ∀ l, n ≤ l → repLoop (parseExpr env m) body l pos s = .ok (some q) s' := by
  induction h with
  | stop h =>
    obtain ⟨n, h⟩ := of_runs h
    refine ⟨n + 1, fun m hm l hl => ?_⟩
    obtain ⟨l, rfl⟩ : ∃ k, l = k + 1 := ⟨l - 1, by omega⟩
    exact P.bind_ok.2 ⟨_, _, h m (by omega), rfl⟩
  | step h _ ih =>
    obtain ⟨n, h⟩ := of_runs h
    obtain ⟨n', ih⟩ := ih
    refine ⟨max n n' + 1, fun m hm l hl => ?_⟩
    obtain ⟨l, rfl⟩ : ∃ k, l = k + 1 := ⟨l - 1, by omega⟩
    exact P.bind_ok.2 ⟨_, _, h m (by omega), ih m (by omega) l (by omega)⟩

theorem runs_rep {body : Nat} (he : env.grammar.rules[e]? = some (.rep body)) :
    Runs env e pos s r s' ↔ ∃ q, r = some q ∧ Repeats env body pos (ticked s) q s' := by
  rw [runs_iff]
  constructor
  · rintro ⟨n, s1, h, h'⟩
    rw [inner_of he] at h
    obtain ⟨q, rfl, hq⟩ := repeats_of h
    rw [if_neg (by simp)] at h'
    subst h'
    exact ⟨q, rfl, hq⟩
  · rintro ⟨q, rfl, hq⟩
    obtain ⟨n, h⟩ := of_repeats hq
    exact ⟨n, s', by rw [inner_of he]; exact h n (Nat.le_refl _) n (Nat.le_refl _), by simp⟩

theorem runs_not {body : Nat} (he : env.grammar.rules[e]? = some (.not body)) :
    Runs env e pos s r s' ↔ ∃ rb s1, Looks env body pos (ticked s) rb s1 ∧
      (rb = none ∧ r = some pos ∧ s' = s1 ∨ rb ≠ none ∧ r = none ∧ s' = rewind s1 s) := by
  rw [runs_iff]
  constructor
  · rintro ⟨n, s1, h, h'⟩
    rw [inner_of he] at h
    simp only [parseNot] at h
    obtain ⟨rb, s2, h1, h⟩ := P.bind_ok.1 h
    cases rb with
    | none =>
      obtain ⟨rfl, rfl⟩ := P.pure_ok.1 h
      exact ⟨none, _, looks_of h1, Or.inl ⟨rfl, rfl, by simpa using h'⟩⟩
    | some q =>
      obtain ⟨rfl, rfl⟩ := P.pure_ok.1 h
      exact ⟨some q, _, looks_of h1, Or.inr ⟨by simp, rfl, by simpa using h'⟩⟩
  · rintro ⟨rb, s1, h1, h2⟩
    obtain ⟨n, h1⟩ := of_looks h1
    have h1 := h1 n (Nat.le_refl _)
    refine ⟨n, s1, ?_, ?_⟩
    · rw [inner_of he]
      refine P.bind_ok.2 ⟨_, _, h1, ?_⟩
      rcases h2 with ⟨rfl, rfl, _⟩ | ⟨h, rfl, _⟩
      · rfl
      · cases rb with
        | none => exact absurd rfl h
        | some q => rfl
    · rcases h2 with ⟨rfl, rfl, rfl⟩ | ⟨h, rfl, rfl⟩ <;> simp

theorem runs_eof (he : env.grammar.rules[e]? = some .eof) :
    Runs env e pos s r s' ↔ s' = ticked s ∧ r = if pos.cur = pos.stop then some pos else none := by
  rw [runs_iff]
  constructor
  · rintro ⟨n, s1, h, h'⟩
    rw [inner_of he] at h
    obtain ⟨rfl, rfl⟩ := P.pure_ok.1 h
    refine ⟨?_, by simp [Pos.isEmpty]⟩
    rw [h']
    split <;> rfl
  · rintro ⟨rfl, rfl⟩
    refine ⟨0, ticked s, ?_, ?_⟩
    · rw [inner_of he]
      refine P.pure_ok.2 ⟨?_, rfl⟩
      simp [Pos.isEmpty]
    · split <;> rfl

/-! ## Tokens -/

theorem bump_ok {r : Option (NodeType × Pos)} : bump env pos s = .ok r s' ↔
    (pos.cur = pos.stop ∧ r = none ∧ s' = s ∨
      ∃ t, pos.cur ≠ pos.stop ∧ sigTy env pos.cur = some t ∧ r = some (t, pos.next) ∧
        s' = emit s [.token t 1]) := by
  unfold bump
  by_cases he : pos.cur = pos.stop
  · rw [if_pos (by simpa [Pos.isEmpty] using he)]
    simp [P.pure_ok, he, eq_comm]
  · rw [if_neg (by simpa [Pos.isEmpty] using he)]
    constructor
    · intro h
      obtain ⟨t, s1, h1, h⟩ := P.bind_ok.1 h
      obtain ⟨ht, rfl⟩ := P.lift_ok.1 h1
      obtain ⟨_, s2, h2, h⟩ := P.bind_ok.1 h
      obtain ⟨rfl, rfl⟩ := P.pure_ok.1 h
      cases (event_emit _ _).symm.trans h2
      refine Or.inr ⟨t.ty, he, ?_, rfl, rfl⟩
      show (sigToken env pos.cur).map (·.ty) = _
      rw [show sigToken env pos.cur = some t from ht]
      rfl
    · rintro (⟨h, _⟩ | ⟨t, _, h, rfl, rfl⟩)
      · exact absurd h he
      · unfold sigTy at h
        simp only [Option.map_eq_some_iff] at h
        obtain ⟨tk, htk, rfl⟩ := h
        exact P.bind_ok.2 ⟨tk, s, P.lift_ok.2 ⟨htk, rfl⟩, P.bind_ok.2 ⟨(), _, event_emit _ _,
          P.pure_ok.2 ⟨rfl, rfl⟩⟩⟩

theorem rewind_emit (s s0 : PState) (es : List Event) : rewind (emit s es) s0 = rewind s s0 := by
  unfold rewind emit
  split <;> rfl

theorem rewind_ticked (s : PState) : rewind (ticked s) s = ticked s := rfl

theorem runs_token {ty : Nat} (he : env.grammar.rules[e]? = some (.token ty)) :
    Runs env e pos s r s' ↔
      (pos.cur = pos.stop ∧ r = none ∧ s' = ticked s) ∨
      ∃ t t', pos.cur ≠ pos.stop ∧ sigTy env pos.cur = some t ∧ env.grammar.nodeTypes[ty]? = some t' ∧
        (t ≠ t' ∧ r = none ∧ s' = ticked s ∨
          t = t' ∧ r = some pos.next ∧ s' = emit (ticked s) [.token t 1]) := by
  rw [runs_iff]
  constructor
  · rintro ⟨n, s1, h, h'⟩
    rw [inner_of he] at h
    simp only [parseToken] at h
    obtain ⟨rb, s2, h1, h⟩ := P.bind_ok.1 h
    rcases bump_ok.1 h1 with ⟨h2, rfl, rfl⟩ | ⟨t, h2, h3, rfl, rfl⟩
    · obtain ⟨rfl, rfl⟩ := P.pure_ok.1 h
      exact Or.inl ⟨h2, rfl, by simpa [rewind_ticked] using h'⟩
    · obtain ⟨t', s3, h4, h⟩ := P.bind_ok.1 h
      obtain ⟨h5, rfl⟩ := P.lift_ok.1 h4
      refine Or.inr ⟨t, t', h2, h3, h5, ?_⟩
      split at h
      · rename_i hne
        obtain ⟨rfl, rfl⟩ := P.pure_ok.1 h
        exact Or.inl ⟨fun h => hne h.symm, rfl, by simpa [rewind_emit, rewind_ticked] using h'⟩
      · rename_i hne
        obtain ⟨rfl, rfl⟩ := P.pure_ok.1 h
        exact Or.inr ⟨(Decidable.not_not.1 hne).symm, rfl, by simpa using h'⟩
  · intro h
    rcases h with ⟨h1, rfl, rfl⟩ | ⟨t, t', h1, h2, h3, h⟩
    · refine ⟨0, ticked s, ?_, by simp [rewind_ticked]⟩
      rw [inner_of he]
      exact P.bind_ok.2 ⟨none, _, bump_ok.2 (Or.inl ⟨h1, rfl, rfl⟩), rfl⟩
    · refine ⟨0, emit (ticked s) [.token t 1], ?_, ?_⟩
      · rw [inner_of he]
        refine P.bind_ok.2 ⟨some (t, pos.next), _, bump_ok.2 (Or.inr ⟨t, h1, h2, rfl, rfl⟩), ?_⟩
        refine P.bind_ok.2 ⟨t', _, P.lift_ok.2 ⟨h3, rfl⟩, ?_⟩
        rcases h with ⟨h4, rfl, rfl⟩ | ⟨h4, rfl, rfl⟩
        · rw [if_pos (fun h => h4 h.symm)]; rfl
        · rw [if_neg (by simp [h4])]; rfl
      · rcases h with ⟨h4, rfl, rfl⟩ | ⟨h4, rfl, rfl⟩
        · simp [rewind_emit, rewind_ticked]
        · simp

theorem runs_any (he : env.grammar.rules[e]? = some .any) :
    Runs env e pos s r s' ↔
      (pos.cur = pos.stop ∧ r = none ∧ s' = ticked s) ∨
      ∃ t, pos.cur ≠ pos.stop ∧ sigTy env pos.cur = some t ∧ r = some pos.next ∧
        s' = emit (ticked s) [.token t 1] := by
  rw [runs_iff]
  constructor
  · rintro ⟨n, s1, h, h'⟩
    rw [inner_of he] at h
    obtain ⟨rb, s2, h1, h⟩ := P.bind_ok.1 h
    rcases bump_ok.1 h1 with ⟨h2, rfl, rfl⟩ | ⟨t, h2, h3, rfl, rfl⟩
    · obtain ⟨rfl, rfl⟩ := P.pure_ok.1 h
      exact Or.inl ⟨h2, rfl, by simpa [rewind_ticked] using h'⟩
    · obtain ⟨rfl, rfl⟩ := P.pure_ok.1 h
      exact Or.inr ⟨t, h2, h3, rfl, by simpa using h'⟩
  · intro h
    rcases h with ⟨h1, rfl, rfl⟩ | ⟨t, h1, h2, rfl, rfl⟩
    · refine ⟨0, ticked s, ?_, by simp [rewind_ticked]⟩
      rw [inner_of he]
      exact P.bind_ok.2 ⟨none, _, bump_ok.2 (Or.inl ⟨h1, rfl, rfl⟩), rfl⟩
    · refine ⟨0, emit (ticked s) [.token t 1], ?_, by simp⟩
      rw [inner_of he]
      exact P.bind_ok.2 ⟨some (t, pos.next), _, bump_ok.2 (Or.inr ⟨t, h1, h2, rfl, rfl⟩), rfl⟩

/-! ## Layers -/

theorem bumpAllN_ok {n : Nat} (h : bumpAllN env n pos s = .ok () s') :
    ∃ es, Rest env pos es ∧ s' = emit s es := by
  induction n generalizing pos s with
  | zero => exact (P.panic_ok.1 h).elim
  | succ n ih =>
    unfold bumpAllN at h
    obtain ⟨r, s1, h1, h5⟩ := P.bind_ok.1 h
    rcases bump_ok.1 h1 with ⟨h2, rfl, rfl⟩ | ⟨t, h2, h3, rfl, rfl⟩
    · obtain ⟨_, rfl⟩ := P.pure_ok.1 h5
      exact ⟨[], .nil h2, (emit_nil _).symm⟩
    · obtain ⟨es, h4, rfl⟩ := ih h5
      exact ⟨.token t 1 :: es, .cons h2 h3 h4, by rw [emit_emit]; rfl⟩

theorem bumpAllN_of {es : List Event} (h : Rest env pos es) :
    ∀ n, es.length < n → ∀ s, bumpAllN env n pos s = .ok () (emit s es) := by
  induction h with
  | nil h =>
    intro n hn s
    obtain ⟨n, rfl⟩ : ∃ k, n = k + 1 := ⟨n - 1, by omega⟩
    exact P.bind_ok.2 ⟨none, s, bump_ok.2 (Or.inl ⟨h, rfl, rfl⟩), by rw [emit_nil]; rfl⟩
  | cons h1 h2 h3 ih =>
    rename_i t _ _
    intro n hn s
    obtain ⟨n, rfl⟩ : ∃ k, n = k + 1 := ⟨n - 1, by omega⟩
    refine P.bind_ok.2 ⟨_, _, bump_ok.2 (Or.inr ⟨_, h1, h2, rfl, rfl⟩), ?_⟩
    have := ih n (by simpa using hn) (emit s [.token t 1])
    rw [emit_emit] at this
    exact this

theorem sigTy_lt {i : Nat} {t : NodeType} (h : sigTy env i = some t) : i < env.nonWs.length := by
  unfold sigTy sigToken at h
  cases hi : env.nonWs[i]? with
  | none => simp [hi] at h
  | some x => exact (List.getElem?_eq_some_iff.1 hi).1

theorem Rest.length_le {es : List Event} (h : Rest env pos es) :
    es = [] ∨ es.length + pos.cur ≤ env.nonWs.length := by
  induction h with
  | nil => exact Or.inl rfl
  | cons h1 h2 h3 ih =>
    have := sigTy_lt h2
    rcases ih with rfl | ih
    · right; simp; omega
    · right; simp at ih ⊢; omega

theorem bumpAll_of {es : List Event} (h : Rest env pos es) (hne : pos.cur ≠ pos.stop) :
    bumpAll env pos s = .ok () (emit s es) := by
  refine bumpAllN_of h _ ?_ s
  cases h with
  | nil h => exact absurd h hne
  | cons h1 h2 h3 =>
    have := sigTy_lt h2
    rcases Rest.length_le h3 with rfl | h
    · simp; omega
    · simp at h ⊢; omega

theorem Rest.eq_nil {es : List Event} (h : Rest env pos es) : es = [] ↔ pos.cur = pos.stop := by
  cases h with
  | nil h => simp [h]
  | cons h _ _ => simp [h]

theorem runs_layer {l body : Nat} (he : env.grammar.rules[e]? = some (.layer l body)) :
    Runs env e pos s r s' ↔ ∃ rl s1, Looks env l pos (ticked s) rl s1 ∧
      (rl = none ∧ r = none ∧ s' = rewind s1 s ∨
        ∃ rest rb s2 es, rl = some rest ∧ Runs env body ⟨pos.cur, rest.cur⟩ s1 rb s2 ∧
          Rest env (rb.getD ⟨pos.cur, rest.cur⟩) es ∧
          r = some rest ∧ s' = emit s2 (skippedNode es)) := by
  rw [runs_iff]
  constructor
  · rintro ⟨n, s1, h, h'⟩
    rw [inner_of he] at h
    simp only [parseLayer] at h
    obtain ⟨rl, s2, h1, h⟩ := P.bind_ok.1 h
    refine ⟨rl, s2, looks_of h1, ?_⟩
    cases rl with
    | none =>
      obtain ⟨rfl, rfl⟩ := P.pure_ok.1 h
      exact Or.inl ⟨rfl, rfl, by simpa using h'⟩
    | some rest =>
      obtain ⟨rb, s3, h3, h⟩ := P.bind_ok.1 h
      obtain ⟨_, s4, h4, h⟩ := P.bind_ok.1 h
      obtain ⟨rfl, rfl⟩ := P.pure_ok.1 h
      rw [if_neg (by simp)] at h'
      subst h'
      have hcut : cutSuffix pos rest = ⟨pos.cur, rest.cur⟩ := rfl
      rw [hcut] at h3 h4
      rcases cond_ok h4 with ⟨hc, h4⟩ | ⟨hc, rfl⟩
      · obtain ⟨_, s5, h5, h6⟩ := P.bind_ok.1 h4
        cases (startError_emit _).symm.trans h5
        obtain ⟨_, s6, h7, h8⟩ := P.bind_ok.1 h6
        obtain ⟨es, hr, rfl⟩ := bumpAllN_ok h7
        cases (event_emit _ _).symm.trans h8
        refine Or.inr ⟨rest, rb, s3, es, rfl, ⟨n, h3⟩, hr, rfl, ?_⟩
        have hes : es ≠ [] := by
          rw [Ne, Rest.eq_nil hr]
          simpa [Pos.isEmpty] using hc
        rw [emit_emit, emit_emit, skippedNode, if_neg hes, errorNode]
        rfl
      · refine Or.inr ⟨rest, rb, _, [], rfl, ⟨n, h3⟩, .nil (by simpa [Pos.isEmpty] using hc), rfl, ?_⟩
        rw [skippedNode, if_pos rfl, emit_nil]
  · rintro ⟨rl, s1, h1, h2⟩
    obtain ⟨n, h1⟩ := of_looks h1
    rcases h2 with ⟨rfl, rfl, rfl⟩ | ⟨rest, rb, s2, es, rfl, h3, h4, rfl, rfl⟩
    · refine ⟨n, s1, ?_, by simp⟩
      rw [inner_of he]
      exact P.bind_ok.2 ⟨_, _, h1 n (Nat.le_refl _), rfl⟩
    · obtain ⟨n', h3⟩ := of_runs h3
      refine ⟨max n n', _, ?_, by simp; rfl⟩
      rw [inner_of he]
      refine P.bind_ok.2 ⟨_, _, h1 _ (by omega), P.bind_ok.2 ⟨_, _, h3 _ (by omega), ?_⟩⟩
      refine P.bind_ok.2 ⟨(), emit s2 (skippedNode es), ?_, P.pure_ok.2 ⟨rfl, rfl⟩⟩
      rw [show cutSuffix pos rest = ⟨pos.cur, rest.cur⟩ from rfl]
      by_cases hes : es = []
      · have := (Rest.eq_nil h4).1 hes
        rw [hes, skippedNode, if_pos rfl, emit_nil]
        simp [P.cond, Pos.isEmpty, this]
        rfl
      · have hne : ¬ _ := mt (Rest.eq_nil h4).2 hes
        rw [skippedNode, if_neg hes]
        have hc : (!(rb.getD ⟨pos.cur, rest.cur⟩).isEmpty) = true := by
          simpa [Pos.isEmpty] using hne
        rw [hc]
        refine P.bind_ok.2 ⟨(), _, startError_emit _, P.bind_ok.2 ⟨(), _, bumpAll_of h4 hne, ?_⟩⟩
        rw [show finish = event .fin from rfl, event_emit, emit_emit, emit_emit]
        rfl

/-! ## Skipping -/

theorem attempt_of {n first body : Nat}
    (h : withSkipTry (parseExpr env n) pos first body s = .ok r s') :
    Attempt env first body pos s r s' := by
  unfold withSkipTry at h
  obtain ⟨rl, s1, h1, h⟩ := P.bind_ok.1 h
  cases rl with
  | none =>
    obtain ⟨rfl, rfl⟩ := P.pure_ok.1 h
    exact Or.inl ⟨looks_of h1, rfl⟩
  | some q => exact Or.inr ⟨q, s1, looks_of h1, n, h⟩

theorem of_attempt {first body : Nat} (h : Attempt env first body pos s r s') :
    ∃ n, ∀ m, n ≤ m → withSkipTry (parseExpr env m) pos first body s = .ok r s' := by
  rcases h with ⟨h, rfl⟩ | ⟨q, s1, h1, h2⟩
  · obtain ⟨n, h⟩ := of_looks h
    exact ⟨n, fun m hm => P.bind_ok.2 ⟨_, _, h m hm, rfl⟩⟩
  · obtain ⟨n, h1⟩ := of_looks h1
    obtain ⟨n', h2⟩ := of_runs h2
    exact ⟨max n n', fun m hm => P.bind_ok.2 ⟨_, _, h1 m (by omega), h2 m (by omega)⟩⟩

theorem adv_nil {s s' : PState} (h : Adv s s' []) : s'.events = s.events := by
  have := h.events
  simpa [app] using this

theorem looks_adv (hc : env.cache = none) (h : Looks env e pos s r s') : Adv s s' [] := by
  obtain ⟨n, h⟩ := of_looks h
  exact (parseExprPred_adv (parseExpr_reads hc) (h n (Nat.le_refl _))).1

theorem attempt_none (hc : env.cache = none) {first body : Nat}
    (h : Attempt env first body pos s none s') :
    s'.events = s.events ∧ s'.predicate = s.predicate := by
  rcases h with ⟨h, _⟩ | ⟨q, s1, h1, h2⟩
  · exact ⟨adv_nil (looks_adv hc h), (looks_adv hc h).predicate⟩
  · refine ⟨h2.fail_events.trans (adv_nil (looks_adv hc h1)), ?_⟩
    obtain ⟨n, h2⟩ := h2
    have := (parseExpr_reads hc _ _ _ _ _ h2).1 rfl
    exact this.predicate.trans (looks_adv hc h1).predicate

/-- The state before an attempt: an ERROR node is open if tokens were skipped. -/
def SkipState (E es : List Event) (skipped : Bool) (s : PState) : Prop :=
  skipped = !es.isEmpty ∧ (s.predicate = false → s.events = E ++ if skipped then .start ERROR none :: es else [])

theorem SkipState.closed {E es : List Event} {skipped : Bool} (h : SkipState E es skipped s) :
    ∃ s1, P.cond skipped finish s = .ok () s1 ∧
      s1 = (if s.predicate then s else { s with events := E ++ skippedNode es }) := by
  obtain ⟨rfl, h⟩ := h
  cases es with
  | nil =>
    refine ⟨s, rfl, ?_⟩
    split
    · rfl
    · rename_i hp
      have := h (by simpa using hp)
      simp [skippedNode] at this ⊢
      rw [← this]
  | cons a es =>
    refine ⟨_, event_emit _ _, ?_⟩
    unfold emit
    split
    · rfl
    · rename_i hp
      have := h (by simpa using hp)
      simp at this
      simp [skippedNode, errorNode, this]

theorem skipOpen_ok {E es : List Event} {skipped : Bool} (hk : skipped = !es.isEmpty)
    (h : s.predicate = false → s.events = E ++ skippedNode es) :
    skipOpen skipped s = .ok () (if s.predicate then s
      else { s with events := E ++ .start ERROR none :: es }) := by
  subst hk
  unfold skipOpen
  cases es with
  | nil =>
    rw [if_neg (by simp), startError_emit]
    unfold emit
    split
    · rfl
    · rename_i hp
      have := h (by simpa using hp)
      simp [skippedNode] at this
      simp [this]
  | cons a es =>
    rw [if_pos (by simp)]
    unfold reopen
    split
    · rfl
    · rename_i hp
      have := h (by simpa using hp)
      simp [skippedNode, errorNode] at this
      rw [this, show E ++ Event.start ERROR none :: a :: (es ++ [Event.fin])
        = (E ++ Event.start ERROR none :: a :: es) ++ [Event.fin] by simp,
        List.getLast?_concat, List.dropLast_concat]

theorem skipTo_of (hc : env.cache = none) {n m first body : Nat} {E es : List Event} {skipped : Bool}
    (hs : SkipState E es skipped s)
    (h : withSkipLoop env (parseExpr env n) first body m skipped pos s = .ok r s') :
    ∃ s1, SkipTo env first body E es pos
        (if s.predicate then s else { s with events := E ++ skippedNode es }) r s1 ∧
      (r ≠ none → s' = s1) ∧ (r = none → ∀ s0, rewind s' s0 = rewind s1 s0) := by
  induction m generalizing s pos es skipped with
  | zero => exact (P.timeout_ok.1 h).elim
  | succ m ih =>
    unfold withSkipLoop at h
    obtain ⟨_, s1, h1, h⟩ := P.bind_ok.1 h
    obtain ⟨_, h2, hs1⟩ := hs.closed
    cases h1.symm.trans h2
    rw [← hs1]
    obtain ⟨ra, s2, h3, h⟩ := P.bind_ok.1 h
    have ha := attempt_of h3
    cases ra with
    | some q =>
      obtain ⟨rfl, rfl⟩ := P.pure_ok.1 h
      exact ⟨s2, .found ha, fun _ => rfl, by simp⟩
    | none =>
      obtain ⟨hev, hpr⟩ := attempt_none hc ha
      have hp1 : s1.predicate = s.predicate := by rw [hs1]; split <;> rfl
      have hev2 : s2.predicate = false → s2.events = E ++ skippedNode es := by
        intro hp
        rw [hev, hs1, if_neg (by rw [← hp1, ← hpr, hp]; simp)]
      obtain ⟨_, s3, h4, h⟩ := P.bind_ok.1 h
      rw [skipOpen_ok hs.1 hev2] at h4
      cases h4
      obtain ⟨rb, s4, h5, h⟩ := P.bind_ok.1 h
      rcases bump_ok.1 h5 with ⟨h6, rfl, rfl⟩ | ⟨t, h6, h7, rfl, rfl⟩
      · obtain ⟨rfl, rfl⟩ := P.pure_ok.1 h
        refine ⟨s2, .exhausted ha h6, by simp, fun _ s0 => ?_⟩
        split <;> rfl
      · obtain ⟨sf, hf, hf1, hf2⟩ := ih (es := es ++ [.token t 1]) (by
          refine ⟨by simp, ?_⟩
          intro hp
          unfold emit at hp ⊢
          by_cases hp2 : s2.predicate = true
          · simp [hp2] at hp
          · simp [hp2]) h
        refine ⟨sf, .skip ha h6 h7 ?_, hf1, hf2⟩
        have : ∀ a b, a = b → SkipTo env first body E (es ++ [.token t 1]) pos.next a r sf →
            SkipTo env first body E (es ++ [.token t 1]) pos.next b r sf := by
          rintro a b rfl h; exact h
        refine this _ _ ?_ hf
        unfold emit skippedNode
        by_cases hp2 : s2.predicate = true
        · simp [hp2]
        · simp [hp2]

theorem of_skipTo (hc : env.cache = none) {first body : Nat} {E es : List Event} {s0 : PState}
    (h : SkipTo env first body E es pos s0 r s')
    {skipped : Bool} (hs : SkipState E es skipped s)
    (h0 : s0 = if s.predicate then s else { s with events := E ++ skippedNode es }) :
    ∃ n, ∀ m, n ≤ m → ∀ l, n ≤ l → ∃ s1,
      withSkipLoop env (parseExpr env m) first body l skipped pos s = .ok r s1 ∧
      (r ≠ none → s' = s1) ∧ (r = none → ∀ s0, rewind s' s0 = rewind s1 s0) := by
  induction h generalizing s skipped with
  | found ha =>
    obtain ⟨n, ha⟩ := of_attempt ha
    refine ⟨n + 1, fun m hm l hl => ?_⟩
    obtain ⟨l, rfl⟩ : ∃ k, l = k + 1 := ⟨l - 1, by omega⟩
    obtain ⟨_, h2, hs1⟩ := hs.closed
    subst h0
    rw [← hs1] at ha
    exact ⟨_, P.bind_ok.2 ⟨(), _, h2, P.bind_ok.2 ⟨_, _, ha m (by omega), rfl⟩⟩, fun _ => rfl, by simp⟩
  | exhausted ha h6 =>
    rename_i s2 es
    obtain ⟨_, h2, hs1⟩ := hs.closed
    subst h0
    obtain ⟨hev, hpr⟩ := attempt_none hc ha
    have hev2 : s2.predicate = false → s2.events = E ++ skippedNode es := by
      intro hp
      rw [hev]
      split
      · rename_i hp'
        rw [hpr] at hp
        simp [hp'] at hp
      · rfl
    obtain ⟨n, ha⟩ := of_attempt ha
    refine ⟨n + 1, fun m hm l hl => ?_⟩
    obtain ⟨l, rfl⟩ : ∃ k, l = k + 1 := ⟨l - 1, by omega⟩
    rw [← hs1] at ha
    refine ⟨_, P.bind_ok.2 ⟨(), _, h2, P.bind_ok.2 ⟨_, _, ha m (by omega),
      P.bind_ok.2 ⟨(), _, skipOpen_ok hs.1 hev2, P.bind_ok.2 ⟨none, _, bump_ok.2 (Or.inl ⟨h6, rfl, rfl⟩), rfl⟩⟩⟩⟩,
      by simp, fun _ s0 => ?_⟩
    split <;> rfl
  | skip ha h6 h7 _ ih =>
    rename_i s2 t es _ _ _
    obtain ⟨_, h2, hs1⟩ := hs.closed
    subst h0
    obtain ⟨hev, hpr⟩ := attempt_none hc ha
    have hev2 : s2.predicate = false → s2.events = E ++ skippedNode es := by
      intro hp
      rw [hev]
      split
      · rename_i hp'
        rw [hpr] at hp
        simp [hp'] at hp
      · rfl
    obtain ⟨n, ha⟩ := of_attempt ha
    have hopen := skipOpen_ok hs.1 hev2
    obtain ⟨n', ih⟩ := ih (skipped := true) (s := emit (if s2.predicate then s2
      else { s2 with events := E ++ .start ERROR none :: es }) [.token t 1]) (by
        refine ⟨by simp, ?_⟩
        intro hp
        unfold emit at hp ⊢
        by_cases hp2 : s2.predicate = true
        · simp [hp2] at hp
        · simp [hp2]) (by
        unfold emit skippedNode
        by_cases hp2 : s2.predicate = true
        · simp [hp2]
        · simp [hp2])
    refine ⟨max n n' + 1, fun m hm l hl => ?_⟩
    obtain ⟨l, rfl⟩ : ∃ k, l = k + 1 := ⟨l - 1, by omega⟩
    rw [← hs1] at ha
    obtain ⟨sf, hf, hf1, hf2⟩ := ih m (by omega) l (by omega)
    exact ⟨sf, P.bind_ok.2 ⟨(), _, h2, P.bind_ok.2 ⟨_, _, ha m (by omega),
      P.bind_ok.2 ⟨(), _, hopen, P.bind_ok.2 ⟨_, _, bump_ok.2 (Or.inr ⟨t, h6, h7, rfl, rfl⟩), hf⟩⟩⟩⟩,
      hf1, hf2⟩

theorem runs_withSkip (hc : env.cache = none) {first body : Nat}
    (he : env.grammar.rules[e]? = some (.withSkip first body)) :
    Runs env e pos s r s' ↔ ∃ s1, SkipTo env first body s.events [] pos (ticked s) r s1 ∧
      s' = if r = none then rewind s1 s else s1 := by
  have h0 : SkipState s.events [] false (ticked s) := ⟨rfl, fun _ => by simp [ticked]⟩
  have h1 : ticked s = if (ticked s).predicate then ticked s
      else { ticked s with events := s.events ++ skippedNode [] } := by
    split
    · rfl
    · simp [skippedNode, ticked]
  rw [runs_iff]
  constructor
  · rintro ⟨n, s1, h, h'⟩
    rw [inner_of he] at h
    obtain ⟨sf, hf, hf1, hf2⟩ := skipTo_of hc h0 h
    rw [← h1] at hf
    refine ⟨sf, hf, ?_⟩
    by_cases hr : r = none
    · rw [if_pos hr] at h' ⊢
      rw [h', hf2 hr]
    · rw [if_neg hr] at h' ⊢
      rw [h', hf1 hr]
  · rintro ⟨s1, h, h'⟩
    obtain ⟨n, h⟩ := of_skipTo hc h h0 h1
    obtain ⟨sf, hf, hf1, hf2⟩ := h n (Nat.le_refl _) n (Nat.le_refl _)
    refine ⟨n, sf, by rw [inner_of he]; exact hf, ?_⟩
    by_cases hr : r = none
    · rw [if_pos hr] at h' ⊢
      rw [h', hf2 hr]
    · rw [if_neg hr] at h' ⊢
      rw [h', hf1 hr]

/-! ## Tokens selected by text -/

theorem sigToken_of (hE : EnvOk env) {i : Nat} (hi : i < env.nonWs.length) :
    ∃ off k t, env.nonWs[i]? = some (off, k) ∧ env.tokens[k]? = some t ∧ sigToken env i = some t ∧
      off ≤ env.text.length := by
  obtain ⟨h1, h2⟩ := hE _ (List.getElem_mem hi)
  refine ⟨env.nonWs[i].1, env.nonWs[i].2, env.tokens[env.nonWs[i].2], ?_, ?_, ?_, h1⟩
  · rw [List.getElem?_eq_getElem hi]
  · rw [List.getElem?_eq_getElem h2]
  · unfold sigToken
    rw [List.getElem?_eq_getElem hi]
    simp [h2]

theorem byTextLoop_spec (hE : EnvOk env) {rest : List (Nat × Nat)} {l n : Nat}
    (hrest : rest = env.nonWs.drop pos.cur) (hp : PosOk env pos) :
    (∃ m, pos.cur + m ≤ pos.stop ∧ sigLen env pos.cur m = some l ∧
      (∀ m', m' < m → sigLen env pos.cur m' ≠ some l) ∧
      byTextLoop env rest l n pos s = .ok (some (n + m, ⟨pos.cur + m, pos.stop⟩)) s) ∨
    ((∀ m, pos.cur + m ≤ pos.stop → sigLen env pos.cur m ≠ some l) ∧
      byTextLoop env rest l n pos s = .ok none s) := by
  obtain ⟨cur, stop⟩ := pos
  obtain ⟨hp1, hp2⟩ := hp
  simp only at *
  induction rest generalizing l n cur with
  | nil =>
    have hcur : env.nonWs.length ≤ cur := by
      have := congrArg List.length hrest
      simp at this; omega
    have hes : cur = stop := by omega
    unfold byTextLoop
    by_cases hl : l = 0
    · left
      refine ⟨0, by omega, by simp [sigLen, hl], by simp, ?_⟩
      rw [if_pos hl]
      rfl
    · right
      refine ⟨fun m hm => ?_, ?_⟩
      · obtain rfl : m = 0 := by omega
        simp [sigLen]
        omega
      · rw [if_neg hl, if_pos (by simp [Pos.isEmpty, hes])]
        rfl
  | cons x rest ih =>
    unfold byTextLoop
    by_cases hl : l = 0
    · left
      refine ⟨0, by omega, by simp [sigLen, hl], by simp, ?_⟩
      rw [if_pos hl]
      rfl
    · rw [if_neg hl]
      by_cases hes : cur = stop
      · right
        refine ⟨fun m hm => ?_, ?_⟩
        · obtain rfl : m = 0 := by omega
          simp [sigLen]
          omega
        · rw [if_pos (by simp [Pos.isEmpty, hes])]
          rfl
      · rw [if_neg (by simpa [Pos.isEmpty] using hes)]
        obtain ⟨off, k, t, h1, h2, h3, _⟩ := sigToken_of hE (i := cur) (by omega)
        have hx : env.nonWs[cur]? = some x := by
          rw [← List.head?_drop, ← hrest]; rfl
        have hrest' : rest = env.nonWs.drop (cur + 1) := by
          rw [← List.tail_drop, ← hrest]; rfl
        cases hx.symm.trans h1
        simp only [h2, P.lift]
        have hsucc : ∀ m l', sigLen env cur (m + 1) = some l' ↔
            ∃ l'', sigLen env (cur + 1) m = some l'' ∧ l' = t.len + l'' := by
          intro m l'
          simp only [sigLen, h3, Option.bind_eq_bind, Option.bind_some, Option.bind_eq_some_iff,
            Option.some.injEq, eq_comm (a := l')]
        by_cases hlt : l < t.len
        · right
          refine ⟨fun m hm => ?_, ?_⟩
          · cases m with
            | zero => simp [sigLen]; omega
            | succ m =>
              rw [Ne, hsucc]
              rintro ⟨l'', _, h⟩
              omega
          · show (if l < t.len then pure none else _ : P _) s = _
            rw [if_pos hlt]
            rfl
        · have hgo : ∀ r, byTextLoop env rest (l - t.len) (n + 1) ⟨cur + 1, stop⟩ s = r →
              (P.bind (pure t) fun t => if l < t.len then pure none
                else byTextLoop env rest (l - t.len) (n + 1) (Pos.next ⟨cur, stop⟩)) s = r := by
            rintro r rfl
            show (if l < t.len then pure none else _ : P _) s = _
            rw [if_neg hlt]
            rfl
          rcases ih (l := l - t.len) (n := n + 1) (cur + 1) hrest' (by omega) with
            ⟨m, m1, m2, m3, m4⟩ | ⟨m1, m2⟩
          · left
            refine ⟨m + 1, by omega, (hsucc _ _).2 ⟨_, m2, by omega⟩, ?_, ?_⟩
            · intro m' hm'
              cases m' with
              | zero => simp [sigLen]; omega
              | succ m' =>
                rw [Ne, hsucc]
                rintro ⟨l'', h4, h5⟩
                refine m3 m' (by omega) ?_
                rw [h4]
                simp
                omega
            · refine hgo _ (m4.trans ?_)
              rw [show n + 1 + m = n + (m + 1) by omega, show cur + 1 + m = cur + (m + 1) by omega]
          · right
            refine ⟨fun m hm => ?_, hgo _ m2⟩
            cases m with
            | zero => simp [sigLen]; omega
            | succ m =>
              rw [Ne, hsucc]
              rintro ⟨l'', h4, h5⟩
              refine m1 m (by omega) ?_
              rw [h4]
              simp
              omega

theorem SpellsFrom.unique {n m : Nat} {w : List Nat} (h : SpellsFrom env pos n w)
    (h' : SpellsFrom env pos m w) : n = m := by
  rcases Nat.lt_trichotomy n m with hlt | rfl | hlt
  · exact absurd h.2.1.2 (h'.2.2.2 n hlt)
  · rfl
  · exact absurd h'.2.1.2 (h.2.2.2 m hlt)

theorem bumpByText_any (hE : EnvOk env) (hp : PosOk env pos) {w : List Nat} {ty : Nat} :
    (∃ n, SpellsFrom env pos n w ∧
      bumpByText env pos w ty s = (do
        let t ← nodeType env ty
        event (.token t n)
        pure (some ⟨pos.cur + n, pos.stop⟩) : P (Option Pos)) s) ∨
    ((∀ n, ¬ SpellsFrom env pos n w) ∧ bumpByText env pos w ty s = .ok none s) := by
  unfold bumpByText
  by_cases he : pos.cur = pos.stop
  · right
    rw [if_pos (by simpa [Pos.isEmpty] using he)]
    exact ⟨fun n h => h.1 he, rfl⟩
  rw [if_neg (by simpa [Pos.isEmpty] using he)]
  obtain ⟨off, k, tk, h1, h2, h3, h4⟩ := sigToken_of hE (i := pos.cur) (by have := hp.1; have := hp.2; omega)
  rw [h1]
  show (∃ n, _ ∧ (if env.text.length < off then P.panic else _ : P _) s = _) ∨ (_ ∧
    (if env.text.length < off then P.panic else _ : P _) s = _)
  rw [if_neg (by omega)]
  by_cases hw : w <+: env.text.drop off
  · rw [if_neg (by simpa using List.isPrefixOf_iff_prefix.2 hw)]
    rcases byTextLoop_spec (s := s) (n := 0) (l := w.length) hE rfl hp with ⟨m, m1, m2, m3, m4⟩ | ⟨m1, m2⟩
    · left
      refine ⟨m, ⟨he, ⟨⟨off, k, h1, hw⟩, m2⟩, m1, m3⟩, ?_⟩
      show P.bind (byTextLoop env (env.nonWs.drop pos.cur) w.length 0 pos) _ s = _
      unfold P.bind
      rw [m4]
      simp only [Nat.zero_add]
      rfl
    · right
      refine ⟨fun n h => m1 n h.2.2.1 h.2.1.2, P.bind_ok.2 ⟨_, _, m2, rfl⟩⟩
  · right
    rw [if_pos (by
      rw [Bool.not_eq_true', ← Bool.not_eq_true, List.isPrefixOf_iff_prefix]
      exact hw)]
    refine ⟨?_, rfl⟩
    rintro n ⟨_, ⟨⟨off', k', h5, h6⟩, _⟩, _⟩
    cases h1.symm.trans h5
    exact hw h6

theorem bumpByText_spec (hE : EnvOk env) (hp : PosOk env pos) {w : List Nat} {ty : Nat}
    {t : NodeType} (ht : env.grammar.nodeTypes[ty]? = some t) :
    (∃ n, SpellsFrom env pos n w ∧
      bumpByText env pos w ty s = .ok (some ⟨pos.cur + n, pos.stop⟩) (emit s [.token t n])) ∨
    ((∀ n, ¬ SpellsFrom env pos n w) ∧ bumpByText env pos w ty s = .ok none s) := by
  rcases bumpByText_any (s := s) (w := w) (ty := ty) hE hp with ⟨n, h1, h2⟩ | h
  · refine Or.inl ⟨n, h1, h2.trans ?_⟩
    exact P.bind_ok.2 ⟨t, s, P.lift_ok.2 ⟨ht, rfl⟩, P.bind_ok.2 ⟨(), _, event_emit _ _, rfl⟩⟩
  · exact Or.inr h

theorem runs_contextual (hE : EnvOk env) (hp : PosOk env pos) {w : List Nat} {ty : Nat} {t : NodeType}
    (he : env.grammar.rules[e]? = some (.contextualToken ty w))
    (ht : env.grammar.nodeTypes[ty]? = some t) :
    Runs env e pos s r s' ↔
      (∃ n, SpellsFrom env pos n w ∧ r = some ⟨pos.cur + n, pos.stop⟩ ∧
        s' = emit (ticked s) [.token t n]) ∨
      (∀ n, ¬ SpellsFrom env pos n w) ∧ r = none ∧ s' = ticked s := by
  rw [runs_iff]
  have hi : ∀ n, parseExprInner env (parseExpr env n) n e pos (ticked s) =
      bumpByText env pos w ty (ticked s) := fun n => inner_of he
  simp only [hi]
  rcases bumpByText_spec (s := ticked s) (w := w) hE hp ht with ⟨m, m1, m2⟩ | ⟨m1, m2⟩
  · rw [m2]
    constructor
    · rintro ⟨_, s1, h, h'⟩
      cases h
      exact Or.inl ⟨m, m1, rfl, by simpa using h'⟩
    · rintro (⟨n, h1, rfl, rfl⟩ | ⟨h, _⟩)
      · obtain rfl := SpellsFrom.unique m1 h1
        exact ⟨0, _, rfl, by simp⟩
      · exact absurd m1 (h _)
  · rw [m2]
    constructor
    · rintro ⟨_, s1, h, h'⟩
      cases h
      exact Or.inr ⟨m1, rfl, by simpa [rewind_ticked] using h'⟩
    · rintro (⟨n, h1, _⟩ | ⟨_, rfl, rfl⟩)
      · exact absurd h1 (m1 _)
      · exact ⟨0, _, rfl, by simp [rewind_ticked]⟩

end Parser

end Fall
