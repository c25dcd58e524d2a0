import Verif.Spec.Syn

/-!
Running parts of the parser; what every part leaves unchanged.
-/

namespace Fall

open Spec

theorem P.bind_ok {m : P β} {f : β → P γ} {s : PState} {c : γ} {s' : PState} :
    (m >>= f) s = .ok c s' ↔ ∃ b s1, m s = .ok b s1 ∧ f b s1 = .ok c s' := by
  show P.bind m f s = _ ↔ _
  unfold P.bind
  cases h : m s with
  | ok b s1 =>
    simp only [Out.ok.injEq]
    constructor
    · intro h; exact ⟨b, s1, ⟨rfl, rfl⟩, h⟩
    · rintro ⟨b', s1', ⟨rfl, rfl⟩, h⟩; exact h
  | panic => simp
  | timeout => simp

theorem P.pure_ok {b c : β} {s s' : PState} : (pure b : P β) s = .ok c s' ↔ b = c ∧ s = s' := by
  show Out.ok b s = _ ↔ _
  simp

theorem P.lift_ok {o : Option β} {c : β} {s s' : PState} :
    P.lift o s = .ok c s' ↔ o = some c ∧ s = s' := by
  cases o with
  | none => simp [P.lift, P.panic]
  | some b => simp [P.lift, P.pure_ok]

theorem P.get_ok {c s s' : PState} : P.get s = .ok c s' ↔ c = s ∧ s = s' := by
  simp [P.get, eq_comm]

theorem P.modify_ok {f : PState → PState} {u : Unit} {s s' : PState} :
    P.modify f s = .ok u s' ↔ s' = f s := by
  simp [P.modify, eq_comm]

theorem P.panic_ok {c : β} {s s' : PState} : (P.panic : P β) s = .ok c s' ↔ False := by
  simp [P.panic]

theorem P.timeout_ok {c : β} {s s' : PState} : (P.timeout : P β) s = .ok c s' ↔ False := by
  simp [P.timeout]

/-- `m` restores contexts, arguments and mode, keeps the first `base` events, and its result
satisfies `Q`. -/
def Keeps (base : Nat) (m : P β) (Q : β → Prop) : Prop :=
  ∀ s b s', base ≤ s.events.length → m s = .ok b s' →
    (s'.contexts = s.contexts ∧ s'.args = s.args ∧ s'.predicate = s.predicate) ∧
    base ≤ s'.events.length ∧ s'.events.take base = s.events.take base ∧ Q b

namespace Keeps

theorem bind {m : P β} {f : β → P γ} {Q : β → Prop} {R : γ → Prop} {base : Nat}
    (hm : Keeps base m Q) (hf : ∀ b, Q b → Keeps base (f b) R) : Keeps base (m >>= f) R := by
  intro s c s' hb h
  obtain ⟨b, s1, h1, h2⟩ := P.bind_ok.1 h
  obtain ⟨⟨a1, a2, a3⟩, a4, a5, a6⟩ := hm s b s1 hb h1
  obtain ⟨⟨b1, b2, b3⟩, b4, b5, b6⟩ := hf b a6 s1 c s' a4 h2
  exact ⟨⟨b1.trans a1, b2.trans a2, b3.trans a3⟩, b4, b5.trans a5, b6⟩

theorem pure {b : β} {Q : β → Prop} {base : Nat} (h : Q b) : Keeps base (Pure.pure b : P β) Q := by
  intro s c s' hb hs
  obtain ⟨rfl, rfl⟩ := P.pure_ok.1 hs
  exact ⟨⟨rfl, rfl, rfl⟩, hb, rfl, h⟩

theorem panic {Q : β → Prop} {base : Nat} : Keeps base (P.panic : P β) Q := by
  intro s c s' hb hs
  exact (P.panic_ok.1 hs).elim

theorem timeout {Q : β → Prop} {base : Nat} : Keeps base (P.timeout : P β) Q := by
  intro s c s' hb hs
  exact (P.timeout_ok.1 hs).elim

theorem lift {o : Option β} {base : Nat} : Keeps base (P.lift o) (fun _ => True) := by
  intro s c s' hb hs
  obtain ⟨_, rfl⟩ := P.lift_ok.1 hs
  exact ⟨⟨rfl, rfl, rfl⟩, hb, rfl, trivial⟩

theorem get {base : Nat} : Keeps base P.get (fun _ => True) := by
  intro s c s' hb hs
  obtain ⟨_, rfl⟩ := P.get_ok.1 hs
  exact ⟨⟨rfl, rfl, rfl⟩, hb, rfl, trivial⟩

theorem modify {f : PState → PState} {base : Nat}
    (hf : ∀ s, (f s).contexts = s.contexts ∧ (f s).args = s.args ∧ (f s).predicate = s.predicate ∧
      (f s).events = s.events) : Keeps base (P.modify f) (fun _ => True) := by
  intro s c s' hb hs
  obtain rfl := P.modify_ok.1 hs
  obtain ⟨h1, h2, h3, h4⟩ := hf s
  rw [h4]
  exact ⟨⟨h1, h2, h3⟩, hb, rfl, trivial⟩

theorem weaken {m : P β} {Q R : β → Prop} {base : Nat} (h : Keeps base m Q) (hQ : ∀ b, Q b → R b) :
    Keeps base m R := by
  intro s c s' hb hs
  obtain ⟨a, b, c', d⟩ := h s c s' hb hs
  exact ⟨a, b, c', hQ _ d⟩

theorem ite {c : Prop} [Decidable c] {m m' : P β} {Q : β → Prop} {base : Nat}
    (h : c → Keeps base m Q) (h' : ¬c → Keeps base m' Q) : Keeps base (if c then m else m') Q := by
  split
  · exact h ‹_›
  · exact h' ‹_›

theorem cond {c : Bool} {m : P Unit} {base : Nat}
    (h : Keeps base m (fun _ => True)) : Keeps base (P.cond c m) (fun _ => True) :=
  Keeps.ite (fun _ => h) (fun _ => Keeps.pure trivial)

theorem setPrev {t : Option NodeType} {base : Nat} :
    Keeps base (P.modify fun s => { s with prev := t }) (fun _ => True) :=
  Keeps.modify fun _ => ⟨rfl, rfl, rfl, rfl⟩

theorem setReplacement {t : Option Nat} {base : Nat} :
    Keeps base (P.modify fun s => { s with replacement := t }) (fun _ => True) :=
  Keeps.modify fun _ => ⟨rfl, rfl, rfl, rfl⟩

end Keeps

namespace Parser

theorem event_keeps {e : Event} {base : Nat} : Keeps base (event e) (fun _ => True) := by
  intro s c s' hb hs
  obtain rfl := P.modify_ok.1 hs
  dsimp only
  split
  · exact ⟨⟨rfl, rfl, rfl⟩, hb, rfl, trivial⟩
  · refine ⟨⟨rfl, rfl, rfl⟩, ?_, ?_, trivial⟩
    · simp; omega
    · exact List.take_append_of_le_length hb

theorem tick_keeps {base : Nat} : Keeps base tick (fun _ => True) :=
  Keeps.modify fun s => ⟨rfl, rfl, rfl, rfl⟩

theorem mark_keeps {base : Nat} : Keeps base mark (fun m => base ≤ m) := by
  intro s c s' hb hs
  obtain ⟨a, s1, h1, h2⟩ := P.bind_ok.1 hs
  obtain ⟨rfl, rfl⟩ := P.get_ok.1 h1
  obtain ⟨rfl, rfl⟩ := P.pure_ok.1 h2
  exact ⟨⟨rfl, rfl, rfl⟩, hb, rfl, hb⟩

theorem startTy_keeps {ty : NodeType} {base : Nat} : Keeps base (startTy ty) (fun m => base ≤ m) :=
  mark_keeps.bind fun _ hm => event_keeps.bind fun _ _ => Keeps.pure hm

theorem start_keeps {env : Env} {ty base : Nat} : Keeps base (start env ty) (fun m => base ≤ m) :=
  Keeps.lift.bind fun _ _ => startTy_keeps

theorem startError_keeps {base : Nat} : Keeps base startError (fun _ => True) :=
  startTy_keeps.bind fun _ _ => Keeps.pure trivial

theorem getFromCache_keeps {env : Env} {e : Nat} {pos : Pos} {base : Nat} :
    Keeps base (getFromCache env e pos) (fun _ => True) := by
  unfold getFromCache
  split
  · exact Keeps.pure trivial
  · refine Keeps.lift.bind fun x _ => ?_
    dsimp only
    split
    · exact Keeps.pure trivial
    · refine Keeps.ite (fun _ => ?_) (fun _ => Keeps.panic)
      refine Keeps.bind (Q := fun _ => True) ?_ fun _ _ => Keeps.pure trivial
      intro s c s' hb hs
      obtain rfl := P.modify_ok.1 hs
      refine ⟨⟨rfl, rfl, rfl⟩, ?_, ?_, trivial⟩
      · simp only [List.length_append]; omega
      · exact List.take_append_of_le_length hb

theorem startCached_keeps {e : Nat} {base : Nat} : Keeps base (startCached e) (fun m => base ≤ m) :=
  mark_keeps.bind fun _ hm => event_keeps.bind fun _ _ => Keeps.pure hm

theorem take_set_le {l : List β} {i : Nat} {b : β} {base : Nat} (h : base ≤ i) :
    (l.set i b).take base = l.take base := by
  rw [List.take_set]
  apply List.set_eq_of_length_le
  simp; omega

theorem finishCached_keeps {m base : Nat} (hm : base ≤ m) :
    Keeps base (finishCached m) (fun _ => True) := by
  intro s c s' hb hs
  unfold finishCached at hs
  split at hs
  · cases hs; exact ⟨⟨rfl, rfl, rfl⟩, hb, rfl, trivial⟩
  · split at hs
    · cases hs
      exact ⟨⟨rfl, rfl, rfl⟩, by simpa using hb, take_set_le hm, trivial⟩
    · cases hs

theorem rollback_keeps {m base : Nat} (hm : base ≤ m) :
    Keeps base (rollback m) (fun _ => True) := by
  intro s c s' hb hs
  unfold rollback at hs
  split at hs
  · cases hs
    refine ⟨⟨rfl, rfl, rfl⟩, ?_, ?_, trivial⟩
    · simp; omega
    · simp [List.take_take, Nat.min_eq_left hm]
  · cases hs

theorem replace_keeps {env : Env} {m ty base : Nat} (hm : base ≤ m) :
    Keeps base (replace env m ty) (fun _ => True) := by
  refine Keeps.lift.bind fun x _ => ?_
  intro s c s' hb hs
  dsimp only at hs
  split at hs
  · cases hs
    exact ⟨⟨rfl, rfl, rfl⟩, by simpa using hb, take_set_le hm, trivial⟩
  · cases hs

theorem forwardParent_keeps {c p base : Nat} (hc : base ≤ c) :
    Keeps base (forwardParent c p) (fun _ => True) := by
  intro s u s' hb hs
  unfold forwardParent at hs
  split at hs
  · split at hs
    · cases hs
      exact ⟨⟨rfl, rfl, rfl⟩, by simpa using hb, take_set_le hc, trivial⟩
    · cases hs
  · cases hs

theorem bump_keeps {env : Env} {pos : Pos} {base : Nat} :
    Keeps base (bump env pos) (fun _ => True) := by
  unfold bump
  refine Keeps.ite (fun _ => Keeps.pure trivial) (fun _ => ?_)
  exact Keeps.lift.bind fun _ _ => event_keeps.bind fun _ _ => Keeps.pure trivial

theorem byTextLoop_keeps {env : Env} {rest : List (Nat × Nat)} {l n : Nat} {pos : Pos} {base : Nat} :
    Keeps base (byTextLoop env rest l n pos) (fun _ => True) := by
  induction rest generalizing l n pos with
  | nil =>
    unfold byTextLoop
    exact Keeps.ite (fun _ => Keeps.pure trivial)
      (fun _ => Keeps.ite (fun _ => Keeps.pure trivial) (fun _ => Keeps.panic))
  | cons x rest ih =>
    unfold byTextLoop
    refine Keeps.ite (fun _ => Keeps.pure trivial)
      (fun _ => Keeps.ite (fun _ => Keeps.pure trivial) (fun _ => ?_))
    exact Keeps.lift.bind fun _ _ => Keeps.ite (fun _ => Keeps.pure trivial) (fun _ => ih)

theorem bumpByText_keeps {env : Env} {pos : Pos} {text : List Nat} {ty base : Nat} :
    Keeps base (bumpByText env pos text ty) (fun _ => True) := by
  unfold bumpByText
  refine Keeps.ite (fun _ => Keeps.pure trivial) (fun _ => ?_)
  refine Keeps.lift.bind fun x _ => ?_
  refine Keeps.ite (fun _ => Keeps.panic) (fun _ => Keeps.ite (fun _ => Keeps.pure trivial)
    (fun _ => ?_))
  refine byTextLoop_keeps.bind fun r _ => ?_
  cases r with
  | none => exact Keeps.pure trivial
  | some r =>
    exact Keeps.lift.bind fun _ _ => event_keeps.bind fun _ _ => Keeps.pure trivial

theorem bumpAllN_keeps {env : Env} {n : Nat} {pos : Pos} {base : Nat} :
    Keeps base (bumpAllN env n pos) (fun _ => True) := by
  induction n generalizing pos with
  | zero => exact Keeps.panic
  | succ n ih =>
    refine bump_keeps.bind fun r _ => ?_
    cases r with
    | none => exact Keeps.pure trivial
    | some r => exact ih

/-- What `parse_expr` keeps. -/
def RecKeeps (rec : Rec) : Prop := ∀ base e pos, Keeps base (rec e pos) (fun _ => True)

variable {env : Env} {rec : Rec} {pos : Pos} {base : Nat}

theorem parseExprPred_keeps (hr : RecKeeps rec) {e : Nat} :
    Keeps base (parseExprPred rec e pos) (fun _ => True) := by
  intro s c s' hb hs
  unfold parseExprPred at hs
  obtain ⟨s0, s1, h1, hs⟩ := P.bind_ok.1 hs
  obtain ⟨rfl, rfl⟩ := P.get_ok.1 h1
  obtain ⟨_, s2, h2, hs⟩ := P.bind_ok.1 hs
  obtain rfl := P.modify_ok.1 h2
  obtain ⟨r, s3, h3, hs⟩ := P.bind_ok.1 hs
  obtain ⟨_, s4, h4, hs⟩ := P.bind_ok.1 hs
  obtain rfl := P.modify_ok.1 h4
  obtain ⟨rfl, rfl⟩ := P.pure_ok.1 hs
  obtain ⟨⟨a1, a2, a3⟩, a4, a5, _⟩ := hr base _ _ _ _ _ (by exact hb) h3
  exact ⟨⟨a1, a2, rfl⟩, a4, a5, trivial⟩

theorem applyReplacement_keeps {m : Nat} {b : Bool} (hm : base ≤ m) :
    Keeps base (applyReplacement env m b) (fun _ => True) := by
  unfold applyReplacement
  refine Keeps.get.bind fun s0 _ => ?_
  split
  · exact Keeps.setReplacement.bind fun _ _ => replace_keeps hm
  · exact Keeps.pure trivial

theorem parsePub_keeps (hr : RecKeeps rec) {ty body : Nat} {b : Bool} :
    Keeps base (parsePub env rec pos ty body b) (fun _ => True) := by
  unfold parsePub
  refine (Keeps.modify fun s => ?_).bind fun _ _ => ?_
  · split <;> exact ⟨rfl, rfl, rfl, rfl⟩
  refine start_keeps.bind fun m hm => ?_
  refine (hr base _ _).bind fun r _ => ?_
  cases r with
  | none => exact Keeps.pure trivial
  | some ts =>
    refine (applyReplacement_keeps hm).bind fun _ _ => event_keeps.bind fun _ _ =>
      Keeps.lift.bind fun _ _ => Keeps.setPrev.bind fun _ _ => Keeps.pure trivial

theorem parsePubReplace_keeps (hr : RecKeeps rec) {ty body : Nat} :
    Keeps base (parsePubReplace rec pos ty body) (fun _ => True) := by
  unfold parsePubReplace
  refine (hr base _ _).bind fun r _ => ?_
  cases r with
  | none => exact Keeps.pure trivial
  | some ts =>
    exact Keeps.setReplacement.bind fun _ _ => Keeps.pure trivial

theorem parseOr_keeps (hr : RecKeeps rec) {os : List Nat} :
    Keeps base (parseOr rec pos os) (fun _ => True) := by
  induction os with
  | nil => exact Keeps.pure trivial
  | cons o os ih =>
    unfold parseOr
    refine (hr base _ _).bind fun r _ => ?_
    cases r with
    | none => exact ih
    | some ts => exact Keeps.pure trivial

theorem andLoop_keeps (hr : RecKeeps rec) {parts : List Nat} {c : Nat} :
    Keeps base (andLoop rec parts c pos) (fun _ => True) := by
  induction parts generalizing c pos with
  | nil => exact Keeps.pure trivial
  | cons o os ih =>
    unfold andLoop
    refine (hr base _ _).bind fun r _ => ?_
    cases r with
    | some ts => exact ih
    | none => exact Keeps.pure trivial

theorem parseAnd_keeps (hr : RecKeeps rec) {parts : List Nat} {c : Option Nat} :
    Keeps base (parseAnd rec pos parts c) (fun _ => True) := by
  unfold parseAnd
  refine (andLoop_keeps hr).bind fun r _ => ?_
  refine Keeps.ite (fun _ => Keeps.pure trivial) (fun _ => ?_)
  exact (Keeps.cond (startError_keeps.bind fun _ _ => event_keeps)).bind fun _ _ =>
    Keeps.pure trivial

theorem parseToken_keeps {ty : Nat} : Keeps base (parseToken env pos ty) (fun _ => True) := by
  unfold parseToken
  refine bump_keeps.bind fun r _ => ?_
  cases r with
  | none => exact Keeps.pure trivial
  | some r =>
    exact Keeps.lift.bind fun _ _ =>
      Keeps.ite (fun _ => Keeps.pure trivial) (fun _ => Keeps.pure trivial)

theorem parseOpt_keeps (hr : RecKeeps rec) {e : Nat} :
    Keeps base (parseOpt rec pos e) (fun _ => True) :=
  (hr base _ _).bind fun _ _ => Keeps.pure trivial

theorem parseNot_keeps (hr : RecKeeps rec) {e : Nat} :
    Keeps base (parseNot rec pos e) (fun _ => True) := by
  refine (parseExprPred_keeps hr).bind fun r _ => ?_
  cases r <;> exact Keeps.pure trivial

theorem parseLayer_keeps (hr : RecKeeps rec) {l e : Nat} :
    Keeps base (parseLayer env rec pos l e) (fun _ => True) := by
  refine (parseExprPred_keeps hr).bind fun r _ => ?_
  cases r with
  | none => exact Keeps.pure trivial
  | some rest =>
    refine (hr base _ _).bind fun r _ => ?_
    exact (Keeps.cond (startError_keeps.bind fun _ _ => bumpAllN_keeps.bind fun _ _ =>
      event_keeps)).bind fun _ _ => Keeps.pure trivial

theorem repLoop_keeps (hr : RecKeeps rec) {e n : Nat} :
    Keeps base (repLoop rec e n pos) (fun _ => True) := by
  induction n generalizing pos with
  | zero => exact Keeps.timeout
  | succ n ih =>
    refine (hr base _ _).bind fun r _ => ?_
    cases r with
    | none => exact Keeps.pure trivial
    | some ts => exact ih

theorem withSkipTry_keeps (hr : RecKeeps rec) {f e : Nat} :
    Keeps base (withSkipTry rec pos f e) (fun _ => True) := by
  refine (parseExprPred_keeps hr).bind fun r _ => ?_
  cases r with
  | none => exact Keeps.pure trivial
  | some ts => exact hr base _ _

/-- `reopen` removes an event, so a base below the number of events is needed. -/
theorem reopen_keeps : ∀ s b s', base < s.events.length → reopen s = .ok b s' →
    (s'.contexts = s.contexts ∧ s'.args = s.args ∧ s'.predicate = s.predicate) ∧
    base ≤ s'.events.length ∧ s'.events.take base = s.events.take base := by
  intro s b s' hb hs
  unfold reopen at hs
  split at hs
  · cases hs; exact ⟨⟨rfl, rfl, rfl⟩, by omega, rfl⟩
  · split at hs
    · cases hs
      refine ⟨⟨rfl, rfl, rfl⟩, ?_, ?_⟩
      · simp; omega
      · simp only
        rw [List.dropLast_eq_take, List.take_take, Nat.min_eq_left (by omega)]
    · cases hs

theorem withSkipLoop_keeps (hr : RecKeeps rec) {f e n : Nat} {b : Bool} :
    Keeps base (withSkipLoop env rec f e n b pos) (fun _ => True) := by
  induction n generalizing pos b with
  | zero => exact Keeps.timeout
  | succ n ih =>
    have hrest : Keeps base (do
        match ← bump env pos with
        | none => pure none
        | some (_, ts) => withSkipLoop env rec f e n true ts : P (Option Pos)) (fun _ => True) := by
      refine bump_keeps.bind fun r _ => ?_
      cases r with
      | none => exact Keeps.pure trivial
      | some r => exact ih
    unfold withSkipLoop
    cases b with
    | false =>
      refine (Keeps.cond event_keeps).bind fun _ _ => ?_
      refine (withSkipTry_keeps hr).bind fun r _ => ?_
      cases r with
      | some ts => exact Keeps.pure trivial
      | none => exact startError_keeps.bind fun _ _ => hrest
    | true =>
      intro s c s' hb hs
      obtain ⟨_, s1, h1, hs⟩ := P.bind_ok.1 hs
      obtain ⟨r, s2, h2, hs⟩ := P.bind_ok.1 hs
      obtain ⟨⟨a1, a2, a3⟩, a4, a5, _⟩ := event_keeps _ _ _ hb h1
      obtain ⟨⟨b1, b2, b3⟩, b4, b5, _⟩ := withSkipTry_keeps (base := base) hr _ _ _ a4 h2
      cases r with
      | some ts =>
        obtain ⟨rfl, rfl⟩ := P.pure_ok.1 hs
        exact ⟨⟨b1.trans a1, b2.trans a2, b3.trans a3⟩, b4, b5.trans a5, trivial⟩
      | none =>
        obtain ⟨_, s3, h3, hs⟩ := P.bind_ok.1 hs
        have key : (s3.contexts = s2.contexts ∧ s3.args = s2.args ∧ s3.predicate = s2.predicate) ∧
            base ≤ s3.events.length ∧ s3.events.take base = s2.events.take base := by
          by_cases hp : s.predicate = true
          · have hp2 : s2.predicate = true := by rw [b3, a3, hp]
            have : skipOpen true s2 = .ok () s2 := by simp [skipOpen, reopen, hp2]
            rw [this] at h3
            cases h3
            exact ⟨⟨rfl, rfl, rfl⟩, b4, rfl⟩
          · have h1' := P.modify_ok.1 h1
            rw [if_neg hp] at h1'
            have hl : base + 1 ≤ s1.events.length := by rw [h1']; simp; omega
            have := (withSkipTry_keeps (base := base + 1) hr _ _ _ hl h2).2.1
            exact reopen_keeps _ _ _ (by omega) h3
        obtain ⟨⟨c1, c2, c3⟩, c4, c5⟩ := key
        obtain ⟨⟨d1, d2, d3⟩, d4, d5, d6⟩ := hrest _ _ _ c4 hs
        exact ⟨⟨d1.trans (c1.trans (b1.trans a1)), d2.trans (c2.trans (b2.trans a2)),
          d3.trans (c3.trans (b3.trans a3))⟩, d4, d5.trans (c5.trans (b5.trans a5)), trivial⟩

theorem parseWithContext_keeps (hr : RecKeeps rec) {ctx e : Nat} {v : Bool} :
    Keeps base (parseWithContext rec pos ctx e v) (fun _ => True) := by
  intro s c s' hb hs
  unfold parseWithContext at hs
  obtain ⟨s0, s1, h1, hs⟩ := P.bind_ok.1 hs
  obtain ⟨rfl, rfl⟩ := P.get_ok.1 h1
  obtain ⟨old, s2, h2, hs⟩ := P.bind_ok.1 hs
  obtain ⟨ho, rfl⟩ := P.lift_ok.1 h2
  obtain ⟨_, s3, h3, hs⟩ := P.bind_ok.1 hs
  obtain rfl := P.modify_ok.1 h3
  obtain ⟨r, s4, h4, hs⟩ := P.bind_ok.1 hs
  obtain ⟨_, s5, h5, hs⟩ := P.bind_ok.1 hs
  obtain rfl := P.modify_ok.1 h5
  obtain ⟨rfl, rfl⟩ := P.pure_ok.1 hs
  obtain ⟨⟨a1, a2, a3⟩, a4, a5, _⟩ := hr base _ _ _ _ _ (by exact hb) h4
  refine ⟨⟨?_, a2, a3⟩, a4, a5, trivial⟩
  simp only [a1, List.set_set]
  obtain ⟨hlt, hget⟩ := List.getElem?_eq_some_iff.1 ho
  rw [← hget, List.set_getElem_self]

theorem parseIsIn_keeps {ctx : Nat} : Keeps base (parseIsIn pos ctx) (fun _ => True) :=
  Keeps.get.bind fun _ _ => Keeps.lift.bind fun _ _ =>
    Keeps.ite (fun _ => Keeps.pure trivial) (fun _ => Keeps.pure trivial)

theorem resolveArg_state {a b : Nat} {s s' : PState} (h : resolveArg env a s = .ok b s') :
    s' = s := by
  unfold resolveArg at h
  obtain ⟨s0, s1, h1, h⟩ := P.bind_ok.1 h
  obtain ⟨rfl, rfl⟩ := P.get_ok.1 h1
  obtain ⟨e, s2, h2, h⟩ := P.bind_ok.1 h
  obtain ⟨_, rfl⟩ := P.lift_ok.1 h2
  split at h
  · exact (P.lift_ok.1 h).2.symm
  · exact (P.pure_ok.1 h).2.symm

theorem setArgs_state {args : List (Nat × Nat)} : ∀ s u s', setArgs env args s = .ok u s' →
    ∃ a, s' = { s with args := a } := by
  induction args with
  | nil =>
    intro s u s' h
    obtain ⟨_, rfl⟩ := P.pure_ok.1 h
    exact ⟨s.args, rfl⟩
  | cons x args ih =>
    intro s u s' h
    obtain ⟨argPos, arg⟩ := x
    unfold setArgs at h
    rw [P.bind_ok] at h
    obtain ⟨arg', s2, h2, h⟩ := h
    obtain rfl := resolveArg_state h2
    rw [P.bind_ok] at h
    obtain ⟨s3, s4, h3, h⟩ := h
    obtain ⟨rfl, rfl⟩ := P.get_ok.1 h3
    split at h
    · obtain ⟨_, s5, h5, h⟩ := P.bind_ok.1 h
      obtain rfl := P.modify_ok.1 h5
      obtain ⟨a, rfl⟩ := ih _ _ _ h
      exact ⟨a, rfl⟩
    · exact (P.panic_ok.1 h).elim

theorem parseCall_keeps (hr : RecKeeps rec) {e : Nat} {args : List (Nat × Nat)} :
    Keeps base (parseCall env rec pos e args) (fun _ => True) := by
  intro s c s' hb hs
  unfold parseCall at hs
  obtain ⟨s0, s1, h1, hs⟩ := P.bind_ok.1 hs
  obtain ⟨rfl, rfl⟩ := P.get_ok.1 h1
  obtain ⟨_, s2, h2, hs⟩ := P.bind_ok.1 hs
  obtain ⟨a, rfl⟩ := setArgs_state _ _ _ h2
  obtain ⟨r, s3, h3, hs⟩ := P.bind_ok.1 hs
  obtain ⟨_, s4, h4, hs⟩ := P.bind_ok.1 hs
  obtain rfl := P.modify_ok.1 h4
  obtain ⟨rfl, rfl⟩ := P.pure_ok.1 hs
  obtain ⟨⟨a1, a2, a3⟩, a4, a5, _⟩ := hr base _ _ _ _ _ (by exact hb) h3
  exact ⟨⟨a1, rfl, a3⟩, a4, a5, trivial⟩

theorem parseVar_keeps (hr : RecKeeps rec) {i : Nat} :
    Keeps base (parseVar rec pos i) (fun _ => True) :=
  Keeps.get.bind fun _ _ => Keeps.lift.bind fun _ _ => hr base _ _

theorem prevIsLoop_keeps {p : NodeType} {tys : List Nat} :
    Keeps base (prevIsLoop env p pos tys) (fun _ => True) := by
  induction tys with
  | nil => exact Keeps.pure trivial
  | cons t tys ih =>
    exact Keeps.lift.bind fun _ _ => Keeps.ite (fun _ => Keeps.pure trivial) (fun _ => ih)

theorem parsePrevIs_keeps {tys : List Nat} :
    Keeps base (parsePrevIs env pos tys) (fun _ => True) := by
  unfold parsePrevIs
  refine Keeps.get.bind fun s _ => ?_
  split
  · exact prevIsLoop_keeps
  · exact Keeps.pure trivial

theorem parseInject_keeps (hr : RecKeeps rec) {p e : Nat} :
    Keeps base (parseInject rec pos p e) (fun _ => True) := by
  unfold parseInject
  refine mark_keeps.bind fun m hm => (hr base _ _).bind fun r _ => ?_
  cases r with
  | none => exact Keeps.pure trivial
  | some ts =>
    refine mark_keeps.bind fun m' _ => (hr base _ _).bind fun r _ => ?_
    cases r with
    | none => exact Keeps.pure trivial
    | some ts' =>
      exact (Keeps.cond (forwardParent_keeps hm)).bind fun _ _ => Keeps.pure trivial

theorem parseCached_keeps (hr : RecKeeps rec) {e : Nat} :
    Keeps base (parseCached env rec pos e) (fun _ => True) := by
  unfold parseCached
  refine startCached_keeps.bind fun m hm => ?_
  refine Keeps.bind (Q := fun _ => True) ?_ fun r _ => ?_
  · refine getFromCache_keeps.bind fun r _ => ?_
    cases r with
    | none => exact hr base _ _
    | some ts => exact Keeps.pure trivial
  · cases r with
    | none => exact Keeps.pure trivial
    | some ts => exact (finishCached_keeps hm).bind fun _ _ => Keeps.pure trivial

/-- What `pratt_go` keeps. -/
def GoKeeps (go : Pos → Nat → P (Option Pos)) : Prop :=
  ∀ base pos p, Keeps base (go pos p) (fun _ => True)

variable {go : Pos → Nat → P (Option Pos)}

theorem prattInfixes_keeps (hr : RecKeeps rec) (hg : GoKeeps go) {lhs : Nat} (hl : base ≤ lhs)
    {ixs : List Infix} :
    Keeps base (prattInfixes env rec go lhs pos ixs)
      (fun r => ∀ l p, r = some (l, p) → base ≤ l) := by
  induction ixs with
  | nil => exact Keeps.pure (by simp)
  | cons ix ixs ih =>
    unfold prattInfixes
    refine mark_keeps.bind fun nl hnl => start_keeps.bind fun m hm => (hr base _ _).bind fun r _ => ?_
    cases r with
    | none => exact (rollback_keeps hm).bind fun _ _ => ih
    | some rest =>
      refine (forwardParent_keeps hl).bind fun _ _ => ?_
      refine Keeps.bind (Q := fun _ => True) (Keeps.ite (fun _ => ?_)
        (fun _ => Keeps.pure trivial)) fun p _ => ?_
      · refine (hg base _ _).bind fun r _ => ?_
        cases r with
        | some r => exact Keeps.pure trivial
        | none => exact startError_keeps.bind fun _ _ => event_keeps.bind fun _ _ =>
            Keeps.pure trivial
      · refine Keeps.lift.bind fun _ _ => Keeps.setPrev.bind fun _ _ => event_keeps.bind fun _ _ => Keeps.pure ?_
        intro l p' h
        cases h
        exact hnl

theorem prattLoop_keeps (hr : RecKeeps rec) (hg : GoKeeps go) {table : PrattTable} {p n lhs : Nat}
    (hl : base ≤ lhs) : Keeps base (prattLoop env rec go table p n lhs pos) (fun _ => True) := by
  induction n generalizing lhs pos with
  | zero => exact Keeps.timeout
  | succ n ih =>
    unfold prattLoop
    refine (prattInfixes_keeps hr hg hl).bind fun r hr' => ?_
    cases r with
    | none => exact Keeps.pure trivial
    | some r => exact ih (hr' _ _ rfl)

theorem prattPrefixes_keeps (hr : RecKeeps rec) (hg : GoKeeps go) {pfs : List Prefix} :
    Keeps base (prattPrefixes env rec go pos pfs) (fun _ => True) := by
  induction pfs with
  | nil => exact Keeps.pure trivial
  | cons pf pfs ih =>
    unfold prattPrefixes
    refine start_keeps.bind fun m hm => ?_
    refine Keeps.bind (Q := fun _ => True) ?_ fun r _ => ?_
    · refine (hr base _ _).bind fun r _ => ?_
      cases r with
      | none => exact Keeps.pure trivial
      | some ts => exact hg base _ _
    · cases r with
      | none => exact (rollback_keeps hm).bind fun _ _ => ih
      | some ts => exact Keeps.lift.bind fun _ _ => Keeps.setPrev.bind fun _ _ => event_keeps.bind fun _ _ => Keeps.pure trivial

theorem prattGo_keeps (hr : RecKeeps rec) {table : PrattTable} {n p : Nat} :
    Keeps base (prattGo env rec table n pos p) (fun _ => True) := by
  induction n generalizing base pos p with
  | zero => exact Keeps.timeout
  | succ n ih =>
    have hg : GoKeeps (prattGo env rec table n) := fun _ _ _ => ih
    unfold prattGo
    refine mark_keeps.bind fun l hl => ?_
    refine Keeps.bind (Q := fun _ => True) ?_ fun r _ => ?_
    · unfold prattPrefix
      refine (parseOr_keeps hr).bind fun r _ => ?_
      cases r with
      | some r => exact Keeps.pure trivial
      | none => exact prattPrefixes_keeps hr hg
    · cases r with
      | none => exact Keeps.pure trivial
      | some ts => exact prattLoop_keeps hr hg hl

theorem parseExprInner_keeps (hr : RecKeeps rec) {n e : Nat} :
    Keeps base (parseExprInner env rec n e pos) (fun _ => True) := by
  unfold parseExprInner
  refine Keeps.lift.bind fun ex _ => ?_
  cases ex with
  | pub ty body b => exact parsePub_keeps hr
  | pubReplace ty body => exact parsePubReplace_keeps hr
  | or parts => exact parseOr_keeps hr
  | and parts c => exact parseAnd_keeps hr
  | token ty => exact parseToken_keeps
  | contextualToken ty text => exact bumpByText_keeps
  | rep body => exact repLoop_keeps hr
  | withSkip f b => exact withSkipLoop_keeps hr
  | opt b => exact parseOpt_keeps hr
  | not e => exact parseNot_keeps hr
  | eof => exact Keeps.pure trivial
  | any =>
    refine bump_keeps.bind fun r _ => ?_
    cases r <;> exact Keeps.pure trivial
  | layer l e => exact parseLayer_keeps hr
  | pratt t => exact prattGo_keeps hr
  | enter c e => exact parseWithContext_keeps hr
  | exit c e => exact parseWithContext_keeps hr
  | isIn c => exact parseIsIn_keeps
  | call b args => exact parseCall_keeps hr
  | var i => exact parseVar_keeps hr
  | prevIs tys => exact parsePrevIs_keeps
  | inject p b => exact parseInject_keeps hr
  | cached b => exact parseCached_keeps hr

theorem parseExpr_keeps {n : Nat} : RecKeeps (parseExpr env n) := by
  induction n with
  | zero => exact fun _ _ _ => Keeps.timeout
  | succ n ih =>
    intro base e pos
    unfold parseExpr
    refine tick_keeps.bind fun _ _ => mark_keeps.bind fun m hm =>
      (parseExprInner_keeps ih).bind fun r _ => ?_
    exact (Keeps.cond (rollback_keeps hm)).bind fun _ _ => Keeps.pure trivial

/-- A failing expression leaves the events as they were. -/
theorem parseExpr_none {n e : Nat} {s s' : PState} (h : parseExpr env n e pos s = .ok none s') :
    s'.events = s.events := by
  cases n with
  | zero => exact (P.timeout_ok.1 h).elim
  | succ n =>
    unfold parseExpr at h
    obtain ⟨_, s1, h1, h⟩ := P.bind_ok.1 h
    obtain rfl := P.modify_ok.1 h1
    obtain ⟨m, s2, h2, h⟩ := P.bind_ok.1 h
    obtain ⟨_, _, h3, h4⟩ := P.bind_ok.1 h2
    obtain ⟨rfl, rfl⟩ := P.get_ok.1 h3
    obtain ⟨rfl, rfl⟩ := P.pure_ok.1 h4
    obtain ⟨r, s3, h5, h⟩ := P.bind_ok.1 h
    obtain ⟨_, s4, h6, h⟩ := P.bind_ok.1 h
    obtain ⟨rfl, rfl⟩ := P.pure_ok.1 h
    replace h6 : rollback s.events.length s3 = .ok _ s4 := h6
    obtain ⟨_, hle, htake, _⟩ := parseExprInner_keeps (base := s.events.length) parseExpr_keeps
      _ _ _ (by exact Nat.le_refl _) h5
    unfold rollback at h6
    rw [if_pos hle] at h6
    cases h6
    simpa using htake

end Parser

end Fall
