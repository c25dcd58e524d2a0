import Verif.Lemmas.Wp

/-!
Termination: how parts of the parser move, and when the budget is enough.
-/

namespace Fall

open Spec

namespace Parser

/-- Only moves forward, only in front of the end, and only stays where it is if `nul`. -/
def Goes (N : Nat) (nul : Prop) (pos : Pos) (r : Option Pos) : Prop :=
  ∀ p, r = some p → pos.cur ≤ p.cur ∧ (pos.cur < p.cur → pos.cur < N) ∧ (p.cur = pos.cur → nul)

variable {g : Grammar} {N : Nat} {tim : Prop} {D : Nat → Nat → Prop} {rec : Rec} {env : Env} {s : PState}
  {e : Nat} {pos : Pos} {A : Args}

theorem Goes.none {nul : Prop} : Goes N nul pos none := by simp [Goes]

theorem Goes.self {nul : Prop} {q : Pos} (hq : q.cur = pos.cur) (h : nul) : Goes N nul pos (some q) := by
  rintro _ ⟨⟩
  exact ⟨by omega, by omega, fun _ => h⟩

theorem Goes.imp {nul nul' : Prop} {r : Option Pos} (h : Goes N nul pos r) (hn : nul → nul') :
    Goes N nul' pos r := fun p hp => ⟨(h p hp).1, (h p hp).2.1, fun he => hn ((h p hp).2.2 he)⟩

theorem Goes.trans {nul nul' : Prop} {q : Pos} {r : Option Pos} (h1 : Goes N nul pos (some q))
    (h2 : Goes N nul' q r) : Goes N (nul ∧ nul') pos r := by
  intro p hp
  obtain ⟨a1, a2, a3⟩ := h1 q rfl
  obtain ⟨b1, b2, b3⟩ := h2 p hp
  refine ⟨by omega, fun h => ?_, fun h => ⟨a3 (by omega), b3 (by omega)⟩⟩
  by_cases hq : pos.cur < q.cur
  · exact a2 hq
  · have : q.cur = pos.cur := by omega
    rw [this] at b2
    exact b2 h

/-- What is required of `parse_expr` when the values of the parameters are `A`, for the expressions and places in
`D`. -/
def RecT (g : Grammar) (N : Nat) (tim : Prop) (D : Nat → Nat → Prop) (A : Args) (rec : Rec) : Prop :=
  ∀ e pos s, D e pos.cur → s.args = A →
    Wp True tim (rec e pos) s fun r s' => s'.args = A ∧ Goes N (Nullable g e) pos r

/-- Does not take budget, keeps the arguments. -/
def Quick (m : P β) : Prop := ∀ s, Wp True False m s fun _ s' => s'.args = s.args

theorem Quick.use {m : P β} (h : Quick m) {f : β → P γ} {Q : γ → PState → Prop} (hs : s.args = A)
    (hf : ∀ x s', s'.args = A → Wp True tim (f x) s' Q) : Wp True tim (m >>= f) s Q := by
  refine Wp.bind ?_
  have := h s
  unfold Wp at *
  cases hm : m s with
  | ok x s' =>
    rw [hm] at this
    exact hf x s' (this.trans hs)
  | panic => trivial
  | timeout => rw [hm] at this; exact this.elim

theorem Quick.bind {m : P β} {f : β → P γ} (hm : Quick m) (hf : ∀ x, Quick (f x)) : Quick (m >>= f) :=
  fun s => Wp.seq (hm s) fun x s' h => (hf x s').mono fun _ _ h' => h'.trans h

theorem Quick.pure {x : β} : Quick (Pure.pure x : P β) := fun _ => rfl

theorem Quick.lift {o : Option β} : Quick (P.lift o) := fun _ => Wp.lift (fun _ => trivial) fun _ _ => rfl

theorem Quick.cond {c : Bool} {m : P Unit} (h : Quick m) : Quick (P.cond c m) :=
  fun s => Wp.cond (fun _ => h s) fun _ => rfl

theorem Quick.panic : Quick (P.panic : P β) := fun _ => trivial

theorem event_q (e : Event) : Quick (event e) := by
  intro s
  unfold event
  refine Wp.modify ?_
  split <;> rfl

theorem mark_q : Quick mark := fun _ => rfl

theorem nodeType_q {i : Nat} : Quick (nodeType env i) := Quick.lift

theorem tokenAt_q : Quick (tokenAt env pos) := Quick.lift

theorem startTy_q {ty : NodeType} : Quick (startTy ty) :=
  Quick.bind mark_q fun _ => Quick.bind (event_q _) fun _ => Quick.pure

theorem start_q {ty : Nat} : Quick (start env ty) := Quick.bind nodeType_q fun _ => startTy_q

theorem startError_q : Quick startError := Quick.bind startTy_q fun _ => Quick.pure

theorem finish_q : Quick finish := event_q _

theorem token_q {ty : NodeType} {n : Nat} : Quick (token ty n) := event_q _

theorem modify_q {f : PState → PState} (h : ∀ s, (f s).args = s.args) : Quick (P.modify f) :=
  fun s => Wp.modify (h s)

theorem modify_use {f : PState → PState} {k : Unit → P γ} {Q : γ → PState → Prop} (hs : s.args = A)
    (hf : ∀ s', s'.args = A → Wp True tim (k ()) s' Q)
    (h : ∀ s, (f s).args = s.args := by intro s; rfl) : Wp True tim (P.modify f >>= k) s Q :=
  Wp.bind (Wp.modify (hf _ ((h s).trans hs)))

theorem rollback_q {m : Nat} : Quick (rollback m) := by
  intro s
  unfold Wp rollback
  split <;> rename_i h <;> split at h <;> cases h
  · rfl
  · trivial

theorem reopen_q : Quick reopen := by
  intro s
  unfold Wp reopen
  split <;> rename_i h <;> split at h <;> (try split at h) <;> cases h <;> first | rfl | trivial

theorem finishCached_q {m : Nat} : Quick (finishCached m) := by
  intro s
  unfold Wp finishCached
  split <;> rename_i h <;> split at h <;> (try split at h) <;> cases h <;> first | rfl | trivial

theorem replace_q {m ty : Nat} : Quick (replace env m ty) := by
  refine Quick.bind nodeType_q fun _ s => ?_
  unfold Wp
  dsimp only
  split <;> rename_i h <;> split at h <;> cases h <;> first | rfl | trivial

theorem forwardParent_q {m n : Nat} : Quick (forwardParent m n) := by
  intro s
  unfold Wp forwardParent
  split <;> rename_i h <;> split at h <;> (try split at h) <;> cases h <;> first | rfl | trivial

theorem startCached_q : Quick (startCached e) :=
  Quick.bind mark_q fun _ => Quick.bind (event_q _) fun _ => Quick.pure

theorem applyReplacement_q {m : Nat} {b : Bool} : Quick (applyReplacement env m b) := by
  unfold applyReplacement
  refine Quick.bind (m := P.get) (fun s => rfl) fun s => ?_
  split
  · exact Quick.bind (modify_q fun _ => rfl) fun _ => replace_q
  · exact Quick.pure

/-! Moving over tokens. -/

theorem bump_t {Q : Option (NodeType × Pos) → PState → Prop} (hs : s.args = A)
    (h : ∀ r s', s'.args = A →
      (∀ ty p, r = some (ty, p) → p.cur = pos.cur + 1 ∧ pos.cur < env.nonWs.length) → Q r s') :
    Wp True tim (bump env pos) s Q := by
  unfold bump
  split
  · exact Wp.pure (h none s hs (by simp))
  · refine Wp.seq (R := fun _ s' => s'.args = A ∧ pos.cur < env.nonWs.length) ?_ fun t s' ⟨hs', hlt⟩ =>
      token_q.use hs' fun _ s'' hs'' => Wp.pure (h _ s'' hs'' ?_)
    · unfold tokenAt
      refine Wp.lift (fun _ => trivial) fun x hx => ⟨hs, ?_⟩
      simp only [bind, Option.bind_eq_some_iff] at hx
      obtain ⟨_, hx, _⟩ := hx
      exact (List.getElem?_eq_some_iff.1 hx).1
    · rintro ty p h
      cases h
      exact ⟨rfl, hlt⟩

theorem bumpAllN_q (n : Nat) : ∀ pos, Quick (bumpAllN env n pos) := by
  induction n with
  | zero => exact fun _ => Quick.panic
  | succ n ih =>
    intro pos
    unfold bumpAllN
    refine Quick.bind ?_ fun r => ?_
    · unfold bump
      split
      · exact Quick.pure
      · exact Quick.bind tokenAt_q fun _ => Quick.bind token_q fun _ => Quick.pure
    · split
      · exact Quick.pure
      · exact ih _

theorem bumpAll_q : Quick (bumpAll env pos) := bumpAllN_q _ _

theorem byTextLoop_t (rest : List (Nat × Nat)) (leftover n : Nat) (hs : s.args = A)
    (hr : rest = env.nonWs.drop pos.cur) :
    Wp True tim (byTextLoop env rest leftover n pos) s fun r s' => s'.args = A ∧
      Goes env.nonWs.length (leftover = 0) pos (r.map (·.2)) := by
  induction rest generalizing leftover n pos s with
  | nil =>
    unfold byTextLoop
    split
    · rename_i h
      exact Wp.pure ⟨hs, Goes.self rfl h⟩
    · split
      · exact Wp.pure ⟨hs, Goes.none⟩
      · trivial
  | cons x rest ih =>
    unfold byTextLoop
    split
    · rename_i h
      exact Wp.pure ⟨hs, Goes.self rfl h⟩
    · split
      · exact Wp.pure ⟨hs, Goes.none⟩
      · refine Quick.lift.use hs fun t s' hs' => ?_
        split
        · exact Wp.pure ⟨hs', Goes.none⟩
        · have hlt : pos.cur < env.nonWs.length := by
            apply Nat.lt_of_not_le
            intro h
            rw [List.drop_eq_nil_of_le h] at hr
            cases hr
          refine (ih _ _ (pos := pos.next) hs' ?_).mono fun r s'' ⟨h1, h2⟩ => ⟨h1, fun p hp => ?_⟩
          · show rest = env.nonWs.drop (pos.cur + 1)
            rw [← List.drop_drop, ← hr]
            rfl
          · have := (h2 p hp).1
            have hn : pos.next.cur = pos.cur + 1 := rfl
            exact ⟨by omega, fun _ => hlt, fun h => by omega⟩

theorem bumpByText_t {text : List Nat} {ty : Nat} (hs : s.args = A) :
    Wp True tim (bumpByText env pos text ty) s fun r s' => s'.args = A ∧
      Goes env.nonWs.length (text = []) pos r := by
  unfold bumpByText
  split
  · exact Wp.pure ⟨hs, Goes.none⟩
  · refine Quick.lift.use hs fun x s1 hs1 => ?_
    obtain ⟨start, k⟩ := x
    dsimp only
    split
    · trivial
    · split
      · exact Wp.pure ⟨hs1, Goes.none⟩
      · refine Wp.seq (byTextLoop_t _ _ _ hs1 rfl) fun r s2 ⟨hs2, h2⟩ => ?_
        cases r with
        | none => exact Wp.pure ⟨hs2, Goes.none⟩
        | some x =>
          refine nodeType_q.use hs2 fun _ s3 hs3 => token_q.use hs3 fun _ s4 hs4 => ?_
          exact Wp.pure ⟨hs4, h2.imp List.length_eq_zero_iff.1⟩

/-! The constructs. -/

theorem parseExprPred_t (hr : RecT g N tim D A rec) (hD : D e pos.cur) (hs : s.args = A) :
    Wp True tim (parseExprPred rec e pos) s fun r s' => s'.args = A ∧ Goes N (Nullable g e) pos r := by
  unfold parseExprPred
  refine Wp.bind (Wp.get ?_)
  refine modify_use hs fun s1 hs1 => Wp.seq (hr e pos s1 hD hs1) fun r s2 ⟨hs2, h2⟩ => ?_
  exact modify_use hs2 fun s3 hs3 => Wp.pure ⟨hs3, h2⟩

theorem parsePub_t (hr : RecT g N tim D A rec) {ty body : Nat} {b : Bool} (hD : D body pos.cur)
    (hs : s.args = A) :
    Wp True tim (parsePub env rec pos ty body b) s fun r s' => s'.args = A ∧ Goes N (Nullable g body) pos r := by
  unfold parsePub
  refine (modify_q fun s => by split <;> rfl).use hs fun _ s1 hs1 => start_q.use hs1 fun m s2 hs2 =>
    Wp.seq (hr body pos s2 hD hs2) fun r s3 ⟨hs3, h3⟩ => ?_
  cases r with
  | none => exact Wp.pure ⟨hs3, Goes.none⟩
  | some ts =>
    exact applyReplacement_q.use hs3 fun _ s4 hs4 => finish_q.use hs4 fun _ s5 hs5 =>
      nodeType_q.use hs5 fun _ s6 hs6 => modify_use hs6 fun s7 hs7 => Wp.pure ⟨hs7, h3⟩

theorem parsePubReplace_t (hr : RecT g N tim D A rec) {ty body : Nat} (hD : D body pos.cur)
    (hs : s.args = A) :
    Wp True tim (parsePubReplace rec pos ty body) s fun r s' => s'.args = A ∧ Goes N (Nullable g body) pos r := by
  unfold parsePubReplace
  refine Wp.seq (hr body pos s hD hs) fun r s3 ⟨hs3, h3⟩ => ?_
  cases r with
  | none => exact Wp.pure ⟨hs3, Goes.none⟩
  | some ts => exact modify_use hs3 fun s4 hs4 => Wp.pure ⟨hs4, h3⟩

theorem parseOr_t (hr : RecT g N tim D A rec) {ps : List Nat} (hD : ∀ p, p ∈ ps → D p pos.cur)
    (hs : s.args = A) :
    Wp True tim (parseOr rec pos ps) s fun r s' => s'.args = A ∧ Goes N (∃ p, p ∈ ps ∧ Nullable g p) pos r := by
  induction ps generalizing s with
  | nil => exact Wp.pure ⟨hs, Goes.none⟩
  | cons p ps ih =>
    unfold parseOr
    refine Wp.seq (hr p pos s (hD p (by simp)) hs) fun r s1 ⟨hs1, h1⟩ => ?_
    cases r with
    | some ts => exact Wp.pure ⟨hs1, h1.imp fun h => ⟨p, by simp, h⟩⟩
    | none =>
      refine (ih (fun p hp => hD p (by simp [hp])) hs1).mono fun r s2 ⟨hs2, h2⟩ => ⟨hs2, h2.imp ?_⟩
      rintro ⟨q, hq, h⟩
      exact ⟨q, by simp [hq], h⟩

/-- `D` holds at later places. -/
def Later (N : Nat) (D : Nat → Nat → Prop) (cur : Nat) : Prop := ∀ e c, cur < c → cur < N → D e c

theorem Later.of_goes {nul : Prop} {q : Pos} (h : Later N D pos.cur) (hg : Goes N nul pos (some q)) :
    Later N D q.cur := by
  intro e c h1 h2
  obtain ⟨a1, _, _⟩ := hg q rfl
  exact h e c (by omega) (by omega)

theorem Later.at {nul : Prop} {q : Pos} (h : Later N D pos.cur) (hg : Goes N nul pos (some q))
    (h0 : nul → D e pos.cur) : D e q.cur := by
  obtain ⟨a1, a2, a3⟩ := hg q rfl
  by_cases hq : q.cur = pos.cur
  · rw [hq]; exact h0 (a3 hq)
  · exact h e q.cur (by omega) (a2 (by omega))

theorem andLoop_t (hr : RecT g N tim D A rec) (hl : Later N D pos.cur) {ps : List Nat} {k : Nat} (hs : s.args = A)
    (hD : ∀ before p after, ps = before ++ p :: after → (∀ q, q ∈ before → Nullable g q) → D p pos.cur) :
    Wp True tim (andLoop rec ps k pos) s fun r s' => s'.args = A ∧ k ≤ r.1 ∧
      Goes N (∀ q, q ∈ ps.take (r.1 - k) → Nullable g q) pos (some r.2) := by
  induction ps generalizing k pos s with
  | nil => exact Wp.pure ⟨hs, Nat.le_refl _, Goes.self rfl (by simp)⟩
  | cons p ps ih =>
    unfold andLoop
    refine Wp.seq (hr p pos s (hD [] p ps rfl (by simp)) hs) fun r s1 ⟨hs1, h1⟩ => ?_
    cases r with
    | none => exact Wp.pure ⟨hs1, Nat.le_refl _, Goes.self rfl (by simp)⟩
    | some ts =>
      refine (ih (k := k + 1) (pos := ts) (hl.of_goes h1) hs1 ?_).mono fun r s2 ⟨hs2, hk, h2⟩ =>
        ⟨hs2, by omega, (h1.trans h2).imp ?_⟩
      · intro before q after hps hb
        refine hl.at h1 fun hp => hD (p :: before) q after (by simp [hps]) ?_
        intro x hx
        rcases List.mem_cons.1 hx with rfl | hx
        · exact hp
        · exact hb x hx
      · rintro ⟨hp, hq⟩ q hm
        rw [show r.1 - k = (r.1 - (k + 1)) + 1 by omega, List.take_succ_cons] at hm
        rcases List.mem_cons.1 hm with rfl | hm
        · exact hp
        · exact hq q hm

theorem parseAnd_t (hr : RecT g N tim D A rec) (hl : Later N D pos.cur) {ps : List Nat} {c : Option Nat}
    (hs : s.args = A)
    (hD : ∀ before p after, ps = before ++ p :: after → (∀ q, q ∈ before → Nullable g q) → D p pos.cur) :
    Wp True tim (parseAnd rec pos ps c) s fun r s' => s'.args = A ∧
      Goes N (∀ q, q ∈ ps.take (c.getD ps.length) → Nullable g q) pos r := by
  unfold parseAnd
  refine Wp.seq (andLoop_t hr hl hs hD) fun r s1 ⟨hs1, _, h1⟩ => ?_
  obtain ⟨k, p⟩ := r
  dsimp only
  split
  · exact Wp.pure ⟨hs1, Goes.none⟩
  · rename_i hk
    refine (Quick.cond (Quick.bind startError_q fun _ => finish_q)).use hs1 fun _ s2 hs2 =>
      Wp.pure ⟨hs2, h1.imp fun h q hq => h q ?_⟩
    exact List.mem_of_mem_take (i := c.getD ps.length) (by
      rw [List.take_take]
      rw [Nat.min_eq_left (by simp at *; omega)]
      exact hq)

theorem parseToken_t {ty : Nat} (hs : s.args = A) :
    Wp True tim (parseToken env pos ty) s fun r s' => s'.args = A ∧ Goes env.nonWs.length False pos r := by
  unfold parseToken
  refine Wp.bind (bump_t hs fun r s1 hs1 h1 => ?_)
  cases r with
  | none => exact Wp.pure ⟨hs1, Goes.none⟩
  | some x =>
    obtain ⟨t, ts⟩ := x
    obtain ⟨a1, a2⟩ := h1 t ts rfl
    refine nodeType_q.use hs1 fun _ s2 hs2 => ?_
    split
    · exact Wp.pure ⟨hs2, Goes.none⟩
    · refine Wp.pure ⟨hs2, ?_⟩
      rintro _ ⟨⟩
      exact ⟨by omega, fun _ => a2, fun h => by omega⟩

theorem parseOpt_t (hr : RecT g N tim D A rec) (hD : D e pos.cur) (hs : s.args = A) :
    Wp True tim (parseOpt rec pos e) s fun r s' => s'.args = A ∧ Goes N True pos r := by
  unfold parseOpt
  refine Wp.seq (hr e pos s hD hs) fun r s1 ⟨hs1, h1⟩ => Wp.pure ⟨hs1, ?_⟩
  cases r with
  | none => exact Goes.self rfl trivial
  | some ts => exact h1.imp fun _ => trivial

theorem parseNot_t (hr : RecT g N tim D A rec) (hD : D e pos.cur) (hs : s.args = A) :
    Wp True tim (parseNot rec pos e) s fun r s' => s'.args = A ∧ Goes N True pos r := by
  unfold parseNot
  refine Wp.seq (parseExprPred_t hr hD hs) fun r s1 ⟨hs1, h1⟩ => ?_
  cases r with
  | none => exact Wp.pure ⟨hs1, Goes.self rfl trivial⟩
  | some ts => exact Wp.pure ⟨hs1, Goes.none⟩

theorem parseLayer_t (hr : RecT g N tim D A rec) {l : Nat} (hl : D l pos.cur) (hD : D e pos.cur) (hs : s.args = A) :
    Wp True tim (parseLayer env rec pos l e) s fun r s' => s'.args = A ∧ Goes N (Nullable g l) pos r := by
  unfold parseLayer
  refine Wp.seq (parseExprPred_t hr hl hs) fun r s1 ⟨hs1, h1⟩ => ?_
  cases r with
  | none => exact Wp.pure ⟨hs1, Goes.none⟩
  | some rest =>
    refine Wp.seq (hr e (cutSuffix pos rest) s1 hD hs1) fun r s2 ⟨hs2, _⟩ => ?_
    refine (Quick.cond (Quick.bind startError_q fun _ => Quick.bind bumpAll_q fun _ => finish_q)).use hs2
      fun _ s3 hs3 => Wp.pure ⟨hs3, h1⟩

theorem repLoop_t (hr : RecT g N tim D A rec) (hl : Later N D pos.cur) (hD : D e pos.cur)
    (hn : ¬ Nullable g e) (n : Nat) (hb : tim ∨ N - pos.cur < n) (hs : s.args = A) :
    Wp True tim (repLoop rec e n pos) s fun r s' => s'.args = A ∧ Goes N True pos r := by
  induction n generalizing pos s with
  | zero => exact Wp.timeout (hb.resolve_right (by omega))
  | succ n ih =>
    unfold repLoop
    refine Wp.seq (hr e pos s hD hs) fun r s1 ⟨hs1, h1⟩ => ?_
    cases r with
    | none => exact Wp.pure ⟨hs1, Goes.self rfl trivial⟩
    | some ts =>
      obtain ⟨a1, a2, a3⟩ := h1 ts rfl
      have hlt : pos.cur < ts.cur := by
        apply Nat.lt_of_le_of_ne a1
        intro h
        exact hn (a3 h.symm)
      have := a2 hlt
      refine (ih (pos := ts) (hl.of_goes h1) (hl e _ hlt this) (hb.imp_right fun h => by omega) hs1).mono
        fun r s2 ⟨hs2, h2⟩ => ⟨hs2, (h1.trans h2).imp fun _ => trivial⟩

theorem withSkipTry_t (hr : RecT g N tim D A rec) {l : Nat} (hl : D l pos.cur) (hD : D e pos.cur)
    (hs : s.args = A) :
    Wp True tim (withSkipTry rec pos l e) s fun r s' => s'.args = A ∧ Goes N (Nullable g e) pos r := by
  unfold withSkipTry
  refine Wp.seq (parseExprPred_t hr hl hs) fun r s1 ⟨hs1, h1⟩ => ?_
  cases r with
  | none => exact Wp.pure ⟨hs1, Goes.none⟩
  | some ts => exact hr e pos s1 hD hs1

theorem withSkipLoop_t (hr : RecT g env.nonWs.length tim D A rec) (hla : Later env.nonWs.length D pos.cur) {l : Nat}
    (hl : D l pos.cur) (hD : D e pos.cur) (n : Nat) (b : Bool) (hb : tim ∨ env.nonWs.length - pos.cur < n)
    (hs : s.args = A) :
    Wp True tim (withSkipLoop env rec l e n b pos) s fun r s' => s'.args = A ∧
      Goes env.nonWs.length (Nullable g e) pos r := by
  induction n generalizing pos s b with
  | zero => exact Wp.timeout (hb.resolve_right (by omega))
  | succ n ih =>
    unfold withSkipLoop
    refine (Quick.cond finish_q).use hs fun _ s1 hs1 =>
      Wp.seq (withSkipTry_t hr hl hD hs1) fun r s2 ⟨hs2, h2⟩ => ?_
    cases r with
    | some ts => exact Wp.pure ⟨hs2, h2⟩
    | none =>
      have hq : Quick (skipOpen b) := by
        unfold skipOpen
        split
        · exact reopen_q
        · exact startError_q
      refine hq.use hs2 fun _ s3 hs3 => Wp.bind (bump_t hs3 fun r s4 hs4 h4 => ?_)
      cases r with
      | none => exact Wp.pure ⟨hs4, Goes.none⟩
      | some x =>
        obtain ⟨ty, ts⟩ := x
        obtain ⟨a1, a2⟩ := h4 ty ts rfl
        refine (ih (pos := ts) (fun e c h1 h2 => hla e c (by omega) a2) (hla l _ (by omega) a2)
          (hla e _ (by omega) a2) true (hb.imp_right fun h => by omega) hs4).mono
          fun r s5 ⟨hs5, h5⟩ => ⟨hs5, fun p hp => ?_⟩
        have := (h5 p hp).1
        exact ⟨by omega, fun _ => a2, fun h => by omega⟩

theorem parseWithContext_t (hr : RecT g N tim D A rec) {c : Nat} {b : Bool} (hD : D e pos.cur) (hs : s.args = A) :
    Wp True tim (parseWithContext rec pos c e b) s fun r s' => s'.args = A ∧ Goes N (Nullable g e) pos r := by
  unfold parseWithContext
  refine Wp.bind (Wp.get ?_)
  refine Quick.lift.use hs fun _ s1 hs1 => modify_use hs1 fun s2 hs2 =>
    Wp.seq (hr e pos s2 hD hs2) fun r s3 ⟨hs3, h3⟩ => ?_
  exact modify_use hs3 fun s4 hs4 => Wp.pure ⟨hs4, h3⟩

theorem parseIsIn_t {c : Nat} (hs : s.args = A) :
    Wp True tim (parseIsIn pos c) s fun r s' => s'.args = A ∧ Goes N True pos r := by
  unfold parseIsIn
  refine Wp.bind (Wp.get (Quick.lift.use hs fun b s1 hs1 => ?_))
  split
  · exact Wp.pure ⟨hs1, Goes.self rfl trivial⟩
  · exact Wp.pure ⟨hs1, Goes.none⟩

theorem setArgs_t {args : List (Nat × Nat)} (hs : s.args = A) :
    Wp True tim (setArgs env args) s fun _ s' => Binds env.grammar A args s'.args := by
  induction args generalizing s A with
  | nil => exact Wp.pure (hs ▸ .nil)
  | cons x args ih =>
    obtain ⟨i, a⟩ := x
    unfold setArgs
    refine Wp.seq (R := fun b s1 => s1 = s ∧ ∀ A', i < A.length → Binds env.grammar (A.set i (some b)) args A' →
      Binds env.grammar A ((i, a) :: args) A') ?_ ?_
    · unfold resolveArg
      refine Wp.bind (Wp.get (Wp.bind (Wp.lift (fun _ => trivial) fun rule hrule => ?_)))
      split
      · rename_i j
        refine Wp.lift (fun _ => trivial) fun b hb => ⟨rfl, fun A' hi => .passOn hi hrule ?_⟩
        rw [← hs]
        cases hj : s.args[j]? with
        | none => simp [hj] at hb
        | some y => simpa [hj] using hb
      · rename_i h
        refine Wp.pure ⟨rfl, fun A' hi => .value hi fun j hj => ?_⟩
        rw [hrule] at hj
        cases hj
        exact h j rfl
    · rintro b s1 ⟨rfl, hb⟩
      refine Wp.bind (Wp.get ?_)
      split
      · rename_i hi
        refine Wp.bind (Wp.modify ((ih (A := A.set i (some b)) ?_).mono fun _ s' h => hb _ (hs ▸ hi) h))
        rw [← hs]
      · trivial

theorem _root_.Fall.Spec.Binds.passed {body : Nat} {args all : List (Nat × Nat)} {A' : Args}
    (hg : g.rules[e]? = some (.call body all)) (h : Binds g A args A') (ha : ∀ x, x ∈ args → x ∈ all)
    (hA : A.Passed g) : A'.Passed g := by
  have set : ∀ {A : Args} {i b : Nat}, A.Passed g → PassedAs g i b → Args.Passed g (A.set i (some b)) := by
    intro A i b hA hb k c hk
    simp only [List.getElem?_set] at hk
    split at hk
    · rename_i h
      simp only [Option.ite_none_right_eq_some, Option.some.injEq] at hk
      subst h
      rw [← hk.2]
      exact hb
    · exact hA k c hk
  induction h with
  | nil => exact hA
  | value _ hv _ ih => exact ih (fun x hx => ha x (by simp [hx])) (set hA (.direct hg (ha _ (by simp)) hv))
  | passOn _ hv hb _ ih => exact ih (fun x hx => ha x (by simp [hx])) (set hA (.indirect hg (ha _ (by simp)) hv (hA _ _ hb)))

theorem parseCall_t {D : Args → Nat → Nat → Prop} {body : Nat} {args : List (Nat × Nat)}
    (hr : ∀ A', Binds env.grammar A args A' → RecT env.grammar N tim (D A') A' rec ∧ D A' body pos.cur)
    (hs : s.args = A) :
    Wp True tim (parseCall env rec pos body args) s fun r s' => s'.args = A ∧
      Goes N (Nullable env.grammar body) pos r := by
  unfold parseCall
  refine Wp.bind (Wp.get ?_)
  refine Wp.seq (setArgs_t hs) fun _ s1 hs1 =>
    Wp.seq ((hr s1.args hs1).1 body pos s1 (hr s1.args hs1).2 rfl) fun r s2 ⟨hs2, h2⟩ =>
      Wp.bind (Wp.modify (Wp.pure ⟨hs, h2⟩))

theorem parseVar_t (hr : RecT g N tim D A rec) {i : Nat} (hA : A.Passed g)
    (hD : ∀ a, A[i]? = some (some a) → D a pos.cur) (hs : s.args = A) :
    Wp True tim (parseVar rec pos i) s fun r s' => s'.args = A ∧
      Goes N (∃ a, PassedAs g i a ∧ Nullable g a) pos r := by
  unfold parseVar
  refine Wp.bind (Wp.get (Wp.bind (Wp.lift (fun _ => trivial) fun a ha => ?_)))
  have hp : A[i]? = some (some a) := by
    rw [← hs]
    cases hj : s.args[i]? with
    | none => simp [hj] at ha
    | some y => simpa [hj] using ha
  exact (hr a pos s (hD a hp) hs).mono fun r s1 ⟨hs1, h1⟩ => ⟨hs1, h1.imp fun h => ⟨a, hA i a hp, h⟩⟩

theorem prevIsLoop_t {t : NodeType} {tys : List Nat} (hs : s.args = A) :
    Wp True tim (prevIsLoop env t pos tys) s fun r s' => s'.args = A ∧ Goes N True pos r := by
  induction tys generalizing s with
  | nil => exact Wp.pure ⟨hs, Goes.none⟩
  | cons ty tys ih =>
    unfold prevIsLoop
    refine nodeType_q.use hs fun t' s1 hs1 => ?_
    split
    · exact Wp.pure ⟨hs1, Goes.self rfl trivial⟩
    · exact ih hs1

theorem parsePrevIs_t {tys : List Nat} (hs : s.args = A) :
    Wp True tim (parsePrevIs env pos tys) s fun r s' => s'.args = A ∧ Goes N True pos r := by
  unfold parsePrevIs
  refine Wp.bind (Wp.get ?_)
  split
  · exact prevIsLoop_t hs
  · exact Wp.pure ⟨hs, Goes.none⟩

theorem parseInject_t (hr : RecT g N tim D A rec) (hl : Later N D pos.cur) {pre : Nat} (hp : D pre pos.cur)
    (hD : Nullable g pre → D e pos.cur) (hs : s.args = A) :
    Wp True tim (parseInject rec pos pre e) s fun r s' => s'.args = A ∧
      Goes N (Nullable g pre ∧ Nullable g e) pos r := by
  unfold parseInject
  refine mark_q.use hs fun _ s1 hs1 => Wp.seq (hr pre pos s1 hp hs1) fun r s2 ⟨hs2, h2⟩ => ?_
  cases r with
  | none => exact Wp.pure ⟨hs2, Goes.none⟩
  | some q =>
    refine mark_q.use hs2 fun _ s3 hs3 => Wp.seq (hr e q s3 (hl.at h2 hD) hs3) fun r s4 ⟨hs4, h4⟩ => ?_
    cases r with
    | none => exact Wp.pure ⟨hs4, Goes.none⟩
    | some p =>
      exact (Quick.cond forwardParent_q).use hs4 fun _ s5 hs5 => Wp.pure ⟨hs5, h2.trans h4⟩

theorem parseCached_t (hr : RecT env.grammar env.nonWs.length tim D A rec) (hc : EmptyHitsNullable env) (hD : D e pos.cur)
    (hs : s.args = A) :
    Wp True tim (parseCached env rec pos e) s fun r s' => s'.args = A ∧
      Goes env.nonWs.length (Nullable env.grammar e) pos r := by
  unfold parseCached
  refine startCached_q.use hs fun _ s1 hs1 => Wp.seq (R := fun r s' => s'.args = A ∧
      Goes env.nonWs.length (Nullable env.grammar e) pos r) ?_ fun r s2 ⟨hs2, h2⟩ => ?_
  · unfold cachedOrParse
    refine Wp.seq (R := fun r s' => s'.args = A ∧
      Goes env.nonWs.length (Nullable env.grammar e) pos r) ?_ fun r s2 ⟨hs2, h2⟩ => ?_
    · unfold getFromCache
      split
      · exact Wp.pure ⟨hs1, Goes.none⟩
      · rename_i cache evs hcache
        refine Wp.bind (Wp.lift (fun _ => trivial) fun x hx => ?_)
        obtain ⟨off, k⟩ := x
        have hlt := (List.getElem?_eq_some_iff.1 hx).1
        dsimp only
        split
        · exact Wp.pure ⟨hs1, Goes.none⟩
        · rename_i a nE nT hl
          split
          · refine modify_use hs1 fun s2 hs2 => Wp.pure ⟨hs2, ?_⟩
            rintro _ ⟨⟩
            refine ⟨Nat.le_add_right _ _, fun _ => hlt, fun h => ?_⟩
            have : nT = 0 := by
              simp only at h
              omega
            subst this
            exact hc cache evs hcache off e a nE hl
          · trivial
    · cases r with
      | some ts => exact Wp.pure ⟨hs2, h2⟩
      | none => exact hr e pos s2 hD hs2
  · cases r with
    | none => exact Wp.pure ⟨hs2, Goes.none⟩
    | some ts => exact finishCached_q.use hs2 fun _ s3 hs3 => Wp.pure ⟨hs3, h2⟩

/-! Operator expressions. -/

theorem Goes.weak {nul : Prop} {r : Option Pos} (h : Goes N nul pos r) : Goes N True pos r := h.imp fun _ => trivial

/-- Strictly forward. -/
def Forward (N : Nat) (pos q : Pos) : Prop := pos.cur < q.cur ∧ pos.cur < N

theorem Goes.forward {q : Pos} {nul : Prop} (h : Goes N nul pos (some q)) (hn : ¬ nul) : Forward N pos q := by
  obtain ⟨a1, a2, a3⟩ := h q rfl
  have : pos.cur < q.cur := by
    apply Nat.lt_of_le_of_ne a1
    intro h
    exact hn (a3 h.symm)
  exact ⟨this, a2 this⟩

theorem Forward.goes {q : Pos} {nul : Prop} (h : Forward N pos q) : Goes N nul pos (some q) := by
  rintro _ ⟨⟩
  exact ⟨Nat.le_of_lt h.1, fun _ => h.2, fun he => absurd h.1 (by omega)⟩

/-- What is required of `pratt_go` behind `pos`. -/
def GoT (N : Nat) (tim : Prop) (A : Args) (pos : Pos) (go : Pos → Nat → P (Option Pos)) : Prop :=
  ∀ q mp s, Forward N pos q → s.args = A →
    Wp True tim (go q mp) s fun r s' => s'.args = A ∧ Goes N True q r

variable {go : Pos → Nat → P (Option Pos)}

theorem GoT.later {q : Pos} {nul : Prop} (h : GoT N tim A pos go) (hq : Goes N nul pos (some q)) :
    GoT N tim A q go := by
  intro p mp s hp hs
  obtain ⟨a1, a2, _⟩ := hq q rfl
  refine h p mp s ⟨by have := hp.1; omega, ?_⟩ hs
  have := hp.2
  omega

theorem prattRhs_t (hgo : GoT N tim A pos go) {ix : Infix} {q : Pos} (hq : Forward N pos q) (hs : s.args = A) :
    Wp True tim (prattRhs go ix q) s fun p s' => s'.args = A ∧ Forward N pos p := by
  unfold prattRhs
  split
  · refine Wp.seq (hgo q _ s hq hs) fun r s1 ⟨hs1, h1⟩ => ?_
    cases r with
    | some p =>
      refine Wp.pure ⟨hs1, ?_, hq.2⟩
      have := (h1 p rfl).1
      have := hq.1
      omega
    | none => exact startError_q.use hs1 fun _ s2 hs2 => finish_q.use hs2 fun _ s3 hs3 => Wp.pure ⟨hs3, hq⟩
  · exact Wp.pure ⟨hs, hq⟩

theorem prattInfixes_t (hr : RecT g N tim D A rec) (hgo : GoT N tim A pos go) {ixs : List Infix} {lhs : Nat}
    (hD : ∀ ix, ix ∈ ixs → D ix.op pos.cur) (hn : ∀ ix, ix ∈ ixs → ¬ Nullable g ix.op) (hs : s.args = A) :
    Wp True tim (prattInfixes env rec go lhs pos ixs) s fun r s' => s'.args = A ∧
      ∀ l p, r = some (l, p) → Forward N pos p := by
  induction ixs generalizing s with
  | nil => exact Wp.pure ⟨hs, by simp⟩
  | cons ix ixs ih =>
    unfold prattInfixes
    refine mark_q.use hs fun _ s1 hs1 => start_q.use hs1 fun m s2 hs2 =>
      Wp.seq (hr ix.op pos s2 (hD ix (by simp)) hs2) fun r s3 ⟨hs3, h3⟩ => ?_
    cases r with
    | some rest =>
      refine forwardParent_q.use hs3 fun _ s4 hs4 =>
        Wp.seq (prattRhs_t hgo (h3.forward (hn ix (by simp))) hs4) fun p s5 ⟨hs5, h5⟩ =>
          nodeType_q.use hs5 fun _ s6 hs6 => modify_use hs6 fun s7 hs7 => finish_q.use hs7 fun _ s8 hs8 =>
            Wp.pure ⟨hs8, ?_⟩
      rintro _ _ ⟨⟩
      exact h5
    | none =>
      exact rollback_q.use hs3 fun _ s4 hs4 => ih (fun ix h => hD ix (by simp [h]))
        (fun ix h => hn ix (by simp [h])) hs4

theorem prattLoop_t (hr : RecT g N tim D A rec) (hl : Later N D pos.cur) (hgo : GoT N tim A pos go)
    {table : PrattTable} {mp : Nat} (n : Nat) {lhs : Nat}
    (hD : ∀ ix, ix ∈ table.infixes → D ix.op pos.cur) (hn : ∀ ix, ix ∈ table.infixes → ¬ Nullable g ix.op)
    (hb : tim ∨ N - pos.cur < n) (hs : s.args = A) :
    Wp True tim (prattLoop env rec go table mp n lhs pos) s fun r s' => s'.args = A ∧ Goes N True pos r := by
  induction n generalizing pos s lhs with
  | zero => exact Wp.timeout (hb.resolve_right (by omega))
  | succ n ih =>
    unfold prattLoop
    have hsub : ∀ ix, ix ∈ table.infixesFrom mp → ix ∈ table.infixes := fun ix h => (List.mem_filter.1 h).1
    refine Wp.seq (prattInfixes_t hr hgo (fun ix h => hD ix (hsub ix h)) (fun ix h => hn ix (hsub ix h)) hs)
      fun r s1 ⟨hs1, h1⟩ => ?_
    cases r with
    | none => exact Wp.pure ⟨hs1, Goes.self rfl trivial⟩
    | some x =>
      obtain ⟨l, p⟩ := x
      have hf := h1 l p rfl
      have hg : Goes N True pos (some p) := hf.goes
      refine (ih (pos := p) (hl.of_goes hg) (hgo.later hg) (fun ix _ => hl _ _ hf.1 hf.2)
        (hb.imp_right fun h => by have := hf.1; have := hf.2; omega) hs1).mono fun r s2 ⟨hs2, h2⟩ => ?_
      exact ⟨hs2, (hg.trans h2).weak⟩

theorem prattPrefixes_t (hr : RecT g N tim D A rec) (hgo : GoT N tim A pos go) {pfs : List Prefix}
    (hD : ∀ pf, pf ∈ pfs → D pf.op pos.cur) (hn : ∀ pf, pf ∈ pfs → ¬ Nullable g pf.op) (hs : s.args = A) :
    Wp True tim (prattPrefixes env rec go pos pfs) s fun r s' => s'.args = A ∧ Goes N False pos r := by
  induction pfs generalizing s with
  | nil => exact Wp.pure ⟨hs, Goes.none⟩
  | cons pf pfs ih =>
    unfold prattPrefixes
    refine start_q.use hs fun m s1 hs1 => Wp.seq (R := fun r s' => s'.args = A ∧ Goes N False pos r) ?_
      fun r s3 ⟨hs3, h3⟩ => ?_
    · unfold prattOperand
      refine Wp.seq (hr pf.op pos s1 (hD pf (by simp)) hs1) fun r s2 ⟨hs2, h2⟩ => ?_
      cases r with
      | none => exact Wp.pure ⟨hs2, Goes.none⟩
      | some q =>
        have hf := h2.forward (hn pf (by simp))
        refine (hgo q _ s2 hf hs2).mono fun r s3 ⟨hs3, h3⟩ => ⟨hs3, ?_⟩
        exact ((hf.goes (nul := False)).trans h3).imp fun h => h.1
    · cases r with
      | some rest =>
        exact nodeType_q.use hs3 fun _ s4 hs4 => modify_use hs4 fun s5 hs5 => finish_q.use hs5 fun _ s6 hs6 =>
          Wp.pure ⟨hs6, h3⟩
      | none =>
        exact rollback_q.use hs3 fun _ s4 hs4 => ih (fun pf h => hD pf (by simp [h]))
          (fun pf h => hn pf (by simp [h])) hs4

theorem prattGo_t (hr : RecT g N tim D A rec) {table : PrattTable}
    (he : g.rules[e]? = some (.pratt table)) (ht : NoEmptyRounds g) (n : Nat) (hl : Later N D pos.cur) {mp : Nat}
    (hD : ∀ e', LeftPart g e e' → D e' pos.cur) (hb : tim ∨ N - pos.cur + 1 < n) (hs : s.args = A) :
    Wp True tim (prattGo env rec table n pos mp) s fun r s' => s'.args = A ∧ Goes N (Nullable g e) pos r := by
  induction n generalizing pos s mp with
  | zero => exact Wp.timeout (hb.resolve_right (by omega))
  | succ n ih =>
    unfold prattGo
    have hgo : GoT N tim A pos (prattGo env rec table n) := by
      intro q mp s hq hs
      have hg : Goes N True pos (some q) := hq.goes
      refine (ih (pos := q) (hl.of_goes hg) (fun e' _ => hl _ _ hq.1 hq.2)
        (hb.imp_right fun h => by have := hq.1; have := hq.2; omega) hs).mono fun r s' h => ⟨h.1, h.2.weak⟩
    refine mark_q.use hs fun lhs s1 hs1 => Wp.seq (R := fun r s' => s'.args = A ∧ Goes N (Nullable g e) pos r) ?_
      fun r s3 ⟨hs3, h3⟩ => ?_
    · unfold prattPrefix
      refine Wp.seq (parseOr_t hr (fun p hp => hD p (.atom he hp)) hs1) fun r s2 ⟨hs2, h2⟩ => ?_
      cases r with
      | some ts =>
        refine Wp.pure ⟨hs2, h2.imp ?_⟩
        rintro ⟨p, hp, h⟩
        exact .atom he hp h
      | none =>
        refine (prattPrefixes_t hr hgo (fun pf h => hD _ (.pre he h)) (fun pf h => ht.prefixes e table pf he h)
          hs2).mono fun r s3 ⟨hs3, h3⟩ => ⟨hs3, h3.imp False.elim⟩
    · cases r with
      | none => exact Wp.pure ⟨hs3, Goes.none⟩
      | some ts =>
        refine (prattLoop_t hr (hl.of_goes h3) (hgo.later h3) n (fun ix h => hl.at h3 fun hnull =>
          hD _ (.op he hnull h)) (fun ix h => ht.infixes e table ix he h)
          (hb.imp_right fun h => by have := (h3 ts rfl).1; omega) hs3).mono fun r s4 ⟨hs4, h4⟩ =>
            ⟨hs4, (h3.trans h4).imp fun h => h.1⟩

/-! All together. -/

theorem parseExprInner_t {D : Args → Nat → Nat → Prop} (ht : NoEmptyRounds env.grammar) (hc : EmptyHitsNullable env)
    (hr : ∀ A, A.Passed env.grammar → RecT env.grammar env.nonWs.length tim (D A) A rec) (n : Nat)
    (hA : A.Passed env.grammar) (hl : Later env.nonWs.length (D A) pos.cur)
    (hD : ∀ e' A', LeftCalls env.grammar e A e' A' → D A' e' pos.cur)
    (hb : tim ∨ env.nonWs.length - pos.cur + 1 < n) (hs : s.args = A) :
    Wp True tim (parseExprInner env rec n e pos) s fun r s' => s'.args = A ∧
      Goes env.nonWs.length (Nullable env.grammar e) pos r := by
  unfold parseExprInner
  refine Wp.bind (Wp.lift (fun _ => trivial) fun rule he => ?_)
  have imp : ∀ {m : P (Option Pos)} {nul : Prop}, (Wp True tim m s fun r s' => s'.args = A ∧
      Goes env.nonWs.length nul pos r) → (nul → Nullable env.grammar e) →
      Wp True tim m s fun r s' => s'.args = A ∧ Goes env.nonWs.length (Nullable env.grammar e) pos r :=
    fun h hn => h.mono fun r s' h => ⟨h.1, h.2.imp hn⟩
  have hb' : tim ∨ env.nonWs.length - pos.cur < n := hb.imp_right fun h => by omega
  have hD' : ∀ e', LeftPart env.grammar e e' → D A e' pos.cur := fun e' h => hD e' A (.part h)
  cases rule with
  | pub ty body b => exact imp (parsePub_t (hr A hA) (hD' _ (.pub he)) hs) (.pub he)
  | pubReplace ty body => exact imp (parsePubReplace_t (hr A hA) (hD' _ (.pubReplace he)) hs) (.pubReplace he)
  | or ps =>
    refine imp (parseOr_t (hr A hA) (fun p hp => hD' _ (.or he hp)) hs) ?_
    rintro ⟨p, hp, h⟩
    exact .or he hp h
  | and ps c =>
    refine imp (parseAnd_t (hr A hA) hl hs fun before p after hps hb => hD' _ (.and (hps ▸ he) hb)) fun h => .and he h
  | token ty => exact imp (parseToken_t hs) False.elim
  | contextualToken ty text => exact imp (bumpByText_t hs) fun h => .contextual (h ▸ he)
  | opt body => exact imp (parseOpt_t (hr A hA) (hD' _ (.opt he)) hs) fun _ => .opt he
  | not body => exact imp (parseNot_t (hr A hA) (hD' _ (.not he)) hs) fun _ => .not he
  | eof =>
    refine Wp.pure ⟨hs, ?_⟩
    split
    · exact Goes.self rfl (.eof he)
    · exact Goes.none
  | any =>
    refine Wp.bind (bump_t hs fun r s1 hs1 h1 => ?_)
    cases r with
    | none => exact Wp.pure ⟨hs1, Goes.none⟩
    | some x =>
      obtain ⟨ty, ts⟩ := x
      obtain ⟨a1, a2⟩ := h1 ty ts rfl
      exact Wp.pure ⟨hs1, Forward.goes ⟨by omega, a2⟩⟩
  | layer l body => exact imp (parseLayer_t (hr A hA) (hD' _ (.bound he)) (hD' _ (.layer he)) hs) (.layer he)
  | rep body =>
    exact imp (repLoop_t (hr A hA) hl (hD' _ (.rep he)) (ht.rep e body he) n hb' hs) fun _ => .rep he
  | withSkip l body =>
    exact imp (withSkipLoop_t (hr A hA) hl (hD' _ (.first he)) (hD' _ (.withSkip he)) n false hb' hs) (.withSkip he)
  | pratt table => exact prattGo_t (hr A hA) he ht n hl hD' hb hs
  | enter c body => exact imp (parseWithContext_t (hr A hA) (hD' _ (.enter he)) hs) (.enter he)
  | exit c body => exact imp (parseWithContext_t (hr A hA) (hD' _ (.exit he)) hs) (.exit he)
  | isIn c => exact imp (parseIsIn_t hs) fun _ => .isIn he
  | call body args => exact imp (parseCall_t (fun A' h => ⟨hr A' (h.passed he (fun _ h => h) hA), hD _ _ (.call he h)⟩) hs) (.call he)
  | var i =>
    refine imp (parseVar_t (hr A hA) hA (fun a ha => hD _ _ (.var he ha)) hs) ?_
    rintro ⟨a, ha, h⟩
    exact .var he ha h
  | prevIs tys => exact imp (parsePrevIs_t hs) fun _ => .prevIs he
  | inject pre body =>
    exact imp (parseInject_t (hr A hA) hl (hD' _ (.injected he)) (fun h => hD' _ (.inject he h)) hs)
      fun h => .inject he h.1 h.2
  | cached body => exact imp (parseCached_t (hr A hA) hc (hD' _ (.cached he)) hs) (.cached he)

/-- How `parse_expr` moves. -/
theorem parseExpr_goes (ht : NoEmptyRounds env.grammar) (hc : EmptyHitsNullable env) (n : Nat) (A : Args)
    (hA : A.Passed env.grammar) :
    RecT env.grammar env.nonWs.length True (fun _ _ => True) A (parseExpr env n) := by
  induction n generalizing A with
  | zero => exact fun _ _ _ _ _ => Wp.timeout trivial
  | succ n ih =>
    intro e pos s _ hs
    unfold parseExpr
    refine modify_use hs fun s1 hs1 => mark_q.use hs1 fun m s2 hs2 => Wp.seq
      (parseExprInner_t (D := fun _ _ _ => True) ht hc ih n hA (fun _ _ _ _ => trivial) (fun _ _ _ => trivial)
        (Or.inl trivial) hs2)
      fun r s3 ⟨hs3, h3⟩ => ?_
    exact (Quick.cond rollback_q).use hs3 fun _ s4 hs4 => Wp.pure ⟨hs4, h3⟩

/-- The budget `n` is enough for `e` at `cur` if `R` is the greatest length of a chain. -/
def Enough (g : Grammar) (N R n : Nat) (A : Args) (e cur : Nat) : Prop :=
  ∀ k, LeftChain g k e A → (N - cur) * (R + 1) + k + 3 ≤ n

theorem parseExpr_enough {R : Nat} (ht : Terminating env.grammar R) (hc : EmptyHitsNullable env) (n : Nat) (A : Args)
    (hA : A.Passed env.grammar) :
    RecT env.grammar env.nonWs.length False (Enough env.grammar env.nonWs.length R n A) A (parseExpr env n) := by
  induction n generalizing A with
  | zero =>
    intro e pos s h
    have := h 0 .nil
    omega
  | succ n ih =>
    intro e pos s hn hs
    unfold parseExpr
    have hpos : env.nonWs.length - pos.cur ≤ (env.nonWs.length - pos.cur) * (R + 1) := Nat.le_mul_of_pos_right _ (by omega)
    have h0 := hn 0 .nil
    refine modify_use hs fun s1 hs1 => mark_q.use hs1 fun m s2 hs2 => Wp.seq
      (parseExprInner_t (D := Enough env.grammar env.nonWs.length R n) ht.rounds hc ih n hA ?_ ?_ ?_ hs2)
      fun r s3 ⟨hs3, h3⟩ => ?_
    · intro e' c h1 h2 k hk
      have := ht.chains k e' A hA hk
      have h4 : (env.nonWs.length - c) + 1 ≤ env.nonWs.length - pos.cur := by omega
      have h5 := Nat.mul_le_mul_right (R + 1) h4
      rw [Nat.add_mul] at h5
      omega
    · intro e' A' h k hk
      have := hn (k + 1) (.cons h hk)
      omega
    · right
      omega
    · exact (Quick.cond rollback_q).use hs3 fun _ s4 hs4 => Wp.pure ⟨hs4, h3⟩

/-! Without left recursion chains are not longer than the number of rules. -/

theorem _root_.Fall.Spec.LeftPart.range {e e' : Nat} (h : LeftPart g e e') : e < g.rules.length := by
  have key : ∀ {rule : Expr}, g.rules[e]? = some rule → e < g.rules.length :=
    fun h => (List.getElem?_eq_some_iff.1 h).1
  cases h with
  | or h _ | and h _ | atom h _ | pre h _ | op h _ _ | inject h _ => exact key h
  | pub h | pubReplace h | opt h | not h | rep h | bound h | layer h | first h | withSkip h | enter h | exit h
  | injected h | cached h => exact key h

theorem _root_.Fall.Spec.LeftCalls.passed {e e' : Nat} {A' : Args} (h : LeftCalls g e A e' A') (hA : A.Passed g) :
    A'.Passed g := by
  cases h with
  | part _ => exact hA
  | call h hb => exact hb.passed h (fun _ h => h) hA
  | var _ _ => exact hA

theorem _root_.Fall.Spec.LeftCalls.range {e e' : Nat} {A' : Args} (h : LeftCalls g e A e' A') :
    e < g.rules.length := by
  cases h with
  | part h => exact h.range
  | call h _ | var h _ => exact (List.getElem?_eq_some_iff.1 h).1

theorem _root_.Fall.Spec.LeftCalls.reaches {e e' : Nat} {A' : Args} (h : LeftCalls g e A e' A') (hA : A.Passed g) :
    LeftReaches g e e' := by
  cases h with
  | part h => exact .part h
  | call h _ => exact .call h
  | var h ha => exact .var h (hA _ _ ha)

/-- The expressions of a chain. -/
theorem chain_list {n : Nat} (h : LeftChain g n e A) (hA : A.Passed g) : ∃ l : List Nat, l.length = n ∧
    (∀ x, x ∈ l → x < g.rules.length) ∧ (∀ x, x ∈ l → x = e ∨ LeftReaches g e x) ∧
    l.Pairwise (fun x y => LeftReaches g x y) := by
  induction h with
  | nil => exact ⟨[], rfl, by simp, by simp, .nil⟩
  | cons hc _ ih =>
    rename_i e e' _ _ _
    obtain ⟨l, h1, h2, h3, h4⟩ := ih (hc.passed hA)
    have he := hc.reaches hA
    have key : ∀ x, x ∈ l → LeftReaches g e x := by
      intro x hx
      rcases h3 x hx with rfl | h
      · exact he
      · exact .trans he h
    refine ⟨e :: l, by simp [h1], ?_, ?_, List.pairwise_cons.2 ⟨key, h4⟩⟩
    · intro x hx
      rcases List.mem_cons.1 hx with rfl | hx
      · exact hc.range
      · exact h2 x hx
    · intro x hx
      rcases List.mem_cons.1 hx with rfl | hx
      · exact Or.inl rfl
      · exact Or.inr (key x hx)

theorem nodup_length {l : List Nat} {n : Nat} (hl : l.Nodup) (h : ∀ x, x ∈ l → x < n) : l.length ≤ n := by
  have : l.length ≤ (List.range n).length := hl.length_le_of_subset fun x hx => List.mem_range.2 (h x hx)
  simpa using this

theorem terminating_of (h : ∀ e, ¬ LeftReaches g e e) (hr : NoEmptyRounds g) : Terminating g g.rules.length := by
  refine ⟨fun n e A hA hc => ?_, hr⟩
  obtain ⟨l, rfl, h2, _, h4⟩ := chain_list hc hA
  refine nodup_length (h4.imp ?_) h2
  rintro x y hxy rfl
  exact h x hxy

theorem passed_new (g : Grammar) : Args.Passed g PState.new.args := by
  intro i a h
  cases List.eq_of_mem_replicate (List.mem_of_getElem? h)

theorem synParse_enough {R : Nat} (ht : Terminating env.grammar R) (hc : EmptyHitsNullable env) (n : Nat)
    (hn : (env.nonWs.length + 1) * (R + 1) + 2 ≤ n) : synParse env n ≠ .timeout := by
  have hw : Wp True False (parseMain env n) .new fun _ _ => True := by
    unfold parseMain
    refine Wp.seq (parseExpr_enough ht hc n _ (passed_new _) _ env.startPos .new ?_ rfl) fun r s1 ⟨hs1, _⟩ => ?_
    · intro k hk
      have := ht.chains k _ _ (passed_new _) hk
      simp only [Env.startPos, Nat.sub_zero]
      rw [Nat.add_mul] at hn
      omega
    · refine Quick.lift.use hs1 fun q s2 hs2 => ?_
      refine Wp.mono ((Quick.cond (Quick.bind reopen_q fun _ => Quick.bind startError_q fun _ =>
        Quick.bind bumpAll_q fun _ => Quick.bind finish_q fun _ => finish_q)) s2) fun _ _ _ => trivial
  unfold synParse
  unfold Wp at hw
  cases hm : parseMain env n .new with
  | ok u s => simp
  | panic => simp
  | timeout => rw [hm] at hw; exact hw.elim

end Parser

end Fall
