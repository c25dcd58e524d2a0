import Verif.Lemmas.SynMain
import Verif.Lemmas.Reading

/-!
Grammars that pass the static checks of `Safe` make no parse panic.
-/

namespace Fall

open Spec

namespace Parser

/-- What holds of the state throughout a parse. -/
structure Inv (g : Grammar) (s : PState) : Prop where
  contexts : s.contexts.length = 16
  replacement : ∀ ty, s.replacement = some ty → ty < g.nodeTypes.length

/-- The position is among the significant tokens. -/
structure In (env : Env) (pos : Pos) : Prop where
  le : pos.cur ≤ pos.stop
  stop : pos.stop ≤ env.nonWs.length

theorem In.moves {env : Env} {pos p : Pos} (h : In env pos) (hm : Moves pos p) : In env p :=
  ⟨by rw [hm.stop]; exact hm.le h.le, by rw [hm.stop]; exact h.stop⟩

/-- The tokens are where the list of significant tokens says they are. -/
structure EnvOk (env : Env) : Prop where
  token : ∀ st k, (st, k) ∈ env.nonWs → k < env.tokens.length ∧ st ≤ env.text.length
  cache : env.cache = none

theorem nonWsIndexes_bound {isWs : NodeType → Bool} {len i : Nat} {ts : List Token} :
    ∀ st k, (st, k) ∈ nonWsIndexes isWs len i ts → k < i + ts.length ∧ st ≤ len + (ts.map (·.len)).sum := by
  induction ts generalizing len i with
  | nil => simp [nonWsIndexes]
  | cons t ts ih =>
    intro st k h
    unfold nonWsIndexes at h
    split at h
    · have := ih st k h
      simp only [List.length_cons, List.map_cons, List.sum_cons]
      omega
    · rcases List.mem_cons.1 h with h | h
      · cases h
        simp only [List.length_cons, List.map_cons, List.sum_cons]
        omega
      · have := ih st k h
        simp only [List.length_cons, List.map_cons, List.sum_cons]
        omega

theorem envOk_new {g : Grammar} {isWs : NodeType → Bool} {text : List Nat} {tokens : List Token}
    (h : (tokens.map (·.len)).sum ≤ text.length) : EnvOk (Env.new none g isWs text tokens) where
  token st k hm := by
    have := nonWsIndexes_bound st k hm
    simp only [Env.new]
    omega
  cache := rfl

variable {env : Env} {rec : Rec} {s : PState} {e : Nat} {pos : Pos} {A : Args} {la : Bool} {tim : Prop}

/-- The outcome of running `e`. -/
structure Done (env : Env) (e : Nat) (pos : Pos) (s : PState) (r : Option Pos) (s' : PState) : Prop where
  inv : Inv env.grammar s'
  fail : r = none → MayFail env.grammar e ∧ Adv s s' []
  reads : ∀ p, r = some p → Reads env (.expr e) s pos s' p

/-- The state and position in which `e` is run. -/
structure Ready (env : Env) (A : Args) (la : Bool) (pos : Pos) (s : PState) : Prop where
  args : s.args = A
  predicate : s.predicate = la
  inv : Inv env.grammar s
  pos : In env pos

/-- `parse_expr` does not panic where the grammar may run it. -/
def RecN (env : Env) (rec : Rec) : Prop :=
  ∀ e A la pos s, Reached env.grammar e A la → Ready env A la pos s →
    Wp False True (rec e pos) s (Done env e pos s)

/-! Primitive operations. -/

theorem Inv.same {g : Grammar} {s s' : PState} (h : Inv g s) (hc : s'.contexts = s.contexts)
    (hr : s'.replacement = s.replacement) : Inv g s' := ⟨hc ▸ h.contexts, hr ▸ h.replacement⟩

theorem Ready.adv {es : List Event} {s' : PState} {p : Pos} (h : Ready env A la pos s) (ha : Adv s s' es)
    (hi : Inv env.grammar s') (hp : Moves pos p) : Ready env A la p s' :=
  ⟨ha.args.trans h.args, ha.predicate.trans h.predicate, hi, h.pos.moves hp⟩

theorem Ready.stay {es : List Event} {s' : PState} (h : Ready env A la pos s) (ha : Adv s s' es)
    (hi : Inv env.grammar s') : Ready env A la pos s' := h.adv ha hi (Moves.refl _)

theorem Ready.reads {e : Nat} {s' : PState} {p : Pos} (h : Ready env A la pos s) (hr : Reads env (.expr e) s pos s' p)
    (hi : Inv env.grammar s') : Ready env A la p s' := by
  obtain ⟨I, _, ha⟩ := hr.items
  exact h.adv ha hi hr.moves

theorem event_n {ev : Event} (hi : Inv env.grammar s) :
    Wp False tim (event ev) s fun _ s' => Inv env.grammar s' ∧ Adv s s' [ev] := by
  refine (Wp.and (R := fun _ s' => Adv s s' [ev]) (Q := fun _ s' => Inv env.grammar s') ?_ fun x s' h => event_adv h)
  unfold event
  refine Wp.modify ?_
  split
  · exact hi
  · exact hi.same rfl rfl

theorem mark_n {Q : Nat → PState → Prop} (h : Q s.events.length s) : Wp False tim mark s Q := h

theorem nodeType_n {ty : Nat} {Q : NodeType → PState → Prop} (ht : ty < env.grammar.nodeTypes.length)
    (h : ∀ t, env.grammar.nodeTypes[ty]? = some t → Q t s) : Wp False tim (nodeType env ty) s Q :=
  Wp.lift (fun hn => by rw [List.getElem?_eq_none_iff] at hn; omega) h

theorem startTy_n {t : NodeType} (hi : Inv env.grammar s) :
    Wp False tim (startTy t) s fun m s' => m = s.events.length ∧ Inv env.grammar s' ∧ Adv s s' [.start t none] := by
  unfold startTy
  refine Wp.bind (mark_n ?_)
  exact Wp.seq (event_n hi) fun _ s' h => Wp.pure ⟨rfl, h⟩

theorem start_n {ty : Nat} (ht : ty < env.grammar.nodeTypes.length) (hi : Inv env.grammar s) :
    Wp False tim (start env ty) s fun m s' => m = s.events.length ∧ Inv env.grammar s' ∧
      ∃ t, Adv s s' [.start t none] := by
  unfold start
  refine Wp.bind (nodeType_n ht fun t _ => ?_)
  exact (startTy_n hi).mono fun m s' ⟨h1, h2, h3⟩ => ⟨h1, h2, t, h3⟩

theorem startError_n (hi : Inv env.grammar s) :
    Wp False tim startError s fun _ s' => Inv env.grammar s' ∧ Adv s s' [.start ERROR none] := by
  unfold startError
  exact Wp.seq (startTy_n hi) fun _ s' h => Wp.pure h.2

theorem finish_n (hi : Inv env.grammar s) :
    Wp False tim finish s fun _ s' => Inv env.grammar s' ∧ Adv s s' [.fin] := event_n hi

theorem rollback_n {s0 : PState} {es : List Event} (hi : Inv env.grammar s) (ha : Adv s0 s es) :
    Wp False tim (rollback s0.events.length) s fun _ s' => Inv env.grammar s' ∧ Adv s0 s' [] := by
  refine Wp.and (R := fun _ s' => Adv s0 s' []) (Q := fun _ s' => Inv env.grammar s') ?_
    fun x s' h => rollback_adv ha h
  unfold Wp rollback
  have : s0.events.length ≤ s.events.length := by
    rw [ha.events, app]
    split <;> simp
  rw [if_pos this]
  exact hi.same rfl rfl

theorem reopen_n {s0 : PState} {es : List Event} (hi : Inv env.grammar s) (ha : Adv s0 s (es ++ [.fin])) :
    Wp False tim reopen s fun _ s' => Inv env.grammar s' ∧ Adv s0 s' es := by
  refine Wp.and (R := fun _ s' => Adv s0 s' es) (Q := fun _ s' => Inv env.grammar s') ?_
    fun x s' h => reopen_adv ha h
  unfold Wp reopen
  by_cases hp : s.predicate = true
  · rw [if_pos hp]
    exact hi
  · rw [if_neg hp]
    have hp0 : s0.predicate = false := by
      have := ha.predicate
      simp_all
    rw [ha.not_pred hp0]
    simp only [← List.append_assoc, List.getLast?_append, List.getLast?_singleton, Option.or_some]
    exact hi.same rfl rfl

theorem bump_n (hE : EnvOk env) (hi : Inv env.grammar s) (hp : In env pos) :
    Wp False tim (bump env pos) s fun r s' => Inv env.grammar s' ∧
      (r = none → pos.cur = pos.stop ∧ s' = s) ∧ ∀ t p', r = some (t, p') →
        pos.cur ≠ pos.stop ∧ p' = pos.next ∧ Adv s s' [.token t 1] := by
  refine (Wp.and (Q := fun _ s' => Inv env.grammar s') ?_ fun r s' h => bump_adv h).mono
    fun r s' ⟨h1, h2, h3⟩ => ⟨h1, h2, fun t p' h => ?_⟩
  · unfold bump
    by_cases he : pos.isEmpty = true
    · rw [if_pos he]
      exact Wp.pure hi
    · rw [if_neg he]
      unfold tokenAt
      refine Wp.bind (Wp.lift ?_ fun t _ => ?_)
      · intro hn
        have hlt : pos.cur < env.nonWs.length := by
          have := hp.le
          have := hp.stop
          simp [Pos.isEmpty] at he
          omega
        generalize hx : env.nonWs[pos.cur] = x at *
        obtain ⟨st, k⟩ := x
        have hm : (st, k) ∈ env.nonWs := hx ▸ List.getElem_mem hlt
        have := (hE.token st k hm).1
        rw [List.getElem?_eq_getElem hlt, hx] at hn
        simp only [bind, Option.bind_some, List.getElem?_eq_none_iff] at hn
        omega
      · exact Wp.seq (event_n hi) fun _ s' h => Wp.pure h.1
  · obtain ⟨h4, h5, _, h6⟩ := h3 t p' h
    exact ⟨h4, h5, h6⟩

theorem bumpAllN_n (hE : EnvOk env) {n : Nat} (hi : Inv env.grammar s) (hp : In env pos)
    (hn : pos.stop - pos.cur < n) :
    Wp False tim (bumpAllN env n pos) s fun _ s' => Inv env.grammar s' ∧ ∃ es, Adv s s' es := by
  induction n generalizing s pos with
  | zero => omega
  | succ n ih =>
    unfold bumpAllN
    refine Wp.seq (bump_n hE hi hp) fun r s1 ⟨hi1, h1, h2⟩ => ?_
    cases r with
    | none =>
      obtain ⟨_, rfl⟩ := h1 rfl
      exact Wp.pure ⟨hi1, [], Adv.refl _⟩
    | some x =>
      obtain ⟨t, p⟩ := x
      obtain ⟨hne, rfl, ha⟩ := h2 _ _ rfl
      have := hp.le
      refine (ih hi1 (hp.moves (moves_next hne)) ?_).mono fun _ s2 ⟨hi2, es, ha2⟩ => ⟨hi2, _, ha.trans ha2⟩
      simp only [Pos.next]
      omega

theorem bumpAll_n (hE : EnvOk env) (hi : Inv env.grammar s) (hp : In env pos) :
    Wp False tim (bumpAll env pos) s fun _ s' => Inv env.grammar s' ∧ ∃ es, Adv s s' es := by
  have := hp.le
  have := hp.stop
  exact bumpAllN_n hE hi hp (by omega)

theorem byTextLoop_n (hE : EnvOk env) (rest : List (Nat × Nat)) (leftover n : Nat) (hi : Inv env.grammar s)
    (hp : In env pos) (hr : rest = env.nonWs.drop pos.cur) :
    Wp False tim (byTextLoop env rest leftover n pos) s fun _ s' => Inv env.grammar s' := by
  induction rest generalizing leftover n pos s with
  | nil =>
    unfold byTextLoop
    split
    · exact Wp.pure hi
    · split
      · exact Wp.pure hi
      · rename_i he
        have := hp.le
        have := hp.stop
        simp [Pos.isEmpty] at he
        have := List.drop_eq_nil_iff.1 hr.symm
        omega
  | cons x rest ih =>
    unfold byTextLoop
    split
    · exact Wp.pure hi
    · split
      · exact Wp.pure hi
      · rename_i he
        obtain ⟨st, k⟩ := x
        have hm : (st, k) ∈ env.nonWs := List.mem_of_mem_drop (by rw [← hr]; simp)
        refine Wp.bind (Wp.lift (fun hn => ?_) fun t _ => ?_)
        · rw [List.getElem?_eq_none_iff] at hn
          have := (hE.token st k hm).1
          omega
        · split
          · exact Wp.pure hi
          · refine ih _ _ hi (hp.moves (moves_next (by simpa [Pos.isEmpty] using he))) ?_
            show rest = env.nonWs.drop (pos.cur + 1)
            rw [← List.drop_drop, ← hr]
            rfl

theorem bumpByText_n (hE : EnvOk env) {text : List Nat} {ty : Nat} (hi : Inv env.grammar s) (hp : In env pos)
    (ht : ty < env.grammar.nodeTypes.length) :
    Wp False tim (bumpByText env pos text ty) s fun _ s' => Inv env.grammar s' := by
  unfold bumpByText
  split
  · exact Wp.pure hi
  · rename_i he
    have hlt : pos.cur < env.nonWs.length := by
      have := hp.le
      have := hp.stop
      simp [Pos.isEmpty] at he
      omega
    refine Wp.bind (Wp.lift (fun hn => ?_) fun x hx => ?_)
    · rw [List.getElem?_eq_none_iff] at hn
      omega
    · obtain ⟨st, k⟩ := x
      dsimp only
      have := (hE.token st k (List.mem_of_getElem? hx)).2
      rw [if_neg (by omega)]
      split
      · exact Wp.pure hi
      · refine Wp.seq (byTextLoop_n hE _ _ _ hi hp rfl) fun r s1 hi1 => ?_
        cases r with
        | none => exact Wp.pure hi1
        | some x =>
          exact Wp.bind (nodeType_n ht fun t _ => Wp.seq (event_n hi1) fun _ s2 h2 => Wp.pure h2.1)

/-! The constructs. -/

theorem modify_n {f : PState → PState} {Q : Unit → PState → Prop} (h : Q () (f s)) :
    Wp False tim (P.modify f) s Q := h

theorem parseExprPred_n (hN : RecN env rec) (hR : Reached env.grammar e A true) (h : Ready env A la pos s) :
    Wp False True (parseExprPred rec e pos) s fun r s' => Inv env.grammar s' ∧ Adv s s' [] ∧
      (r = none → MayFail env.grammar e) ∧ ∀ p, r = some p → Moves pos p ∧ pos.cur ≤ p.cur := by
  unfold parseExprPred
  refine Wp.bind (Wp.get (Wp.bind (modify_n ?_)))
  refine Wp.seq (hN e A true pos _ hR ⟨h.args, rfl, h.inv.same rfl rfl, h.pos⟩) fun r s1 h1 => ?_
  refine Wp.bind (modify_n (Wp.pure ⟨h1.inv.same rfl rfl, ?_, fun hr => (h1.fail hr).1, ?_⟩))
  · cases r with
    | none =>
      have := (h1.fail rfl).2
      exact Adv.of_eq rfl this.args (by simpa [app] using this.events)
    | some q =>
      obtain ⟨I, _, this⟩ := (h1.reads q rfl).items
      exact Adv.of_eq rfl this.args (by simpa [app] using this.events)
  · intro p hp
    have := h1.reads p hp
    obtain ⟨I, hI, _⟩ := this.items
    exact ⟨this.moves, by have := hI.expr_toks; omega⟩

theorem applyReplacement_n {m : Nat} {b : Bool} {t : NodeType} {s0 : PState} {es : List Event}
    (hi : Inv env.grammar s) (ha : Adv s0 s (.start t none :: es)) (hm : m = s0.events.length)
    (hb : s0.predicate = true → b = false) :
    Wp False tim (applyReplacement env m b) s fun _ s' => Inv env.grammar s' := by
  subst hm
  unfold applyReplacement
  refine Wp.bind (Wp.get ?_)
  cases b with
  | false => exact Wp.pure hi
  | true =>
    have hp : s0.predicate = false := by
      cases h : s0.predicate with
      | false => rfl
      | true => exact hb h
    cases hrep : s.replacement with
    | none => exact Wp.pure hi
    | some k =>
      refine Wp.bind (modify_n ?_)
      unfold replace
      refine Wp.bind (nodeType_n (hi.replacement k hrep) fun t' _ => ?_)
      unfold Wp
      simp only [ha.not_pred hp, get_mark]
      exact ⟨hi.contexts, by simp⟩

theorem parsePub_n (hN : RecN env rec) {ty body : Nat} {b : Bool} (hR : Reached env.grammar body A la)
    (hs : ty < env.grammar.nodeTypes.length ∧ (la = true → b = false)) (h : Ready env A la pos s) :
    Wp False True (parsePub env rec pos ty body b) s fun r s' => Inv env.grammar s' ∧
      (r = none → MayFail env.grammar body) := by
  unfold parsePub
  refine Wp.bind (modify_n ?_)
  have a0 : Adv s (if b = true then { s with replacement := none } else s) [] := by
    split <;> exact Adv.of_eq rfl rfl rfl
  have hi0 : Inv env.grammar (if b = true then { s with replacement := none } else s) := by
    split
    · exact ⟨h.inv.contexts, by simp⟩
    · exact h.inv
  generalize (if b = true then { s with replacement := none } else s) = s0 at a0 hi0
  have h0 := h.stay a0 hi0
  refine Wp.seq (start_n hs.1 hi0) fun m s1 ⟨hm, hi1, t, a1⟩ => ?_
  refine Wp.seq (hN body A la pos s1 hR (h0.stay a1 hi1)) fun r s2 h2 => ?_
  cases r with
  | none => exact Wp.pure ⟨h2.inv, fun _ => (h2.fail rfl).1⟩
  | some p =>
    obtain ⟨I, _, a2⟩ := (h2.reads p rfl).items
    refine Wp.seq (applyReplacement_n h2.inv (a1.trans a2) hm fun hp => hs.2 (h0.predicate ▸ hp)) fun _ s3 hi3 => ?_
    refine Wp.seq (finish_n hi3) fun _ s4 ⟨hi4, _⟩ => ?_
    exact Wp.bind (nodeType_n hs.1 fun t _ => Wp.bind (modify_n (Wp.pure ⟨hi4.same rfl rfl, by simp⟩)))

theorem parsePubReplace_n (hN : RecN env rec) {ty body : Nat} (hR : Reached env.grammar body A la)
    (hs : ty < env.grammar.nodeTypes.length) (h : Ready env A la pos s) :
    Wp False True (parsePubReplace rec pos ty body) s fun r s' => Inv env.grammar s' ∧
      (r = none → MayFail env.grammar body) := by
  unfold parsePubReplace
  refine Wp.seq (hN body A la pos s hR h) fun r s1 h1 => ?_
  cases r with
  | none => exact Wp.pure ⟨h1.inv, fun _ => (h1.fail rfl).1⟩
  | some p =>
    refine Wp.bind (modify_n (Wp.pure ⟨⟨h1.inv.contexts, ?_⟩, by simp⟩))
    rintro k ⟨⟩
    exact hs

theorem parseOr_n (hN : RecN env rec) {ps : List Nat} (hR : ∀ p, p ∈ ps → Reached env.grammar p A la)
    (h : Ready env A la pos s) :
    Wp False True (parseOr rec pos ps) s fun r s' => Inv env.grammar s' ∧
      (r = none → (∀ p, p ∈ ps → MayFail env.grammar p) ∧ Adv s s' []) ∧
      ∀ p, r = some p → ∃ e, e ∈ ps ∧ Reads env (.expr e) s pos s' p := by
  induction ps generalizing s with
  | nil => exact Wp.pure ⟨h.inv, fun _ => ⟨by simp, Adv.refl _⟩, by simp⟩
  | cons o os ih =>
    unfold parseOr
    refine Wp.seq (hN o A la pos s (hR o (by simp)) h) fun r s1 h1 => ?_
    cases r with
    | some p =>
      refine Wp.pure ⟨h1.inv, by simp, fun q hq => ⟨o, by simp, ?_⟩⟩
      cases hq
      exact h1.reads p rfl
    | none =>
      obtain ⟨hf, a1⟩ := h1.fail rfl
      refine (ih (fun p hp => hR p (by simp [hp])) (h.stay a1 h1.inv)).mono
        fun r s2 ⟨hi2, h2, h3⟩ => ⟨hi2, fun hr => ⟨?_, a1.nil_trans (h2 hr).2⟩, fun p hp => ?_⟩
      · intro p hp
        rcases List.mem_cons.1 hp with rfl | hp
        · exact hf
        · exact (h2 hr).1 p hp
      · obtain ⟨e, he, hm, I, hI, a2⟩ := h3 p hp
        rw [a1.args] at hI
        exact ⟨e, by simp [he], hm, I, hI, a1.nil_trans a2⟩

theorem andLoop_n (hN : RecN env rec) {ps : List Nat} {k : Nat} (hR : ∀ p, p ∈ ps → Reached env.grammar p A la)
    (h : Ready env A la pos s) :
    Wp False True (andLoop rec ps k pos) s fun r s' => Inv env.grammar s' ∧ k ≤ r.1 ∧
      (r.1 < k + ps.length → ∃ p, ps[r.1 - k]? = some p ∧ MayFail env.grammar p) := by
  induction ps generalizing k pos s with
  | nil => exact Wp.pure ⟨h.inv, Nat.le_refl _, by simp⟩
  | cons p ps ih =>
    unfold andLoop
    refine Wp.seq (hN p A la pos s (hR p (by simp)) h) fun r s1 h1 => ?_
    cases r with
    | none => exact Wp.pure ⟨h1.inv, Nat.le_refl _, fun _ => ⟨p, by simp, (h1.fail rfl).1⟩⟩
    | some q =>
      refine (ih (k := k + 1) (fun p hp => hR p (by simp [hp])) (h.reads (h1.reads q rfl) h1.inv)).mono
        fun r s2 ⟨hi2, hk, h2⟩ => ⟨hi2, by omega, fun hlt => ?_⟩
      obtain ⟨x, hx, hf⟩ := h2 (by simp only [List.length_cons] at hlt; omega)
      refine ⟨x, ?_, hf⟩
      rw [show r.1 - k = (r.1 - (k + 1)) + 1 by omega, List.getElem?_cons_succ]
      exact hx

theorem parseAnd_n (hN : RecN env rec) {ps : List Nat} {c : Option Nat}
    (hR : ∀ p, p ∈ ps → Reached env.grammar p A la) (h : Ready env A la pos s) :
    Wp False True (parseAnd rec pos ps c) s fun r s' => Inv env.grammar s' ∧
      (r = none → c.getD ps.length ≤ ps.length → ∃ p, p ∈ ps.take (c.getD ps.length) ∧ MayFail env.grammar p) := by
  unfold parseAnd
  refine Wp.seq (andLoop_n hN hR h) fun r s1 ⟨hi1, _, h1⟩ => ?_
  obtain ⟨k, p⟩ := r
  dsimp only at *
  split
  · rename_i hk
    refine Wp.pure ⟨hi1, fun _ hc => ?_⟩
    obtain ⟨x, hx, hf⟩ := h1 (by omega)
    refine ⟨x, ?_, hf⟩
    simp only [Nat.sub_zero] at hx
    exact List.mem_of_getElem? (i := k) (by rw [List.getElem?_take, if_pos hk]; exact hx)
  · refine Wp.seq (R := fun _ s' => Inv env.grammar s') ?_ fun _ s2 hi2 => Wp.pure ⟨hi2, by simp⟩
    refine Wp.cond (fun _ => ?_) fun _ => hi1
    exact Wp.seq (startError_n hi1) fun _ s2 h2 => (finish_n h2.1).mono fun _ s3 h3 => h3.1

theorem parseToken_n (hE : EnvOk env) {ty : Nat} (hs : ty < env.grammar.nodeTypes.length)
    (hi : Inv env.grammar s) (hp : In env pos) :
    Wp False tim (parseToken env pos ty) s fun _ s' => Inv env.grammar s' := by
  unfold parseToken
  refine Wp.seq (bump_n hE hi hp) fun r s1 ⟨hi1, _⟩ => ?_
  cases r with
  | none => exact Wp.pure hi1
  | some x =>
    refine Wp.bind (nodeType_n hs fun t _ => ?_)
    split <;> exact Wp.pure hi1

theorem parseOpt_n (hN : RecN env rec) {body : Nat} (hR : Reached env.grammar body A la) (h : Ready env A la pos s) :
    Wp False True (parseOpt rec pos body) s fun r s' => Inv env.grammar s' ∧ r ≠ none := by
  unfold parseOpt
  exact Wp.seq (hN body A la pos s hR h) fun r s1 h1 => Wp.pure ⟨h1.inv, by simp⟩

theorem parseNot_n (hN : RecN env rec) {body : Nat} (hR : Reached env.grammar body A true) (h : Ready env A la pos s) :
    Wp False True (parseNot rec pos body) s fun _ s' => Inv env.grammar s' := by
  unfold parseNot
  refine Wp.seq (parseExprPred_n hN hR h) fun r s1 h1 => ?_
  cases r <;> exact Wp.pure h1.1

theorem parseLayer_n (hE : EnvOk env) (hN : RecN env rec) {l body : Nat} (hL : Reached env.grammar l A true)
    (hR : Reached env.grammar body A la) (h : Ready env A la pos s) :
    Wp False True (parseLayer env rec pos l body) s fun r s' => Inv env.grammar s' ∧
      (r = none → MayFail env.grammar l) := by
  unfold parseLayer
  refine Wp.seq (parseExprPred_n hN hL h) fun r s1 ⟨hi1, a1, hf, hm⟩ => ?_
  cases r with
  | none => exact Wp.pure ⟨hi1, fun _ => hf rfl⟩
  | some rest =>
    obtain ⟨hm, hle⟩ := hm rest rfl
    have hin : In env (cutSuffix pos rest) := by
      have := hm.le h.pos.le
      have := h.pos.stop
      exact ⟨hle, by simp only [cutSuffix]; omega⟩
    have h1 : Ready env A la (cutSuffix pos rest) s1 := ⟨a1.args.trans h.args, a1.predicate.trans h.predicate, hi1, hin⟩
    refine Wp.seq (hN body A la _ s1 hR h1) fun r2 s2 h2 => ?_
    refine Wp.seq (R := fun _ s' => Inv env.grammar s') ?_ fun _ s2 hi2 => Wp.pure ⟨hi2, by simp⟩
    have hin2 : In env (r2.getD (cutSuffix pos rest)) := by
      cases r2 with
      | none => exact hin
      | some q => exact hin.moves (h2.reads q rfl).moves
    refine Wp.cond (fun _ => ?_) fun _ => h2.inv
    refine Wp.seq (startError_n h2.inv) fun _ s3 h3 => ?_
    refine Wp.seq (bumpAll_n hE h3.1 hin2) fun _ s4 h4 => ?_
    exact (finish_n h4.1).mono fun _ s5 h5 => h5.1

theorem repLoop_n (hN : RecN env rec) {body n : Nat} (hR : Reached env.grammar body A la) (h : Ready env A la pos s) :
    Wp False True (repLoop rec body n pos) s fun r s' => Inv env.grammar s' ∧ r ≠ none := by
  induction n generalizing pos s with
  | zero => trivial
  | succ n ih =>
    unfold repLoop
    refine Wp.seq (hN body A la pos s hR h) fun r s1 h1 => ?_
    cases r with
    | none => exact Wp.pure ⟨h1.inv, by simp⟩
    | some q => exact ih (h.reads (h1.reads q rfl) h1.inv)

theorem withSkipTry_n (hN : RecN env rec) {l body : Nat} (hL : Reached env.grammar l A true)
    (hR : Reached env.grammar body A la) (h : Ready env A la pos s) :
    Wp False True (withSkipTry rec pos l body) s fun r s' => Inv env.grammar s' ∧ (r = none → Adv s s' []) := by
  unfold withSkipTry
  refine Wp.seq (parseExprPred_n hN hL h) fun r s1 ⟨hi1, a1, _, _⟩ => ?_
  cases r with
  | none => exact Wp.pure ⟨hi1, fun _ => a1⟩
  | some q =>
    exact (hN body A la pos s1 hR (h.stay a1 hi1)).mono fun r s2 h2 =>
      ⟨h2.inv, fun hr => a1.nil_trans (h2.fail hr).2⟩

theorem withSkipLoop_n (hE : EnvOk env) (hN : RecN env rec) {l body n : Nat} {skipped : Bool}
    (hL : Reached env.grammar l A true) (hR : Reached env.grammar body A la) (h : Ready env A la pos s) :
    Wp False True (withSkipLoop env rec l body n skipped pos) s fun _ s' => Inv env.grammar s' := by
  induction n generalizing pos s skipped with
  | zero => trivial
  | succ n ih =>
    unfold withSkipLoop
    have h1 : Wp False True (P.cond skipped finish) s fun _ s' => Inv env.grammar s' ∧
        Adv s s' (if skipped then [.fin] else []) := by
      refine Wp.cond (fun hs => ?_) fun hs => ?_
      · rw [hs]
        exact finish_n h.inv
      · rw [hs]
        exact ⟨h.inv, Adv.refl _⟩
    refine Wp.seq h1 fun _ s1 ⟨hi1, a1⟩ => ?_
    have hr1 := h.stay a1 hi1
    refine Wp.seq (withSkipTry_n hN hL hR hr1) fun r s2 ⟨hi2, a2⟩ => ?_
    cases r with
    | some q => exact Wp.pure hi2
    | none =>
      have a2 := a2 rfl
      have h3 : Wp False True (skipOpen skipped) s2 fun _ s' => Inv env.grammar s' ∧ ∃ es, Adv s s' es := by
        unfold skipOpen
        cases skipped with
        | true => exact (reopen_n (es := []) hi2 (a1.trans_nil a2)).mono fun _ s3 ⟨hi3, a3⟩ => ⟨hi3, _, a3⟩
        | false => exact (startError_n hi2).mono fun _ s3 ⟨hi3, a3⟩ => ⟨hi3, _, (a1.trans_nil a2).trans a3⟩
      refine Wp.seq h3 fun _ s3 ⟨hi3, es, a3⟩ => ?_
      refine Wp.seq (bump_n hE hi3 h.pos) fun r s4 ⟨hi4, _, h4⟩ => ?_
      cases r with
      | none => exact Wp.pure hi4
      | some x =>
        obtain ⟨t, p⟩ := x
        obtain ⟨hne, rfl, a4⟩ := h4 _ _ rfl
        exact ih (h.adv (a3.trans a4) hi4 (moves_next hne))

theorem parseWithContext_n (hN : RecN env rec) {c body : Nat} {v : Bool} (hR : Reached env.grammar body A la)
    (hc : c < 16) (h : Ready env A la pos s) :
    Wp False True (parseWithContext rec pos c body v) s fun r s' => Inv env.grammar s' ∧
      (r = none → MayFail env.grammar body) := by
  unfold parseWithContext
  refine Wp.bind (Wp.get (Wp.bind (Wp.lift (fun hn => ?_) fun old _ => Wp.bind (modify_n ?_))))
  · rw [List.getElem?_eq_none_iff, h.inv.contexts] at hn
    omega
  · refine Wp.seq (hN body A la pos _ hR ⟨h.args, h.predicate, ⟨?_, h.inv.replacement⟩, h.pos⟩) fun r s1 h1 => ?_
    · simp [h.inv.contexts]
    · exact Wp.bind (modify_n (Wp.pure ⟨⟨by simp [h1.inv.contexts], h1.inv.replacement⟩, fun hr => (h1.fail hr).1⟩))

theorem parseIsIn_n {c : Nat} (hc : c < 16) (hi : Inv env.grammar s) :
    Wp False tim (parseIsIn pos c) s fun _ s' => Inv env.grammar s' := by
  unfold parseIsIn
  refine Wp.bind (Wp.get (Wp.bind (Wp.lift (fun hn => ?_) fun b _ => ?_)))
  · rw [List.getElem?_eq_none_iff, hi.contexts] at hn
    omega
  · split <;> exact Wp.pure hi

/-- Arguments that can be bound can be set. -/
theorem setArgs_n {args : List (Nat × Nat)} {A' : Args} (hb : Binds env.grammar A args A') (hs : s.args = A)
    (ha : ∀ x, x ∈ args → ∃ rule, env.grammar.rules[x.2]? = some rule) :
    Wp False tim (setArgs env args) s fun _ s' => s' = { s with args := A' } := by
  induction hb generalizing s with
  | nil =>
    subst hs
    exact Wp.pure rfl
  | @value A A' i a args hi hv _ ih =>
    unfold setArgs
    obtain ⟨rule, hrule⟩ := ha (i, a) (by simp)
    refine Wp.seq (R := fun b s' => b = a ∧ s' = s) ?_ fun b s1 ⟨h1, h2⟩ => ?_
    · unfold resolveArg
      refine Wp.bind (Wp.get (Wp.bind (Wp.lift (fun hn => by simp_all) fun x hx => ?_)))
      split
      · exact absurd hx (hv _)
      · exact Wp.pure ⟨rfl, rfl⟩
    · subst h1 h2
      refine Wp.bind (Wp.get ?_)
      rw [if_pos (by rw [hs]; exact hi)]
      refine Wp.bind (modify_n ((ih (by simp [hs]) fun x hx => ha x (by simp [hx])).mono fun _ s2 h => ?_))
      rw [h]
  | @passOn A A' i a j b args hi hv hb _ ih =>
    unfold setArgs
    refine Wp.seq (R := fun c s' => c = b ∧ s' = s) ?_ fun c s1 ⟨h1, h2⟩ => ?_
    · unfold resolveArg
      refine Wp.bind (Wp.get (Wp.bind (Wp.lift (fun hn => by simp_all) fun x hx => ?_)))
      rw [hv] at hx
      cases hx
      dsimp only
      rw [hs, hb]
      exact Wp.pure ⟨rfl, rfl⟩
    · subst h1 h2
      refine Wp.bind (Wp.get ?_)
      rw [if_pos (by rw [hs]; exact hi)]
      refine Wp.bind (modify_n ((ih (by simp [hs]) fun x hx => ha x (by simp [hx])).mono fun _ s2 h => ?_))
      rw [h]

theorem parseCall_n (hN : RecN env rec) {body : Nat} {args : List (Nat × Nat)} {A' : Args}
    (hb : Binds env.grammar A args A') (ha : ∀ x, x ∈ args → ∃ rule, env.grammar.rules[x.2]? = some rule)
    (hR : Reached env.grammar body A' la) (h : Ready env A la pos s) :
    Wp False True (parseCall env rec pos body args) s fun r s' => Inv env.grammar s' ∧
      (r = none → MayFail env.grammar body) := by
  unfold parseCall
  refine Wp.bind (Wp.get ?_)
  refine Wp.seq (setArgs_n hb h.args ha) fun _ s1 h1 => ?_
  subst h1
  refine Wp.seq (hN body A' la pos _ hR ⟨rfl, h.predicate, h.inv.same rfl rfl, h.pos⟩) fun r s1 h1 => ?_
  exact Wp.bind (modify_n (Wp.pure ⟨h1.inv.same rfl rfl, fun hr => (h1.fail hr).1⟩))

theorem parseVar_n (hN : RecN env rec) {i a : Nat} (hv : A[i]? = some (some a)) (hR : Reached env.grammar a A la)
    (h : Ready env A la pos s) :
    Wp False True (parseVar rec pos i) s fun r s' => Inv env.grammar s' ∧ (r = none → MayFail env.grammar a) := by
  unfold parseVar
  refine Wp.bind (Wp.get ?_)
  rw [h.args, hv]
  exact Wp.seq (R := fun x s' => x = a ∧ s' = s) (Wp.pure ⟨rfl, rfl⟩) fun x s1 ⟨h1, h2⟩ => by
    subst h1 h2
    exact (hN _ A la pos _ hR h).mono fun r s2 h2 => ⟨h2.inv, fun hr => (h2.fail hr).1⟩

theorem prevIsLoop_n {t : NodeType} {tys : List Nat} (ht : ∀ ty, ty ∈ tys → ty < env.grammar.nodeTypes.length)
    (hi : Inv env.grammar s) : Wp False tim (prevIsLoop env t pos tys) s fun _ s' => Inv env.grammar s' := by
  induction tys with
  | nil => exact Wp.pure hi
  | cons ty tys ih =>
    unfold prevIsLoop
    refine Wp.bind (nodeType_n (ht ty (by simp)) fun t _ => ?_)
    split
    · exact Wp.pure hi
    · exact ih fun ty h => ht ty (by simp [h])

theorem parsePrevIs_n {tys : List Nat} (ht : ∀ ty, ty ∈ tys → ty < env.grammar.nodeTypes.length)
    (hi : Inv env.grammar s) : Wp False tim (parsePrevIs env pos tys) s fun _ s' => Inv env.grammar s' := by
  unfold parsePrevIs
  refine Wp.bind (Wp.get ?_)
  split
  · exact prevIsLoop_n ht hi
  · exact Wp.pure hi

/-- Linking the node that starts at `c`. -/
theorem forwardParent_n {c p : Nat} {ty : NodeType} {fp : Option Nat} (hi : Inv env.grammar s) (hcp : c ≤ p)
    (hc : s.events[c]? = some (.start ty fp)) :
    Wp False tim (forwardParent c p) s fun _ s' => Inv env.grammar s' ∧ s'.args = s.args ∧
      s'.predicate = s.predicate ∧ s'.events = s.events.set c (.start ty (some (p - c))) := by
  unfold Wp forwardParent
  simp only [hc, hcp, if_true]
  exact ⟨hi.same rfl rfl, trivial, trivial, trivial⟩

theorem parseInject_n (hN : RecN env rec) {pre body : Nat} (hP : Reached env.grammar pre A la)
    (hR : Reached env.grammar body A la) (hla : la = false) (hl : ¬ Loose env.grammar pre)
    (hA : A.Passed env.grammar) (h : Ready env A la pos s) :
    Wp False True (parseInject rec pos pre body) s fun r s' => Inv env.grammar s' ∧
      (r = none → MayFail env.grammar pre ∨ MayFail env.grammar body) := by
  unfold parseInject
  refine Wp.bind (mark_n ?_)
  refine Wp.seq (hN pre A la pos s hP h) fun r s1 h1 => ?_
  cases r with
  | none => exact Wp.pure ⟨h1.inv, fun _ => Or.inl (h1.fail rfl).1⟩
  | some p =>
    refine Wp.bind (mark_n ?_)
    have hrd := h1.reads p rfl
    refine Wp.seq (hN body A la p s1 hR (h.reads hrd h1.inv)) fun r s2 h2 => ?_
    cases r with
    | none => exact Wp.pure ⟨h2.inv, fun _ => Or.inr (h2.fail rfl).1⟩
    | some q =>
      refine Wp.seq (R := fun _ s' => Inv env.grammar s') ?_ fun _ s3 h3 => Wp.pure ⟨h3, by simp⟩
      refine Wp.cond (fun hne => ?_) fun _ => h2.inv
      obtain ⟨I, hI, a1⟩ := hrd.items
      obtain ⟨J, hJ, a2⟩ := (h2.reads q rfl).items
      have hp : s.predicate = false := h.predicate.trans hla
      have hI' : I ≠ .nil := by
        rintro rfl
        have hc : pos.cur = p.cur := hI.head_of_toks
        have hst := hrd.moves.stop
        obtain ⟨c, st⟩ := pos
        obtain ⟨c', st'⟩ := p
        simp_all
      rw [h.args] at hI
      obtain ⟨ty, fp, tl, he⟩ := Items.encode_of_opens ((hI.nilOrOpens hA hl).resolve_left hI')
      have hev := (a1.trans a2).not_pred hp
      rw [he] at hev
      refine (forwardParent_n (ty := ty) (fp := fp) h2.inv ?_ ?_).mono fun _ s3 h3 => h3.1
      · rw [a1.not_pred hp]
        simp
      · rw [hev, List.cons_append, get_mark]

theorem parseCached_n (hE : EnvOk env) (hN : RecN env rec) {body : Nat} (hR : Reached env.grammar body A la)
    (h : Ready env A la pos s) :
    Wp False True (parseCached env rec pos body) s fun r s' => Inv env.grammar s' ∧
      (r = none → MayFail env.grammar body) := by
  unfold parseCached
  refine Wp.seq (R := fun m s' => m = s.events.length ∧ Inv env.grammar s' ∧ Adv s s' [.cached body 0]) ?_
    fun m s1 ⟨hm, hi1, a1⟩ => ?_
  · unfold startCached
    refine Wp.bind (mark_n ?_)
    exact Wp.seq (event_n h.inv) fun _ s' h => Wp.pure ⟨rfl, h⟩
  · refine Wp.seq (R := Done env body pos s1) ?_ fun r s2 h2 => ?_
    · unfold cachedOrParse getFromCache
      rw [hE.cache]
      exact Wp.bind (Wp.pure (hN body A la pos s1 hR (h.stay a1 hi1)))
    · cases r with
      | none => exact Wp.pure ⟨h2.inv, fun _ => (h2.fail rfl).1⟩
      | some q =>
        obtain ⟨I, _, a2⟩ := (h2.reads q rfl).items
        have ha := a1.trans a2
        refine Wp.seq (R := fun _ s' => Inv env.grammar s') ?_ fun _ s3 h3 => Wp.pure ⟨h3, by simp⟩
        unfold Wp finishCached
        cases hp : s.predicate with
        | true =>
          rw [if_pos (by rw [ha.predicate, hp])]
          exact h2.inv
        | false =>
          rw [if_neg (by rw [ha.predicate, hp]; simp), hm, ha.not_pred hp, List.cons_append, get_mark]
          exact h2.inv.same rfl rfl

/-! Operator expressions. -/

variable {go : Pos → Nat → P (Option Pos)} {table : PrattTable}

/-- `pratt_go` does not panic. -/
def GoN (env : Env) (table : PrattTable) (A : Args) (la : Bool) (go : Pos → Nat → P (Option Pos)) : Prop :=
  ∀ pos p s, Ready env A la pos s → Wp False True (go pos p) s fun r s' => Inv env.grammar s' ∧
    (r = none → Adv s s' []) ∧ ∀ p', r = some p' → Reads env (.pratt table p) s pos s' p'

theorem prattRhs_n (hG : GoN env table A la go) {ix : Infix} (h : Ready env A la pos s) :
    Wp False True (prattRhs go ix pos) s fun p s' => Inv env.grammar s' ∧ Moves pos p ∧ ∃ es, Adv s s' es := by
  unfold prattRhs
  split
  · refine Wp.seq (hG pos _ s h) fun r s1 ⟨hi1, hf, hr⟩ => ?_
    cases r with
    | some q =>
      obtain ⟨hm, I, _, a⟩ := hr q rfl
      exact Wp.pure ⟨hi1, hm, _, a⟩
    | none =>
      refine Wp.seq (startError_n hi1) fun _ s2 ⟨hi2, a2⟩ => ?_
      exact Wp.seq (finish_n hi2) fun _ s3 ⟨hi3, a3⟩ =>
        Wp.pure ⟨hi3, Moves.refl _, _, ((hf rfl).trans a2).trans a3⟩
  · exact Wp.pure ⟨h.inv, Moves.refl _, _, Adv.refl _⟩

/-- A node starts at `m`, or nothing is there yet. -/
def StartAt (es : List Event) (m : Nat) : Prop := m = es.length ∨ ∃ ty fp, es[m]? = some (.start ty fp)

theorem StartAt.append {es : List Event} {m : Nat} {ty : NodeType} {fp : Option Nat} (h : StartAt es m)
    (es' : List Event) : ∃ ty' fp', (es ++ .start ty fp :: es')[m]? = some (.start ty' fp') := by
  rcases h with rfl | ⟨ty', fp', h⟩
  · exact ⟨ty, fp, get_mark⟩
  · refine ⟨ty', fp', ?_⟩
    rw [List.getElem?_append_left (List.getElem?_eq_some_iff.1 h).1]
    exact h

theorem StartAt.le {es : List Event} {m : Nat} (h : StartAt es m) : m ≤ es.length := by
  rcases h with rfl | ⟨ty', fp', h⟩
  · exact Nat.le_refl _
  · exact Nat.le_of_lt (List.getElem?_eq_some_iff.1 h).1

theorem prattInfixes_n (hN : RecN env rec) (hG : GoN env table A la go) {ixs : List Infix} {lhs : Nat}
    (hR : ∀ ix, ix ∈ ixs → Reached env.grammar ix.op A la)
    (hs : ∀ ix, ix ∈ ixs → ix.ty < env.grammar.nodeTypes.length ∧ la = false)
    (hlhs : ixs ≠ [] → StartAt s.events lhs) (h : Ready env A la pos s) :
    Wp False True (prattInfixes env rec go lhs pos ixs) s fun r s' => Inv env.grammar s' ∧
      ∀ lhs' p, r = some (lhs', p) → StartAt s'.events lhs' ∧ Ready env A la p s' := by
  induction ixs generalizing s with
  | nil => exact Wp.pure ⟨h.inv, by simp⟩
  | cons ix ixs ih =>
    unfold prattInfixes
    obtain ⟨hty, hla⟩ := hs ix (by simp)
    have hlhs := hlhs (by simp)
    have hp : s.predicate = false := h.predicate.trans hla
    refine Wp.bind (mark_n ?_)
    refine Wp.seq (start_n hty h.inv) fun m s1 ⟨hm, hi1, t, a1⟩ => ?_
    subst hm
    have h1 := h.stay a1 hi1
    refine Wp.seq (hN ix.op A la pos s1 (hR ix (by simp)) h1) fun r s2 h2 => ?_
    cases r with
    | none =>
      have a2 := (h2.fail rfl).2
      refine Wp.seq (rollback_n h2.inv (a1.trans a2)) fun _ s3 ⟨hi3, a3⟩ => ?_
      refine ih (fun ix hx => hR ix (by simp [hx])) (fun ix hx => hs ix (by simp [hx])) (fun _ => ?_) (h.stay a3 hi3)
      rw [a3.not_pred hp]
      simpa using hlhs
    | some rest =>
      have hrd := h2.reads rest rfl
      obtain ⟨I, _, a2⟩ := hrd.items
      have hev := (a1.trans a2).not_pred hp
      simp only [List.singleton_append] at hev
      obtain ⟨ty', fp', hget⟩ := hlhs.append (ty := t) (fp := none) I.encode
      rw [← hev] at hget
      refine Wp.seq (forwardParent_n h2.inv hlhs.le hget) fun _ s3 ⟨hi3, h3a, h3p, h3e⟩ => ?_
      have h2' := h1.reads hrd h2.inv
      have h3 : Ready env A la rest s3 := ⟨h3a.trans h2'.args, h3p.trans h2'.predicate, hi3, h2'.pos⟩
      refine Wp.seq (prattRhs_n hG h3) fun q s4 ⟨hi4, hm4, es, a4⟩ => ?_
      refine Wp.bind (nodeType_n hty fun ty _ => Wp.bind (modify_n ?_))
      have a5 := a4.setPrev (p := some ty)
      refine Wp.seq (finish_n (hi4.same rfl rfl)) fun _ s6 ⟨hi6, a6⟩ => ?_
      refine Wp.pure ⟨hi6, ?_⟩
      rintro lhs' p ⟨⟩
      refine ⟨Or.inr ?_, h3.adv (a5.trans a6) hi6 hm4⟩
      rw [(a5.trans a6).not_pred (h3.predicate.trans hla), h3e, hev]
      by_cases hl : lhs = s.events.length
      · subst hl
        rw [set_mark]
        exact ⟨_, _, by rw [List.append_assoc]; exact get_mark⟩
      · have hlt : lhs < s.events.length := by
          have := hlhs.le
          omega
        rw [List.set_append_left _ _ hlt, List.append_assoc, List.getElem?_append_right (by simp)]
        simp

theorem prattLoop_n (hN : RecN env rec) (hG : GoN env table A la go) {mp n lhs : Nat}
    (hR : ∀ ix, ix ∈ table.infixes → Reached env.grammar ix.op A la)
    (hs : ∀ ix, ix ∈ table.infixes → ix.ty < env.grammar.nodeTypes.length ∧ la = false)
    (hlhs : table.infixes ≠ [] → StartAt s.events lhs) (h : Ready env A la pos s) :
    Wp False True (prattLoop env rec go table mp n lhs pos) s fun _ s' => Inv env.grammar s' := by
  induction n generalizing s pos lhs with
  | zero => trivial
  | succ n ih =>
    unfold prattLoop
    have hsub : ∀ ix, ix ∈ table.infixesFrom mp → ix ∈ table.infixes := fun ix h => (List.mem_filter.1 h).1
    refine Wp.seq (prattInfixes_n hN hG (fun ix hx => hR ix (hsub ix hx)) (fun ix hx => hs ix (hsub ix hx))
      (fun hne => hlhs ?_) h) fun r s1 ⟨hi1, h1⟩ => ?_
    · intro h0
      apply hne
      simp [PrattTable.infixesFrom, h0]
    · cases r with
      | none => exact Wp.pure hi1
      | some x =>
        obtain ⟨lhs', p⟩ := x
        obtain ⟨h2, h3⟩ := h1 _ _ rfl
        exact ih (fun _ => h2) h3

theorem prattPrefixes_n (hN : RecN env rec) (hG : GoN env table A la go) {pfs : List Prefix}
    (hR : ∀ pf, pf ∈ pfs → Reached env.grammar pf.op A la)
    (hs : ∀ pf, pf ∈ pfs → pf.ty < env.grammar.nodeTypes.length) (h : Ready env A la pos s) :
    Wp False True (prattPrefixes env rec go pos pfs) s fun r s' => Inv env.grammar s' ∧ ∀ p, r = some p →
      Moves pos p ∧ ∃ t es, Adv s s' (.start t none :: es) := by
  induction pfs generalizing s with
  | nil => exact Wp.pure ⟨h.inv, by simp⟩
  | cons pf pfs ih =>
    unfold prattPrefixes
    refine Wp.seq (start_n (hs pf (by simp)) h.inv) fun m s1 ⟨hm, hi1, t, a1⟩ => ?_
    subst hm
    have h1 := h.stay a1 hi1
    have h2 : Wp False True (prattOperand rec go pf pos) s1 fun r s' => Inv env.grammar s' ∧
        (r = none → ∃ es, Adv s1 s' es) ∧ ∀ p, r = some p → Moves pos p ∧ ∃ es, Adv s1 s' es := by
      unfold prattOperand
      refine Wp.seq (hN pf.op A la pos s1 (hR pf (by simp)) h1) fun r s2 h2 => ?_
      cases r with
      | none => exact Wp.pure ⟨h2.inv, fun _ => ⟨_, (h2.fail rfl).2⟩, by simp⟩
      | some q =>
        have hrd := h2.reads q rfl
        obtain ⟨I, _, a2⟩ := hrd.items
        refine (hG q _ s2 (h1.reads hrd h2.inv)).mono fun r s3 ⟨hi3, hf, hr⟩ =>
          ⟨hi3, fun hn => ⟨_, a2.trans (hf hn)⟩, fun p hp => ?_⟩
        obtain ⟨hm, J, _, a3⟩ := hr p hp
        exact ⟨hrd.moves.trans hm, _, a2.trans a3⟩
    refine Wp.seq h2 fun r s2 ⟨hi2, hf, hr⟩ => ?_
    cases r with
    | some q =>
      obtain ⟨hm, es, a2⟩ := hr q rfl
      refine Wp.bind (nodeType_n (hs pf (by simp)) fun ty _ => Wp.bind (modify_n ?_))
      refine Wp.seq (finish_n (hi2.same rfl rfl)) fun _ s4 ⟨hi4, a4⟩ => Wp.pure ⟨hi4, ?_⟩
      rintro p ⟨⟩
      exact ⟨hm, t, _, (a1.trans a2).setPrev.trans a4⟩
    | none =>
      obtain ⟨es, a2⟩ := hf rfl
      refine Wp.seq (rollback_n hi2 (a1.trans a2)) fun _ s3 ⟨hi3, a3⟩ => ?_
      refine (ih (fun ix hx => hR ix (by simp [hx])) (fun ix hx => hs ix (by simp [hx])) (h.stay a3 hi3)).mono
        fun r s4 ⟨hi4, h4⟩ => ⟨hi4, fun p hp => ?_⟩
      obtain ⟨hm, t, es, a4⟩ := h4 p hp
      exact ⟨hm, t, es, a3.nil_trans a4⟩

theorem prattGo_n (hr : RecReads env rec) (hN : RecN env rec) (hA : A.Passed env.grammar)
    (hRa : ∀ a, a ∈ table.atoms → Reached env.grammar a A la)
    (hRp : ∀ pf, pf ∈ table.prefixes → Reached env.grammar pf.op A la)
    (hRi : ∀ ix, ix ∈ table.infixes → Reached env.grammar ix.op A la)
    (hsp : ∀ pf, pf ∈ table.prefixes → pf.ty < env.grammar.nodeTypes.length)
    (hsi : ∀ ix, ix ∈ table.infixes → ix.ty < env.grammar.nodeTypes.length ∧ la = false)
    (hl : table.infixes ≠ [] → ∀ a, a ∈ table.atoms → ¬ Loose env.grammar a) {n : Nat} :
    GoN env table A la (prattGo env rec table n) := by
  induction n with
  | zero => exact fun _ _ _ _ => trivial
  | succ n ih =>
    intro pos p s h
    refine Wp.and ?_ fun r s' hok => prattGo_reads hr _ _ _ _ _ hok
    unfold prattGo
    refine Wp.bind (mark_n ?_)
    have h1 : Wp False True (prattPrefix env rec (prattGo env rec table n) table pos) s fun r s' =>
        Inv env.grammar s' ∧ ∀ p, r = some p → Moves pos p ∧ ∃ es, Adv s s' es ∧
          (table.infixes ≠ [] → es = [] ∨ ∃ ty fp tl, es = .start ty fp :: tl) := by
      unfold prattPrefix
      refine Wp.seq (parseOr_n hN hRa h) fun r s1 ⟨hi1, hf, hrd⟩ => ?_
      cases r with
      | some q =>
        refine Wp.pure ⟨hi1, ?_⟩
        rintro p ⟨⟩
        obtain ⟨e, he, hm, I, hI, a⟩ := hrd q rfl
        refine ⟨hm, _, a, fun hne => ?_⟩
        rw [h.args] at hI
        rcases hI.nilOrOpens hA (hl hne e he) with rfl | ho
        · exact Or.inl rfl
        · exact Or.inr (Items.encode_of_opens ho)
      | none =>
        have a1 := (hf rfl).2
        refine (prattPrefixes_n hN ih hRp hsp (h.stay a1 hi1)).mono fun r s2 ⟨hi2, h2⟩ => ⟨hi2, fun p hp => ?_⟩
        obtain ⟨hm, t, es, a2⟩ := h2 p hp
        exact ⟨hm, _, a1.nil_trans a2, fun _ => Or.inr ⟨t, none, es, rfl⟩⟩
    refine Wp.seq h1 fun r s1 ⟨hi1, h1⟩ => ?_
    cases r with
    | none => exact Wp.pure hi1
    | some q =>
      obtain ⟨hm, es, a1, hes⟩ := h1 q rfl
      refine prattLoop_n hN ih hRi hsi (fun hne => ?_) (h.adv a1 hi1 hm)
      have hp : s.predicate = false := by
        obtain ⟨ix, hix⟩ := List.exists_mem_of_ne_nil _ hne
        exact h.predicate.trans (hsi ix hix).2
      rw [a1.not_pred hp]
      rcases hes hne with rfl | ⟨ty, fp, tl, rfl⟩
      · exact Or.inl (by simp)
      · exact Or.inr ⟨ty, fp, get_mark⟩

/-! Everything together. -/

theorem _root_.Fall.Spec.Reached.passed {g : Grammar} (h : Reached g e A la) : A.Passed g := by
  induction h with
  | start => exact passed_new g
  | part _ _ _ ih => exact ih
  | call _ he hb ih => exact hb.passed he (fun _ h => h) ih
  | var _ _ _ ih => exact ih

theorem parseExprInner_n (hE : EnvOk env) (hS : ∀ e A la, Reached env.grammar e A la →
    ∃ rule, env.grammar.rules[e]? = some rule ∧ RuleSafe env.grammar A la rule) (hr : RecReads env rec) (hN : RecN env rec)
    {n : Nat} (hR : Reached env.grammar e A la) (h : Ready env A la pos s) :
    Wp False True (parseExprInner env rec n e pos) s fun r s' => Inv env.grammar s' ∧
      (r = none → MayFail env.grammar e) := by
  obtain ⟨rule, he, hsafe⟩ := hS e A la hR
  have part : ∀ e' la', (e', la') ∈ tries rule → Reached env.grammar e' A (la || la') :=
    fun e' la' hm => .part hR he hm
  have part' : ∀ e', (e', false) ∈ tries rule → Reached env.grammar e' A la := fun e' hm => by
    simpa using part e' false hm
  have partLa : ∀ e', (e', true) ∈ tries rule → Reached env.grammar e' A true := fun e' hm => by
    simpa using part e' true hm
  unfold parseExprInner
  rw [he]
  refine Wp.bind (Wp.pure ?_)
  cases rule with
  | pub ty body b =>
    exact (parsePub_n hN (part' _ (by simp [tries])) hsafe h).mono fun r s' h' => ⟨h'.1, fun hr => .pub he (h'.2 hr)⟩
  | pubReplace ty body =>
    exact (parsePubReplace_n hN (part' _ (by simp [tries])) hsafe h).mono fun r s' h' =>
      ⟨h'.1, fun hr => .pubReplace he (h'.2 hr)⟩
  | or ps =>
    exact (parseOr_n hN (fun p hp => part' _ (by simp [tries, hp])) h).mono fun r s' h' =>
      ⟨h'.1, fun hr => .or he (h'.2.1 hr).1⟩
  | and ps c =>
    refine (parseAnd_n hN (fun p hp => part' _ (by simp [tries, hp])) h).mono fun r s' h' => ⟨h'.1, fun hr => ?_⟩
    by_cases hc : c.getD ps.length ≤ ps.length
    · obtain ⟨p, hp, hf⟩ := h'.2 hr hc
      exact .and he hp hf
    · cases c with
      | none => simp at hc
      | some c => exact .commit he (by simpa using hc)
  | token ty => exact (parseToken_n hE hsafe h.inv h.pos).mono fun r s' h' => ⟨h', fun _ => .token he⟩
  | contextualToken ty w => exact (bumpByText_n hE h.inv h.pos hsafe).mono fun r s' h' => ⟨h', fun _ => .contextual he⟩
  | opt body =>
    exact (parseOpt_n hN (part' _ (by simp [tries])) h).mono fun r s' h' => ⟨h'.1, fun hr => absurd hr h'.2⟩
  | not body => exact (parseNot_n hN (partLa _ (by simp [tries])) h).mono fun r s' h' => ⟨h', fun _ => .not he⟩
  | eof => exact Wp.pure ⟨h.inv, fun _ => .eof he⟩
  | any =>
    refine Wp.seq (bump_n hE h.inv h.pos) fun r s1 ⟨hi1, _⟩ => ?_
    cases r <;> exact Wp.pure ⟨hi1, fun _ => .any he⟩
  | layer l body =>
    exact (parseLayer_n hE hN (partLa _ (by simp [tries])) (part' _ (by simp [tries])) h).mono fun r s' h' =>
      ⟨h'.1, fun hr => .layer he (h'.2 hr)⟩
  | rep body =>
    exact (repLoop_n hN (part' _ (by simp [tries])) h).mono fun r s' h' => ⟨h'.1, fun hr => absurd hr h'.2⟩
  | withSkip l body =>
    exact (withSkipLoop_n hE hN (partLa _ (by simp [tries])) (part' _ (by simp [tries])) h).mono fun r s' h' =>
      ⟨h', fun _ => .withSkip he⟩
  | pratt t =>
    obtain ⟨h1, h2, h3⟩ := hsafe
    refine (prattGo_n hr hN hR.passed (fun a ha => part' _ ?_) (fun p hp => part' _ ?_) (fun p hp => part' _ ?_) h1 h2 h3
      pos 0 s h).mono fun r s' h' => ⟨h'.1, fun _ => .pratt he⟩
    · simp [tries, ha]
    · simp only [tries, List.mem_append, List.mem_map]
      exact Or.inl (Or.inr ⟨p, hp, rfl⟩)
    · simp only [tries, List.mem_append, List.mem_map]
      exact Or.inr ⟨p, hp, rfl⟩
  | enter c body =>
    exact (parseWithContext_n hN (part' _ (by simp [tries])) hsafe h).mono fun r s' h' =>
      ⟨h'.1, fun hr => .enter he (h'.2 hr)⟩
  | exit c body =>
    exact (parseWithContext_n hN (part' _ (by simp [tries])) hsafe h).mono fun r s' h' =>
      ⟨h'.1, fun hr => .exit he (h'.2 hr)⟩
  | isIn c => exact (parseIsIn_n hsafe h.inv).mono fun r s' h' => ⟨h', fun _ => .isIn he⟩
  | call body args =>
    obtain ⟨h1, A', hb⟩ := hsafe
    refine (parseCall_n hN hb (fun x hx => ⟨_, List.getElem?_eq_getElem (h1 x hx)⟩) (.call hR he hb) h).mono
      fun r s' h' => ⟨h'.1, fun hr => .call he (h'.2 hr)⟩
  | var i =>
    obtain ⟨a, ha⟩ := hsafe
    exact (parseVar_n hN ha (.var hR he ha) h).mono fun r s' h' =>
      ⟨h'.1, fun hr => .var he (hR.passed _ _ ha) (h'.2 hr)⟩
  | prevIs tys => exact (parsePrevIs_n hsafe h.inv).mono fun r s' h' => ⟨h', fun _ => .prevIs he⟩
  | inject pre body =>
    refine (parseInject_n hN (part' _ (by simp [tries])) (part' _ (by simp [tries])) hsafe.1 hsafe.2 hR.passed h).mono
      fun r s' h' => ⟨h'.1, fun hr => ?_⟩
    rcases h'.2 hr with h | h
    · exact .injected he h
    · exact .inject he h
  | cached body =>
    exact (parseCached_n hE hN (part' _ (by simp [tries])) h).mono fun r s' h' => ⟨h'.1, fun hr => .cached he (h'.2 hr)⟩

theorem parseExpr_n (hE : EnvOk env) (hS : ∀ e A la, Reached env.grammar e A la →
    ∃ rule, env.grammar.rules[e]? = some rule ∧ RuleSafe env.grammar A la rule) (n : Nat) : RecN env (parseExpr env n) := by
  induction n with
  | zero => exact fun _ _ _ _ _ _ _ => trivial
  | succ n ih =>
    intro e A la pos s hR h
    have hmain : Wp False True (parseExpr env (n + 1) e pos) s fun r s' => Inv env.grammar s' ∧
        (r = none → MayFail env.grammar e) := by
      unfold parseExpr tick
      refine Wp.bind (modify_n (Wp.bind (mark_n ?_)))
      refine Wp.seq (Wp.and (R := fun _ s' => s.events.length ≤ s'.events.length) (parseExprInner_n hE hS (parseExpr_reads hE.cache) ih hR
        (h.stay (Adv.of_eq rfl rfl rfl) (h.inv.same rfl rfl))) fun r s' hok =>
          (parseExprInner_keeps (base := s.events.length) parseExpr_keeps _ _ _
            (by simp) hok).2.1)
        fun r s1 ⟨⟨hi1, h1⟩, hle⟩ => ?_
      refine Wp.seq (R := fun _ s' => Inv env.grammar s') ?_ fun _ s2 hi2 => Wp.pure ⟨hi2, h1⟩
      refine Wp.cond (fun _ => ?_) fun _ => hi1
      unfold Wp rollback
      rw [if_pos hle]
      exact hi1.same rfl rfl
    refine (Wp.and hmain fun r s' hok => parseExpr_reads hE.cache _ _ _ _ _ hok).mono
      fun r s' ⟨⟨hi, hf⟩, h1, h2⟩ => ⟨hi, fun hr => ⟨hf hr, h1 hr⟩, h2⟩

/-- If the rules are safe, the parse panics only where the start rule fails. -/
theorem parseMain_n (hE : EnvOk env) (hS : ∀ e A la, Reached env.grammar e A la →
    ∃ rule, env.grammar.rules[e]? = some rule ∧ RuleSafe env.grammar A la rule)
    (hstart : ∃ ty body b, env.grammar.rules[env.grammar.startRule]? = some (.pub ty body b)) (n : Nat)
    (hok : ∀ s, parseExpr env n env.grammar.startRule env.startPos .new = .ok none s →
      ¬ MayFail env.grammar env.grammar.startRule) :
    Wp False True (parseMain env n) .new fun _ _ => True := by
  unfold parseMain
  have hi : Inv env.grammar .new := ⟨rfl, by simp [PState.new]⟩
  have hready : Ready env (List.replicate 16 none) false env.startPos .new :=
    ⟨rfl, rfl, hi, ⟨Nat.zero_le _, Nat.le_refl _⟩⟩
  refine Wp.seq (Wp.and (R := fun r s' => parseExpr env n env.grammar.startRule env.startPos .new = .ok r s')
    (parseExpr_n hE hS n _ _ _ _ _ .start hready) fun _ _ h => h) fun r s1 ⟨h1, heq⟩ => ?_
  cases r with
  | none => exact absurd (h1.fail rfl).1 (hok s1 heq)
  | some p =>
    refine Wp.bind (Wp.pure ?_)
    have hrd := h1.reads p rfl
    have h2 := hready.reads hrd h1.inv
    obtain ⟨ty, body, b, hst⟩ := hstart
    obtain ⟨I, hI, a1⟩ := hrd.items
    obtain ⟨t, J, rfl, _, _⟩ := hI.pub_inv hst
    refine Wp.cond (fun _ => ?_) fun _ => trivial
    refine Wp.seq (reopen_n (s0 := .new) (es := .start t none :: J.encode) h1.inv (by simpa [Items.encode] using a1))
      fun _ s2 ⟨hi2, _⟩ => ?_
    refine Wp.seq (startError_n hi2) fun _ s3 ⟨hi3, _⟩ => ?_
    refine Wp.seq (bumpAll_n hE hi3 h2.pos) fun _ s4 ⟨hi4, _⟩ => ?_
    refine Wp.seq (finish_n hi4) fun _ s5 ⟨hi5, _⟩ => ?_
    exact (finish_n hi5).mono fun _ _ _ => trivial

/-- No parse with a safe grammar panics. -/
theorem synParse_safe (hE : EnvOk env) (hS : Safe env.grammar) (n : Nat) : synParse env n ≠ .panic := by
  have := parseMain_n hE hS.rules hS.start n fun _ _ => hS.succeeds
  unfold Wp at this
  unfold synParse
  split at this <;> simp_all

/-- With safe rules, it panics only if the start rule fails. -/
theorem synParse_fails (hE : EnvOk env) (hS : ∀ e A la, Reached env.grammar e A la →
    ∃ rule, env.grammar.rules[e]? = some rule ∧ RuleSafe env.grammar A la rule)
    (hstart : ∃ ty body b, env.grammar.rules[env.grammar.startRule]? = some (.pub ty body b)) (n : Nat)
    (h : synParse env n = .panic) :
    ∃ s, parseExpr env n env.grammar.startRule env.startPos .new = .ok none s := by
  refine Classical.byContradiction fun hne => ?_
  have := parseMain_n hE hS hstart n fun s hs => absurd ⟨s, hs⟩ hne
  unfold Wp at this
  unfold synParse at h
  split at this <;> simp_all

end Parser

end Fall
