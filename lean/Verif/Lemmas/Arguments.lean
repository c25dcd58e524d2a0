import Verif.Spec.Arguments

/-!
The parser looks only at the parameters that are reached.
-/

namespace Fall

open Spec

/-- With the values `A` and `A'` of the parameters, which it restores, `m` does the same. -/
def P.ArgSim (A A' : List (Option Nat)) (m : P β) : Prop :=
  ∀ s, s.args = A → m { s with args := A' } = withArgs A' (m s) ∧ ∀ b t, m s = .ok b t → t.args = A

namespace P

variable {A A' : List (Option Nat)}

theorem ArgSim.pure (b : β) : ArgSim A A' (Pure.pure b : P β) := by
  intro s hs
  refine ⟨rfl, fun b t h => ?_⟩
  cases h
  exact hs

theorem ArgSim.panic : ArgSim A A' (P.panic : P β) := fun _ _ => ⟨rfl, fun _ _ h => by cases h⟩

theorem ArgSim.timeout : ArgSim A A' (P.timeout : P β) := fun _ _ => ⟨rfl, fun _ _ h => by cases h⟩

theorem ArgSim.lift (o : Option β) : ArgSim A A' (P.lift o) := by
  cases o
  · exact ArgSim.panic
  · exact ArgSim.pure _

theorem ArgSim.bind {m : P β} {f : β → P γ} (h : ArgSim A A' m) (hf : ∀ b, ArgSim A A' (f b)) : ArgSim A A' (m >>= f) := by
  intro s hs
  obtain ⟨h1, h2⟩ := h s hs
  show P.bind m f _ = withArgs A' (P.bind m f s) ∧ ∀ b t, P.bind m f s = .ok b t → _
  unfold P.bind
  rw [h1]
  cases hm : m s with
  | ok b t =>
    obtain ⟨h3, h4⟩ := hf b t (h2 b t hm)
    exact ⟨h3, h4⟩
  | panic => exact ⟨rfl, fun _ _ h => by cases h⟩
  | timeout => exact ⟨rfl, fun _ _ h => by cases h⟩

theorem ArgSim.lift_bind {o : Option β} {f : β → P γ} (hf : ∀ b, o = some b → ArgSim A A' (f b)) :
    ArgSim A A' (P.lift o >>= f) := by
  cases o with
  | none =>
    intro s hs
    exact ⟨rfl, fun _ _ h => by cases h⟩
  | some b => exact hf b rfl

theorem ArgSim.cond {c : Bool} {m : P Unit} (h : ArgSim A A' m) : ArgSim A A' (P.cond c m) := by
  cases c
  · exact ArgSim.pure _
  · exact h

theorem ArgSim.modify {f : PState → PState} (h : ∀ s, f { s with args := A' } = { f s with args := A' })
    (h' : ∀ s, (f s).args = s.args) : ArgSim A A' (P.modify f) := by
  intro s hs
  refine ⟨by simp [P.modify, h, withArgs], fun b t e => ?_⟩
  cases e
  rw [h', hs]

theorem ArgSim.get {f : PState → P γ} (h : ∀ s : PState, s.args = A → f { s with args := A' } = f s)
    (hf : ∀ s : PState, s.args = A → ArgSim A A' (f s)) : ArgSim A A' (P.get >>= f) := by
  intro s hs
  obtain ⟨h1, h2⟩ := hf s hs s hs
  refine ⟨?_, h2⟩
  show f { s with args := A' } { s with args := A' } = _
  rw [h s hs]
  exact h1

end P

namespace Parser

open P (ArgSim)

variable {A A' : List (Option Nat)} {env : Env} {rec : Rec}

theorem tick_argSim : ArgSim A A' tick := ArgSim.modify (fun _ => rfl) fun _ => rfl

theorem event_argSim (e : Event) : ArgSim A A' (event e) :=
  ArgSim.modify (fun s => by by_cases h : s.predicate <;> simp [h]) fun s => by by_cases h : s.predicate <;> simp [h]

theorem mark_argSim : ArgSim A A' mark := ArgSim.get (fun _ _ => rfl) fun _ _ => ArgSim.pure _

theorem nodeType_argSim (i : Nat) : ArgSim A A' (nodeType env i) := ArgSim.lift _

theorem startTy_argSim (ty : NodeType) : ArgSim A A' (startTy ty) :=
  mark_argSim.bind fun _ => (event_argSim _).bind fun _ => ArgSim.pure _

theorem start_argSim (i : Nat) : ArgSim A A' (start env i) := (nodeType_argSim _).bind fun _ => startTy_argSim _

theorem startError_argSim : ArgSim A A' startError := (startTy_argSim _).bind fun _ => ArgSim.pure _

theorem finish_argSim : ArgSim A A' finish := event_argSim _

theorem getFromCache_argSim (e : Nat) (pos : Pos) : ArgSim A A' (getFromCache env e pos) := by
  unfold getFromCache
  split
  · exact ArgSim.pure _
  · refine (ArgSim.lift _).bind fun x => ?_
    obtain ⟨p, _⟩ := x
    dsimp only
    split
    · exact ArgSim.pure _
    · split
      · exact ArgSim.bind (ArgSim.modify (fun _ => rfl) fun _ => rfl) fun _ => ArgSim.pure _
      · exact ArgSim.panic

theorem startCached_argSim (e : Nat) : ArgSim A A' (startCached e) :=
  mark_argSim.bind fun _ => (event_argSim _).bind fun _ => ArgSim.pure _

theorem finishCached_argSim (m : Nat) : ArgSim A A' (finishCached m) := by
  intro s hs
  unfold finishCached
  dsimp only
  split
  · exact ⟨rfl, fun b t h => by cases h; exact hs⟩
  · split
    · exact ⟨rfl, fun b t h => by cases h; exact hs⟩
    · exact ⟨rfl, fun _ _ h => by cases h⟩

theorem reopen_argSim : ArgSim A A' reopen := by
  intro s hs
  unfold reopen
  dsimp only
  split
  · exact ⟨rfl, fun b t h => by cases h; exact hs⟩
  · split
    · exact ⟨rfl, fun b t h => by cases h; exact hs⟩
    · exact ⟨rfl, fun _ _ h => by cases h⟩

theorem rollback_argSim (m : Nat) : ArgSim A A' (rollback m) := by
  intro s hs
  unfold rollback
  dsimp only
  split
  · exact ⟨rfl, fun b t h => by cases h; exact hs⟩
  · exact ⟨rfl, fun _ _ h => by cases h⟩

theorem replace_argSim (m i : Nat) : ArgSim A A' (replace env m i) := by
  unfold replace
  refine (nodeType_argSim _).bind fun ty => ?_
  intro s hs
  dsimp only
  split
  · exact ⟨rfl, fun b t h => by cases h; exact hs⟩
  · exact ⟨rfl, fun _ _ h => by cases h⟩

theorem forwardParent_argSim (c p : Nat) : ArgSim A A' (forwardParent c p) := by
  intro s hs
  unfold forwardParent
  dsimp only
  split
  · split
    · exact ⟨rfl, fun b t h => by cases h; exact hs⟩
    · exact ⟨rfl, fun _ _ h => by cases h⟩
  · exact ⟨rfl, fun _ _ h => by cases h⟩

theorem bump_argSim (pos : Pos) : ArgSim A A' (bump env pos) := by
  unfold bump
  split
  · exact ArgSim.pure _
  · exact ArgSim.bind (ArgSim.lift _) fun _ => (event_argSim _).bind fun _ => ArgSim.pure _

theorem byTextLoop_argSim (rest : List (Nat × Nat)) (k m : Nat) (pos : Pos) :
    ArgSim A A' (byTextLoop env rest k m pos) := by
  induction rest generalizing k m pos with
  | nil =>
    unfold byTextLoop
    split
    · exact ArgSim.pure _
    · split
      · exact ArgSim.pure _
      · exact ArgSim.panic
  | cons x rest ih =>
    unfold byTextLoop
    split
    · exact ArgSim.pure _
    · split
      · exact ArgSim.pure _
      · refine (ArgSim.lift _).bind fun t => ?_
        split
        · exact ArgSim.pure _
        · exact ih _ _ _

theorem bumpByText_argSim (pos : Pos) (text : List Nat) (i : Nat) : ArgSim A A' (bumpByText env pos text i) := by
  unfold bumpByText
  split
  · exact ArgSim.pure _
  · refine (ArgSim.lift _).bind fun x => ?_
    obtain ⟨st, _⟩ := x
    dsimp only
    split
    · exact ArgSim.panic
    · split
      · exact ArgSim.pure _
      · refine (byTextLoop_argSim _ _ _ _).bind fun r => ?_
        rcases r with _ | ⟨k, p⟩
        · exact ArgSim.pure _
        · exact (nodeType_argSim _).bind fun _ => (event_argSim _).bind fun _ => ArgSim.pure _

theorem bumpAllN_argSim (n : Nat) (pos : Pos) : ArgSim A A' (bumpAllN env n pos) := by
  induction n generalizing pos with
  | zero => exact ArgSim.panic
  | succ n ih =>
    unfold bumpAllN
    refine (bump_argSim _).bind fun r => ?_
    rcases r with _ | ⟨_, ts⟩
    · exact ArgSim.pure _
    · exact ih _

theorem parseExprPred_argSim {e : Nat} (h : ∀ pos, ArgSim A A' (rec e pos)) (pos : Pos) :
    ArgSim A A' (parseExprPred rec e pos) := by
  unfold parseExprPred
  refine ArgSim.get (fun _ _ => rfl) fun _ _ => ArgSim.bind (ArgSim.modify (fun _ => rfl) fun _ => rfl) fun _ =>
    (h _).bind fun _ => ArgSim.bind (ArgSim.modify (fun _ => rfl) fun _ => rfl) fun _ => ArgSim.pure _

theorem applyReplacement_argSim (m : Nat) (b : Bool) : ArgSim A A' (applyReplacement env m b) := by
  unfold applyReplacement
  refine ArgSim.get (fun _ _ => rfl) fun s _ => ?_
  split
  · exact ArgSim.bind (ArgSim.modify (fun _ => rfl) fun _ => rfl) fun _ => replace_argSim _ _
  · exact ArgSim.pure _

theorem parsePub_argSim {body : Nat} (h : ∀ pos, ArgSim A A' (rec body pos)) (pos : Pos) (ty : Nat) (b : Bool) :
    ArgSim A A' (parsePub env rec pos ty body b) := by
  unfold parsePub
  refine ArgSim.bind (ArgSim.modify (fun _ => by cases b <;> rfl) fun _ => by cases b <;> rfl) fun _ =>
    (start_argSim _).bind fun m => (h _).bind fun r => ?_
  cases r
  · exact ArgSim.pure _
  · exact (applyReplacement_argSim _ _).bind fun _ => finish_argSim.bind fun _ => (nodeType_argSim _).bind fun _ =>
      ArgSim.bind (ArgSim.modify (fun _ => rfl) fun _ => rfl) fun _ => ArgSim.pure _

theorem parsePubReplace_argSim {body : Nat} (h : ∀ pos, ArgSim A A' (rec body pos)) (pos : Pos) (ty : Nat) :
    ArgSim A A' (parsePubReplace rec pos ty body) := by
  unfold parsePubReplace
  refine (h _).bind fun r => ?_
  cases r
  · exact ArgSim.pure _
  · exact ArgSim.bind (ArgSim.modify (fun _ => rfl) fun _ => rfl) fun _ => ArgSim.pure _

theorem parseOr_argSim {ps : List Nat} (h : ∀ e ∈ ps, ∀ pos, ArgSim A A' (rec e pos)) (pos : Pos) :
    ArgSim A A' (parseOr rec pos ps) := by
  induction ps with
  | nil => exact ArgSim.pure _
  | cons p ps ih =>
    refine (h p (by simp) _).bind fun r => ?_
    cases r
    · exact ih fun e he => h e (by simp [he])
    · exact ArgSim.pure _

theorem andLoop_argSim {ps : List Nat} (h : ∀ e ∈ ps, ∀ pos, ArgSim A A' (rec e pos)) (k : Nat) (pos : Pos) :
    ArgSim A A' (andLoop rec ps k pos) := by
  induction ps generalizing k pos with
  | nil => exact ArgSim.pure _
  | cons p ps ih =>
    refine (h p (by simp) _).bind fun r => ?_
    cases r
    · exact ArgSim.pure _
    · exact ih (fun e he => h e (by simp [he])) _ _

theorem parseAnd_argSim {ps : List Nat} (h : ∀ e ∈ ps, ∀ pos, ArgSim A A' (rec e pos)) (pos : Pos) (c : Option Nat) :
    ArgSim A A' (parseAnd rec pos ps c) := by
  unfold parseAnd
  refine (andLoop_argSim h _ _).bind fun r => ?_
  obtain ⟨k, p⟩ := r
  dsimp only
  split
  · exact ArgSim.pure _
  · exact (ArgSim.cond (startError_argSim.bind fun _ => finish_argSim)).bind fun _ => ArgSim.pure _

theorem parseToken_argSim (pos : Pos) (i : Nat) : ArgSim A A' (parseToken env pos i) := by
  unfold parseToken
  refine (bump_argSim _).bind fun r => ?_
  rcases r with _ | ⟨ty, ts⟩
  · exact ArgSim.pure _
  · refine (nodeType_argSim _).bind fun t => ?_
    split <;> exact ArgSim.pure _

theorem parseOpt_argSim {body : Nat} (h : ∀ pos, ArgSim A A' (rec body pos)) (pos : Pos) :
    ArgSim A A' (parseOpt rec pos body) := (h _).bind fun _ => ArgSim.pure _

theorem parseNot_argSim {e : Nat} (h : ∀ pos, ArgSim A A' (rec e pos)) (pos : Pos) : ArgSim A A' (parseNot rec pos e) := by
  unfold parseNot
  refine (parseExprPred_argSim h _).bind fun r => ?_
  cases r <;> exact ArgSim.pure _

theorem parseLayer_argSim {l e : Nat} (hl : ∀ pos, ArgSim A A' (rec l pos)) (he : ∀ pos, ArgSim A A' (rec e pos)) (pos : Pos) :
    ArgSim A A' (parseLayer env rec pos l e) := by
  unfold parseLayer
  refine (parseExprPred_argSim hl _).bind fun r => ?_
  cases r
  · exact ArgSim.pure _
  · exact (he _).bind fun _ => (ArgSim.cond (startError_argSim.bind fun _ => (bumpAllN_argSim _ _).bind fun _ =>
      finish_argSim)).bind fun _ => ArgSim.pure _

theorem repLoop_argSim {body : Nat} (h : ∀ pos, ArgSim A A' (rec body pos)) (n : Nat) (pos : Pos) :
    ArgSim A A' (repLoop rec body n pos) := by
  induction n generalizing pos with
  | zero => exact ArgSim.timeout
  | succ n ih =>
    refine (h _).bind fun r => ?_
    cases r
    · exact ArgSim.pure _
    · exact ih _

theorem withSkipLoop_argSim {first body : Nat} (hf : ∀ pos, ArgSim A A' (rec first pos)) (hb : ∀ pos, ArgSim A A' (rec body pos))
    (n : Nat) (sk : Bool) (pos : Pos) : ArgSim A A' (withSkipLoop env rec first body n sk pos) := by
  induction n generalizing sk pos with
  | zero => exact ArgSim.timeout
  | succ n ih =>
    unfold withSkipLoop
    refine (ArgSim.cond finish_argSim).bind fun _ => ArgSim.bind ?_ fun r => ?_
    · unfold withSkipTry
      refine (parseExprPred_argSim hf _).bind fun r => ?_
      cases r
      · exact ArgSim.pure _
      · exact hb _
    · cases r
      · refine ArgSim.bind ?_ fun _ => (bump_argSim _).bind fun r => ?_
        · unfold skipOpen
          split
          · exact reopen_argSim
          · exact startError_argSim
        · rcases r with _ | ⟨_, ts⟩
          · exact ArgSim.pure _
          · exact ih _ _
      · exact ArgSim.pure _

theorem parseWithContext_argSim {e : Nat} (h : ∀ pos, ArgSim A A' (rec e pos)) (pos : Pos) (ctx : Nat) (b : Bool) :
    ArgSim A A' (parseWithContext rec pos ctx e b) := by
  unfold parseWithContext
  refine ArgSim.get (fun _ _ => rfl) fun _ _ => (ArgSim.lift _).bind fun _ =>
    ArgSim.bind (ArgSim.modify (fun _ => rfl) fun _ => rfl) fun _ => (h _).bind fun _ =>
    ArgSim.bind (ArgSim.modify (fun _ => rfl) fun _ => rfl) fun _ => ArgSim.pure _

theorem parseIsIn_argSim (pos : Pos) (ctx : Nat) : ArgSim A A' (parseIsIn pos ctx) := by
  unfold parseIsIn
  refine ArgSim.get (fun _ _ => rfl) fun _ _ => (ArgSim.lift _).bind fun b => ?_
  split <;> exact ArgSim.pure _

theorem prevIsLoop_argSim (prev : NodeType) (pos : Pos) (tys : List Nat) : ArgSim A A' (prevIsLoop env prev pos tys) := by
  induction tys with
  | nil => exact ArgSim.pure _
  | cons t tys ih =>
    unfold prevIsLoop
    refine (nodeType_argSim _).bind fun t => ?_
    split
    · exact ArgSim.pure _
    · exact ih

theorem parsePrevIs_argSim (pos : Pos) (tys : List Nat) : ArgSim A A' (parsePrevIs env pos tys) := by
  unfold parsePrevIs
  refine ArgSim.get (fun _ _ => rfl) fun s _ => ?_
  split
  · exact prevIsLoop_argSim _ _ _
  · exact ArgSim.pure _

theorem parseInject_argSim {pre body : Nat} (hp : ∀ pos, ArgSim A A' (rec pre pos)) (hb : ∀ pos, ArgSim A A' (rec body pos))
    (pos : Pos) : ArgSim A A' (parseInject rec pos pre body) := by
  unfold parseInject
  refine mark_argSim.bind fun _ => (hp _).bind fun r => ?_
  cases r
  · exact ArgSim.pure _
  · refine mark_argSim.bind fun _ => (hb _).bind fun r => ?_
    cases r
    · exact ArgSim.pure _
    · exact (ArgSim.cond (forwardParent_argSim _ _)).bind fun _ => ArgSim.pure _

theorem parseCached_argSim {e : Nat} (h : ∀ pos, ArgSim A A' (rec e pos)) (pos : Pos) :
    ArgSim A A' (parseCached env rec pos e) := by
  unfold parseCached
  refine (startCached_argSim _).bind fun _ => ArgSim.bind ?_ fun r => ?_
  · unfold cachedOrParse
    refine (getFromCache_argSim _ _).bind fun r => ?_
    cases r
    · exact h _
    · exact ArgSim.pure _
  · cases r
    · exact ArgSim.pure _
    · exact (finishCached_argSim _).bind fun _ => ArgSim.pure _

variable {go : Pos → Nat → P (Option Pos)}

theorem prattRhs_argSim (h : ∀ pos p, ArgSim A A' (go pos p)) (ix : Infix) (pos : Pos) : ArgSim A A' (prattRhs go ix pos) := by
  unfold prattRhs
  split
  · refine (h _ _).bind fun r => ?_
    cases r
    · exact startError_argSim.bind fun _ => finish_argSim.bind fun _ => ArgSim.pure _
    · exact ArgSim.pure _
  · exact ArgSim.pure _

theorem prattInfixes_argSim {ixs : List Infix} (h : ∀ ix ∈ ixs, ∀ pos, ArgSim A A' (rec ix.op pos))
    (hg : ∀ pos p, ArgSim A A' (go pos p)) (lhs : Nat) (pos : Pos) :
    ArgSim A A' (prattInfixes env rec go lhs pos ixs) := by
  induction ixs with
  | nil => exact ArgSim.pure _
  | cons ix ixs ih =>
    unfold prattInfixes
    refine mark_argSim.bind fun _ => (start_argSim _).bind fun _ => (h ix (by simp) _).bind fun r => ?_
    cases r
    · exact (rollback_argSim _).bind fun _ => ih fun e he => h e (by simp [he])
    · exact (forwardParent_argSim _ _).bind fun _ => (prattRhs_argSim hg _ _).bind fun _ => (nodeType_argSim _).bind fun _ =>
        ArgSim.bind (ArgSim.modify (fun _ => rfl) fun _ => rfl) fun _ => finish_argSim.bind fun _ => ArgSim.pure _

theorem prattLoop_argSim {table : PrattTable} (h : ∀ ix ∈ table.infixes, ∀ pos, ArgSim A A' (rec ix.op pos))
    (hg : ∀ pos p, ArgSim A A' (go pos p)) (p n lhs : Nat) (pos : Pos) :
    ArgSim A A' (prattLoop env rec go table p n lhs pos) := by
  induction n generalizing lhs pos with
  | zero => exact ArgSim.timeout
  | succ n ih =>
    unfold prattLoop
    refine (prattInfixes_argSim (fun ix hx => h ix (List.mem_filter.1 hx).1) hg _ _).bind fun r => ?_
    rcases r with _ | ⟨lhs', pos'⟩
    · exact ArgSim.pure _
    · exact ih _ _

theorem prattPrefixes_argSim {pfs : List Prefix} (h : ∀ pf ∈ pfs, ∀ pos, ArgSim A A' (rec pf.op pos))
    (hg : ∀ pos p, ArgSim A A' (go pos p)) (pos : Pos) : ArgSim A A' (prattPrefixes env rec go pos pfs) := by
  induction pfs with
  | nil => exact ArgSim.pure _
  | cons pf pfs ih =>
    unfold prattPrefixes
    refine (start_argSim _).bind fun _ => ArgSim.bind ?_ fun r => ?_
    · unfold prattOperand
      refine (h pf (by simp) _).bind fun r => ?_
      cases r
      · exact ArgSim.pure _
      · exact hg _ _
    · cases r
      · exact (rollback_argSim _).bind fun _ => ih fun e he => h e (by simp [he])
      · exact (nodeType_argSim _).bind fun _ => ArgSim.bind (ArgSim.modify (fun _ => rfl) fun _ => rfl) fun _ =>
          finish_argSim.bind fun _ => ArgSim.pure _

theorem prattGo_argSim {table : PrattTable} (h : ∀ e ∈ components (.pratt table), ∀ pos, ArgSim A A' (rec e pos)) (n : Nat)
    (pos : Pos) (p : Nat) : ArgSim A A' (prattGo env rec table n pos p) := by
  have ha : ∀ e ∈ table.atoms, ∀ pos, ArgSim A A' (rec e pos) := fun e he => h e (by simp [components, he])
  have hp : ∀ pf ∈ table.prefixes, ∀ pos, ArgSim A A' (rec pf.op pos) := fun pf he => h _ (by
    simp only [components, List.mem_append, List.mem_map]; exact .inl (.inr ⟨pf, he, rfl⟩))
  have hi : ∀ ix ∈ table.infixes, ∀ pos, ArgSim A A' (rec ix.op pos) := fun ix he => h _ (by
    simp only [components, List.mem_append, List.mem_map]; exact .inr ⟨ix, he, rfl⟩)
  induction n generalizing pos p with
  | zero => exact ArgSim.timeout
  | succ n ih =>
    unfold prattGo
    refine mark_argSim.bind fun _ => ArgSim.bind ?_ fun r => ?_
    · unfold prattPrefix
      refine (parseOr_argSim ha _).bind fun r => ?_
      cases r
      · exact prattPrefixes_argSim hp ih _
      · exact ArgSim.pure _
    · cases r
      · exact ArgSim.pure _
      · exact prattLoop_argSim hi ih _ _ _ _

/-! ## Calls -/

/-- What an argument stands for. -/
def argValue (g : Grammar) (A : List (Option Nat)) (arg : Nat) : Option Nat :=
  match g.rules[arg]? with
  | none => none
  | some (.var i) => A[i]?.join
  | some _ => some arg

/-- The values of the parameters in a call. -/
def newArgs (g : Grammar) : List (Nat × Nat) → List (Option Nat) → Option (List (Option Nat))
  | [], A => some A
  | (p, arg) :: as, A => do
    let x ← argValue g A arg
    if p < A.length then newArgs g as (A.set p (some x)) else none

theorem setArgs_eq (as : List (Nat × Nat)) (s : PState) : setArgs env as s =
    match newArgs env.grammar as s.args with
    | some B => .ok () { s with args := B }
    | none => .panic := by
  induction as generalizing s with
  | nil => rfl
  | cons x as ih =>
    obtain ⟨p, arg⟩ := x
    show P.bind (resolveArg env arg) _ s = _
    have hr : resolveArg env arg s = match argValue env.grammar s.args arg with
      | some x => .ok x s
      | none => .panic := by
      show P.bind (P.lift _) _ s = _
      unfold argValue
      cases env.grammar.rules[arg]? with
      | none => rfl
      | some e =>
        cases e with
        | var i =>
          show P.lift (s.args[i]?.join) s = _
          dsimp only
          cases s.args[i]?.join <;> rfl
        | _ => rfl
    simp only [P.bind, hr, newArgs]
    generalize argValue env.grammar s.args arg = o
    cases o with
    | none => rfl
    | some x =>
      dsimp only
      show (if p < s.args.length then _ else _ : P Unit) s = _
      by_cases hp : p < s.args.length
      · rw [if_pos hp]
        show setArgs env as _ = _
        rw [ih]
        simp [hp]
      · rw [if_neg hp]
        simp [hp]
        rfl

/-- On the parameters of `W` the values are the same, and do not lead out of it. -/
structure Agree (g : Grammar) (W : Nat → Prop) (A A' : List (Option Nat)) : Prop where
  len : A.length = A'.length
  same : ∀ i, W i → A[i]? = A'[i]?
  closed : ∀ i a, W i → A[i]? = some (some a) → ∀ k, Mentions g a k → W k

theorem newArgs_agree {g : Grammar} (as : List (Nat × Nat)) {W : Nat → Prop} {A A' : List (Option Nat)}
    (h : Agree g W A A') (hm : ∀ k a, (k, a) ∈ as → ∀ i, Mentions g a i → W i) :
    (newArgs g as A = none ∧ newArgs g as A' = none) ∨
    ∃ B B', newArgs g as A = some B ∧ newArgs g as A' = some B' ∧
      Agree g (fun i => W i ∨ ∃ a, (i, a) ∈ as) B B' := by
  induction as generalizing W A A' with
  | nil => exact .inr ⟨A, A', rfl, rfl, by simpa using h⟩
  | cons x as ih =>
    obtain ⟨p, arg⟩ := x
    have hm0 := hm p arg (by simp)
    simp only [newArgs]
    have key : ∃ o : Option Nat, argValue g A arg = o ∧ argValue g A' arg = o ∧
        ∀ x, o = some x → ∀ k, Mentions g x k → W k := by
      unfold argValue
      cases hr : g.rules[arg]? with
      | none => exact ⟨none, rfl, rfl, fun _ h => by cases h⟩
      | some e =>
        cases e with
        | var i =>
          have hi : W i := hm0 i (.var hr)
          refine ⟨A[i]?.join, rfl, by rw [h.same i hi], fun x hx => ?_⟩
          exact h.closed i x hi (Option.join_eq_some_iff.1 hx)
        | _ => exact ⟨some arg, rfl, rfl, fun x hx => by cases hx; exact hm0⟩
    obtain ⟨o, e1, e2, e3⟩ := key
    rw [e1, e2]
    cases o with
    | none => exact .inl ⟨rfl, rfl⟩
    | some x =>
      simp only [Option.bind_eq_bind, Option.bind_some]
      rw [← h.len]
      by_cases hp : p < A.length
      · simp only [hp, if_true]
        have h' : Agree g (fun i => W i ∨ i = p) (A.set p (some x)) (A'.set p (some x)) := by
          refine ⟨by simp [h.len], fun i hi => ?_, fun i a hi ha k hk => ?_⟩
          · by_cases hip : p = i
            · subst hip
              simp [hp, h.len ▸ hp]
            · rw [List.getElem?_set_ne hip, List.getElem?_set_ne hip]
              exact h.same i (hi.resolve_right fun h => hip h.symm)
          · by_cases hip : p = i
            · subst hip
              simp [hp] at ha
              subst ha
              exact .inl (e3 _ rfl k hk)
            · rw [List.getElem?_set_ne hip] at ha
              exact .inl (h.closed i a (hi.resolve_right fun h => hip h.symm) ha k hk)
        rcases ih h' (fun k a hk i hi => .inl (hm k a (by simp [hk]) i hi)) with h1 | ⟨B, B', h1, h2, h3⟩
        · exact .inl h1
        · refine .inr ⟨B, B', h1, h2, ?_⟩
          have : (fun i => W i ∨ ∃ a, (i, a) ∈ (p, arg) :: as) = fun i => (W i ∨ i = p) ∨ ∃ a, (i, a) ∈ as := by
            funext i
            apply propext
            simp only [List.mem_cons, Prod.mk.injEq]
            constructor
            · rintro (h | ⟨a, ⟨h, -⟩ | h⟩)
              · exact .inl (.inl h)
              · exact .inl (.inr h)
              · exact .inr ⟨a, h⟩
            · rintro ((h | h) | ⟨a, h⟩)
              · exact .inl h
              · exact .inr ⟨arg, .inl ⟨h, rfl⟩⟩
              · exact .inr ⟨a, .inr h⟩
          rw [this]
          exact h3
      · simp only [hp, if_false]
        exact .inl ⟨trivial, trivial⟩

theorem parseCall_argSim {W : Nat → Prop} {body : Nat} {as : List (Nat × Nat)} (h : Agree env.grammar W A A')
    (hm : ∀ k a, (k, a) ∈ as → ∀ i, Mentions env.grammar a i → W i)
    (hrec : ∀ B B', Agree env.grammar (fun i => W i ∨ ∃ a, (i, a) ∈ as) B B' → ∀ pos, ArgSim B B' (rec body pos))
    (pos : Pos) : ArgSim A A' (parseCall env rec pos body as) := by
  have key : ∀ s : PState, parseCall env rec pos body as s = match newArgs env.grammar as s.args with
      | some B => withArgs s.args (rec body pos { s with args := B })
      | none => .panic := by
    intro s
    show P.bind (setArgs env as) _ s = _
    simp only [P.bind, setArgs_eq]
    cases newArgs env.grammar as s.args with
    | none => rfl
    | some B =>
      dsimp only
      show P.bind (rec body pos) _ _ = _
      simp only [P.bind]
      cases rec body pos { s with args := B } <;> rfl
  intro s hs
  rw [key, key]
  subst hs
  dsimp only
  rcases newArgs_agree as h hm with ⟨h1, h2⟩ | ⟨B, B', h1, h2, h3⟩
  · rw [h1, h2]
    exact ⟨rfl, fun _ _ h => by cases h⟩
  · rw [h1, h2]
    obtain ⟨h4, h5⟩ := hrec B B' h3 pos { s with args := B } rfl
    dsimp only at h4 ⊢
    rw [h4]
    cases h6 : rec body pos { s with args := B } with
    | ok b t =>
      refine ⟨rfl, fun b t h => ?_⟩
      cases h
      rfl
    | panic => exact ⟨rfl, fun _ _ h => by cases h⟩
    | timeout => exact ⟨rfl, fun _ _ h => by cases h⟩

theorem parseVar_argSim {W : Nat → Prop} {i : Nat} (h : Agree env.grammar W A A') (hi : W i)
    (hrec : ∀ a, (∀ k, Mentions env.grammar a k → W k) → ∀ pos, ArgSim A A' (rec a pos)) (pos : Pos) :
    ArgSim A A' (parseVar rec pos i) := by
  unfold parseVar
  refine ArgSim.get (fun s hs => ?_) fun s hs => ?_
  · dsimp only
    rw [hs, h.same i hi]
  · rw [hs]
    cases ha : A[i]?.join with
    | none =>
      intro s hs
      exact ⟨rfl, fun _ _ h => by cases h⟩
    | some a => exact hrec a (h.closed i a hi (Option.join_eq_some_iff.1 ha)) pos

/-! ## Expressions -/

/-- What an expression does depends only on the parameters that it reaches. -/
theorem parseExpr_argSim (env : Env) (n : Nat) {W : Nat → Prop} {A A' : List (Option Nat)} (h : Agree env.grammar W A A')
    {e : Nat} (he : ∀ i, Mentions env.grammar e i → W i) (pos : Pos) : ArgSim A A' (parseExpr env n e pos) := by
  induction n generalizing W A A' e pos with
  | zero => exact ArgSim.timeout
  | succ n ih =>
    unfold parseExpr
    refine tick_argSim.bind fun _ => mark_argSim.bind fun m => ArgSim.bind ?_ fun r =>
      (ArgSim.cond (rollback_argSim _)).bind fun _ => ArgSim.pure _
    unfold parseExprInner
    refine ArgSim.lift_bind fun x hr => ?_
    have hsub : ∀ c ∈ components x, ∀ pos, ArgSim A A' (parseExpr env n c pos) := fun c hc pos =>
      ih h (fun i hi => he i (.component hr hc hi)) pos
    cases x with
    | pub ty body b => exact parsePub_argSim (hsub _ (by simp [components])) _ _ _
    | pubReplace ty body => exact parsePubReplace_argSim (hsub _ (by simp [components])) _ _
    | or parts => exact parseOr_argSim hsub _
    | and parts c => exact parseAnd_argSim hsub _ _
    | token ty => exact parseToken_argSim _ _
    | contextualToken ty text => exact bumpByText_argSim _ _ _
    | rep body => exact repLoop_argSim (hsub _ (by simp [components])) _ _
    | withSkip first body =>
      exact withSkipLoop_argSim (hsub _ (by simp [components])) (hsub _ (by simp [components])) _ _ _
    | opt body => exact parseOpt_argSim (hsub _ (by simp [components])) _
    | not e => exact parseNot_argSim (hsub _ (by simp [components])) _
    | eof => exact ArgSim.pure _
    | any =>
      refine (bump_argSim _).bind fun r => ?_
      rcases r with _ | ⟨_, ts⟩ <;> exact ArgSim.pure _
    | layer l e => exact parseLayer_argSim (hsub _ (by simp [components])) (hsub _ (by simp [components])) _
    | pratt table => exact prattGo_argSim hsub _ _ _
    | enter ctx e => exact parseWithContext_argSim (hsub _ (by simp [components])) _ _ _
    | exit ctx e => exact parseWithContext_argSim (hsub _ (by simp [components])) _ _ _
    | isIn ctx => exact parseIsIn_argSim _ _
    | call body as =>
      refine parseCall_argSim h (fun k a hk i hi => he i (.argument hr hk hi)) (fun B B' hB pos => ih hB (fun i hi => ?_) pos) _
      by_cases hb : ∃ a, (i, a) ∈ as
      · exact .inr hb
      · exact .inl (he i (.rule hr hi fun a ha => hb ⟨a, ha⟩))
    | var i => exact parseVar_argSim h (he i (.var hr)) (fun a ha pos => ih h ha pos) _
    | prevIs tys => exact parsePrevIs_argSim _ _
    | inject pre body => exact parseInject_argSim (hsub _ (by simp [components])) (hsub _ (by simp [components])) _
    | cached body => exact parseCached_argSim (hsub _ (by simp [components])) _

end Parser

end Fall
