import Verif.Lemmas.Syn

/-!
The type that a replaceable node is changed to comes from a rule of the grammar.
-/

namespace Fall.Parser

open Spec

/-- The type to change to, if any, is that of a rule. -/
def Proper (g : Grammar) (s : PState) : Prop := ∀ ty, s.replacement = some ty → Replaces g ty

/-- `m` keeps that. -/
def Stays (g : Grammar) (m : P β) : Prop := ∀ s b s', m s = .ok b s' → Proper g s → Proper g s'

variable {g : Grammar}

theorem Stays.bind {m : P β} {f : β → P γ} (hm : Stays g m) (hf : ∀ b, Stays g (f b)) : Stays g (m >>= f) := by
  intro s c s' h hp
  obtain ⟨b, s1, h1, h2⟩ := P.bind_ok.1 h
  exact hf b s1 c s' h2 (hm s b s1 h1 hp)

theorem Stays.pure {b : β} : Stays g (Pure.pure b : P β) := by
  intro s c s' h hp
  obtain ⟨_, rfl⟩ := P.pure_ok.1 h
  exact hp

theorem Stays.panic : Stays g (P.panic : P β) := fun _ _ _ h _ => (P.panic_ok.1 h).elim

theorem Stays.timeout : Stays g (P.timeout : P β) := fun _ _ _ h _ => (P.timeout_ok.1 h).elim

theorem Stays.lift {o : Option β} : Stays g (P.lift o) := by
  intro s c s' h hp
  obtain ⟨_, rfl⟩ := P.lift_ok.1 h
  exact hp

theorem Stays.get : Stays g P.get := by
  intro s c s' h hp
  obtain ⟨_, rfl⟩ := P.get_ok.1 h
  exact hp

theorem Stays.modify {f : PState → PState} (hf : ∀ s, Proper g s → Proper g (f s)) : Stays g (P.modify f) := by
  intro s c s' h hp
  obtain rfl := P.modify_ok.1 h
  exact hf s hp

theorem Stays.modifySame {f : PState → PState} (hf : ∀ s, (f s).replacement = s.replacement) : Stays g (P.modify f) :=
  Stays.modify fun s h ty ht => h ty (by rwa [hf] at ht)

/-- A step that does not touch the type to change to. -/
theorem Stays.same {m : P β} (h : ∀ s b s', m s = .ok b s' → s'.replacement = s.replacement) : Stays g m := by
  intro s b s' hs hp ty ht
  rw [h s b s' hs] at ht
  exact hp ty ht

theorem Stays.ite {c : Prop} [Decidable c] {m m' : P β} (h : Stays g m) (h' : Stays g m') :
    Stays g (if c then m else m') := by
  split
  · exact h
  · exact h'

theorem Stays.cond {c : Bool} {m : P Unit} (h : Stays g m) : Stays g (P.cond c m) := Stays.ite h Stays.pure

theorem event_stays {e : Event} : Stays g (event e) :=
  Stays.modify fun s h => by
    show Proper g (if s.predicate = true then s else { s with events := s.events ++ [e] })
    split <;> exact h

theorem startTy_stays {ty : NodeType} : Stays g (startTy ty) :=
  (Stays.get.bind fun _ => Stays.pure).bind fun _ => event_stays.bind fun _ => Stays.pure

theorem mark_stays : Stays g mark := Stays.get.bind fun _ => Stays.pure

theorem start_stays {env : Env} {ty : Nat} : Stays g (start env ty) := Stays.lift.bind fun _ => startTy_stays

theorem startError_stays : Stays g startError := startTy_stays.bind fun _ => Stays.pure

theorem getFromCache_stays {env : Env} {e : Nat} {pos : Pos} : Stays g (getFromCache env e pos) := by
  unfold getFromCache
  split
  · exact Stays.pure
  · refine Stays.lift.bind fun x => ?_
    dsimp only
    split
    · exact Stays.pure
    · exact Stays.ite ((Stays.modifySame (by intro s; rfl)).bind fun _ => Stays.pure) Stays.panic

theorem startCached_stays {e : Nat} : Stays g (startCached e) :=
  mark_stays.bind fun _ => event_stays.bind fun _ => Stays.pure

theorem finishCached_stays {m : Nat} : Stays g (finishCached m) := Stays.same fun s b s' hs => by
  unfold finishCached at hs
  split at hs
  · cases hs; rfl
  · split at hs
    · cases hs; rfl
    · cases hs

theorem reopen_stays : Stays g reopen := Stays.same fun s b s' hs => by
  unfold reopen at hs
  split at hs
  · cases hs; rfl
  · split at hs
    · cases hs; rfl
    · cases hs

theorem rollback_stays {m : Nat} : Stays g (rollback m) := Stays.same fun s b s' hs => by
  unfold rollback at hs
  split at hs
  · cases hs; rfl
  · cases hs

theorem replace_stays {env : Env} {m ty : Nat} : Stays g (replace env m ty) :=
  Stays.lift.bind fun _ => Stays.same fun s b s' hs => by
    split at hs
    · cases hs; rfl
    · cases hs

theorem forwardParent_stays {c p : Nat} : Stays g (forwardParent c p) := Stays.same fun s b s' hs => by
  unfold forwardParent at hs
  split at hs
  · split at hs
    · cases hs; rfl
    · cases hs
  · cases hs

theorem bump_stays {env : Env} {pos : Pos} : Stays g (bump env pos) :=
  Stays.ite Stays.pure (Stays.lift.bind fun _ => event_stays.bind fun _ => Stays.pure)

theorem byTextLoop_stays {env : Env} {rest : List (Nat × Nat)} {l n : Nat} {pos : Pos} :
    Stays g (byTextLoop env rest l n pos) := by
  induction rest generalizing l n pos with
  | nil =>
    unfold byTextLoop
    exact Stays.ite Stays.pure (Stays.ite Stays.pure Stays.panic)
  | cons x rest ih =>
    unfold byTextLoop
    exact Stays.ite Stays.pure (Stays.ite Stays.pure (Stays.lift.bind fun _ => Stays.ite Stays.pure ih))

theorem bumpByText_stays {env : Env} {pos : Pos} {text : List Nat} {ty : Nat} :
    Stays g (bumpByText env pos text ty) := by
  refine Stays.ite Stays.pure (Stays.lift.bind fun x => Stays.ite Stays.panic (Stays.ite Stays.pure
    (byTextLoop_stays.bind fun r => ?_)))
  cases r with
  | none => exact Stays.pure
  | some r => exact Stays.lift.bind fun _ => event_stays.bind fun _ => Stays.pure

theorem bumpAllN_stays {env : Env} {n : Nat} {pos : Pos} : Stays g (bumpAllN env n pos) := by
  induction n generalizing pos with
  | zero => exact Stays.panic
  | succ n ih =>
    refine bump_stays.bind fun r => ?_
    cases r with
    | none => exact Stays.pure
    | some r => exact ih

/-- All expressions keep it. -/
def RecStays (g : Grammar) (rec : Rec) : Prop := ∀ e pos, Stays g (rec e pos)

variable {env : Env} {rec : Rec} {pos : Pos}

theorem parseExprPred_stays (hr : RecStays g rec) {e : Nat} : Stays g (parseExprPred rec e pos) :=
  Stays.get.bind fun _ => (Stays.modifySame (by intro s; rfl)).bind fun _ => (hr _ _).bind fun _ =>
    (Stays.modifySame (by intro s; rfl)).bind fun _ => Stays.pure

theorem applyReplacement_stays {m : Nat} {b : Bool} : Stays g (applyReplacement env m b) := by
  unfold applyReplacement
  refine Stays.get.bind fun s0 => ?_
  split
  · refine (Stays.modify fun s h => ?_).bind fun _ => replace_stays
    rintro _ ⟨⟩
  · exact Stays.pure

theorem parsePub_stays (hr : RecStays g rec) {ty body : Nat} {b : Bool} :
    Stays g (parsePub env rec pos ty body b) := by
  unfold parsePub
  refine (Stays.modify fun s h => ?_).bind fun _ => start_stays.bind fun m => (hr _ _).bind fun r => ?_
  · split
    · rintro _ ⟨⟩
    · exact h
  · cases r with
    | none => exact Stays.pure
    | some ts =>
      exact applyReplacement_stays.bind fun _ => event_stays.bind fun _ => Stays.lift.bind fun _ =>
        (Stays.modifySame (by intro s; rfl)).bind fun _ => Stays.pure

theorem parsePubReplace_stays (hr : RecStays g rec) {ty body : Nat} (h : Replaces g ty) :
    Stays g (parsePubReplace rec pos ty body) := by
  unfold parsePubReplace
  refine (hr _ _).bind fun r => ?_
  cases r with
  | none => exact Stays.pure
  | some ts =>
    refine (Stays.modify fun s _ => ?_).bind fun _ => Stays.pure
    rintro _ ⟨⟩
    exact h

theorem parseOr_stays (hr : RecStays g rec) {os : List Nat} : Stays g (parseOr rec pos os) := by
  induction os with
  | nil => exact Stays.pure
  | cons o os ih =>
    unfold parseOr
    refine (hr _ _).bind fun r => ?_
    cases r with
    | none => exact ih
    | some ts => exact Stays.pure

theorem andLoop_stays (hr : RecStays g rec) {parts : List Nat} {c : Nat} : Stays g (andLoop rec parts c pos) := by
  induction parts generalizing c pos with
  | nil => exact Stays.pure
  | cons o os ih =>
    unfold andLoop
    refine (hr _ _).bind fun r => ?_
    cases r with
    | none => exact Stays.pure
    | some ts => exact ih

theorem errorNode_stays : Stays g (do startError; finish : P Unit) := startError_stays.bind fun _ => event_stays

theorem parseAnd_stays (hr : RecStays g rec) {parts : List Nat} {commit : Option Nat} :
    Stays g (parseAnd rec pos parts commit) :=
  (andLoop_stays hr).bind fun _ => Stays.ite Stays.pure
    ((Stays.cond errorNode_stays).bind fun _ => Stays.pure)

theorem parseToken_stays {ty : Nat} : Stays g (parseToken env pos ty) := by
  refine bump_stays.bind fun r => ?_
  cases r with
  | none => exact Stays.pure
  | some r => exact Stays.lift.bind fun _ => Stays.ite Stays.pure Stays.pure

theorem parseNot_stays (hr : RecStays g rec) {e : Nat} : Stays g (parseNot rec pos e) := by
  refine (parseExprPred_stays hr).bind fun r => ?_
  cases r with
  | none => exact Stays.pure
  | some r => exact Stays.pure

theorem parseLayer_stays (hr : RecStays g rec) {l e : Nat} : Stays g (parseLayer env rec pos l e) := by
  refine (parseExprPred_stays hr).bind fun r => ?_
  cases r with
  | none => exact Stays.pure
  | some r =>
    exact (hr _ _).bind fun _ => (Stays.cond (startError_stays.bind fun _ => bumpAllN_stays.bind fun _ =>
      event_stays)).bind fun _ => Stays.pure

theorem repLoop_stays (hr : RecStays g rec) {body n : Nat} : Stays g (repLoop rec body n pos) := by
  induction n generalizing pos with
  | zero => exact Stays.timeout
  | succ n ih =>
    refine (hr _ _).bind fun r => ?_
    cases r with
    | none => exact Stays.pure
    | some r => exact ih

theorem withSkipLoop_stays (hr : RecStays g rec) {first body n : Nat} {b : Bool} :
    Stays g (withSkipLoop env rec first body n b pos) := by
  induction n generalizing pos b with
  | zero => exact Stays.timeout
  | succ n ih =>
    refine (Stays.cond event_stays).bind fun _ => Stays.bind (?_ : Stays g (withSkipTry rec pos first body)) fun r => ?_
    · refine (parseExprPred_stays hr).bind fun r => ?_
      cases r with
      | none => exact Stays.pure
      | some r => exact hr _ _
    · cases r with
      | some r => exact Stays.pure
      | none =>
        refine Stays.bind (?_ : Stays g (skipOpen b)) fun _ => bump_stays.bind fun r => ?_
        · exact Stays.ite reopen_stays startError_stays
        · cases r with
          | none => exact Stays.pure
          | some r => exact ih

theorem parseWithContext_stays (hr : RecStays g rec) {ctx e : Nat} {v : Bool} :
    Stays g (parseWithContext rec pos ctx e v) :=
  Stays.get.bind fun _ => Stays.lift.bind fun _ => (Stays.modifySame (by intro s; rfl)).bind fun _ => (hr _ _).bind fun _ =>
    (Stays.modifySame (by intro s; rfl)).bind fun _ => Stays.pure

theorem parseIsIn_stays {ctx : Nat} : Stays g (parseIsIn pos ctx) :=
  Stays.get.bind fun _ => Stays.lift.bind fun _ => Stays.ite Stays.pure Stays.pure

theorem resolveArg_stays {arg : Nat} : Stays g (resolveArg env arg) := by
  refine Stays.get.bind fun _ => Stays.lift.bind fun r => ?_
  split
  · exact Stays.lift
  · exact Stays.pure

theorem setArgs_stays {args : List (Nat × Nat)} : Stays g (setArgs env args) := by
  induction args with
  | nil => exact Stays.pure
  | cons a args ih =>
    exact resolveArg_stays.bind fun _ => Stays.get.bind fun _ =>
      Stays.ite ((Stays.modifySame (by intro s; rfl)).bind fun _ => ih) Stays.panic

theorem parseCall_stays (hr : RecStays g rec) {body : Nat} {args : List (Nat × Nat)} :
    Stays g (parseCall env rec pos body args) :=
  Stays.get.bind fun _ => setArgs_stays.bind fun _ => (hr _ _).bind fun _ =>
    (Stays.modifySame (by intro s; rfl)).bind fun _ => Stays.pure

theorem parseVar_stays (hr : RecStays g rec) {i : Nat} : Stays g (parseVar rec pos i) :=
  Stays.get.bind fun _ => Stays.lift.bind fun _ => hr _ _

theorem prevIsLoop_stays {p : NodeType} {tys : List Nat} : Stays g (prevIsLoop env p pos tys) := by
  induction tys with
  | nil => exact Stays.pure
  | cons t tys ih => exact Stays.lift.bind fun _ => Stays.ite Stays.pure ih

theorem parsePrevIs_stays {tys : List Nat} : Stays g (parsePrevIs env pos tys) := by
  refine Stays.get.bind fun s => ?_
  split
  · exact prevIsLoop_stays
  · exact Stays.pure

theorem parseInject_stays (hr : RecStays g rec) {pre body : Nat} : Stays g (parseInject rec pos pre body) := by
  refine mark_stays.bind fun _ => (hr _ _).bind fun r => ?_
  cases r with
  | none => exact Stays.pure
  | some r =>
    refine mark_stays.bind fun _ => (hr _ _).bind fun r => ?_
    cases r with
    | none => exact Stays.pure
    | some r => exact (Stays.cond forwardParent_stays).bind fun _ => Stays.pure

theorem parseCached_stays (hr : RecStays g rec) {e : Nat} : Stays g (parseCached env rec pos e) := by
  refine startCached_stays.bind fun _ => Stays.bind (?_ : Stays g (cachedOrParse env rec pos e)) fun r => ?_
  · refine getFromCache_stays.bind fun r => ?_
    cases r with
    | none => exact hr _ _
    | some r => exact Stays.pure
  · cases r with
    | none => exact Stays.pure
    | some r => exact finishCached_stays.bind fun _ => Stays.pure

section
variable {go : Pos → Nat → P (Option Pos)} {table : PrattTable}

theorem prattRhs_stays (hg : ∀ pos p, Stays g (go pos p)) {ix : Infix} : Stays g (prattRhs go ix pos) := by
  refine Stays.ite ((hg _ _).bind fun r => ?_) Stays.pure
  cases r with
  | none => exact startError_stays.bind fun _ => event_stays.bind fun _ => Stays.pure
  | some r => exact Stays.pure

theorem prattInfixes_stays (hr : RecStays g rec) (hg : ∀ pos p, Stays g (go pos p)) {lhs : Nat} {ixs : List Infix} :
    Stays g (prattInfixes env rec go lhs pos ixs) := by
  induction ixs with
  | nil => exact Stays.pure
  | cons ix ixs ih =>
    refine mark_stays.bind fun _ => start_stays.bind fun _ => (hr _ _).bind fun r => ?_
    cases r with
    | none => exact rollback_stays.bind fun _ => ih
    | some r =>
      exact forwardParent_stays.bind fun _ => (prattRhs_stays hg).bind fun _ => Stays.lift.bind fun _ =>
        (Stays.modifySame (by intro s; rfl)).bind fun _ => event_stays.bind fun _ => Stays.pure

theorem prattLoop_stays (hr : RecStays g rec) (hg : ∀ pos p, Stays g (go pos p)) {p n lhs : Nat} :
    Stays g (prattLoop env rec go table p n lhs pos) := by
  induction n generalizing pos lhs with
  | zero => exact Stays.timeout
  | succ n ih =>
    refine (prattInfixes_stays hr hg).bind fun r => ?_
    cases r with
    | none => exact Stays.pure
    | some r => exact ih

theorem prattPrefixes_stays (hr : RecStays g rec) (hg : ∀ pos p, Stays g (go pos p)) {pfs : List Prefix} :
    Stays g (prattPrefixes env rec go pos pfs) := by
  induction pfs with
  | nil => exact Stays.pure
  | cons pf pfs ih =>
    refine start_stays.bind fun _ => Stays.bind (?_ : Stays g (prattOperand rec go pf pos)) fun r => ?_
    · refine (hr _ _).bind fun r => ?_
      cases r with
      | none => exact Stays.pure
      | some r => exact hg _ _
    · cases r with
      | none => exact rollback_stays.bind fun _ => ih
      | some r =>
        exact Stays.lift.bind fun _ => (Stays.modifySame (by intro s; rfl)).bind fun _ => event_stays.bind fun _ => Stays.pure

theorem prattGo_stays (hr : RecStays g rec) {n p : Nat} : Stays g (prattGo env rec table n pos p) := by
  induction n generalizing pos p with
  | zero => exact Stays.timeout
  | succ n ih =>
    refine mark_stays.bind fun _ => Stays.bind (?_ : Stays g (prattPrefix env rec (prattGo env rec table n) table pos))
      fun r => ?_
    · refine (parseOr_stays hr).bind fun r => ?_
      cases r with
      | none => exact prattPrefixes_stays hr fun _ _ => ih
      | some r => exact Stays.pure
    · cases r with
      | none => exact Stays.pure
      | some r => exact prattLoop_stays hr fun _ _ => ih

end

theorem parseExprInner_stays (hr : RecStays env.grammar rec) {n e : Nat} :
    Stays env.grammar (parseExprInner env rec n e pos) := by
  intro s b s' h hp
  unfold parseExprInner at h
  obtain ⟨rule, s1, h1, h⟩ := P.bind_ok.1 h
  obtain ⟨he, rfl⟩ := P.lift_ok.1 h1
  revert hp
  revert h
  cases rule with
  | pub ty body r => exact fun h => parsePub_stays hr _ _ _ h
  | pubReplace ty body => exact fun h => parsePubReplace_stays hr ⟨_, _, he⟩ _ _ _ h
  | or parts => exact fun h => parseOr_stays hr _ _ _ h
  | and parts c => exact fun h => parseAnd_stays hr _ _ _ h
  | token ty => exact fun h => parseToken_stays _ _ _ h
  | contextualToken ty w => exact fun h => bumpByText_stays _ _ _ h
  | opt body => exact fun h => ((hr _ _).bind fun _ => Stays.pure) _ _ _ h
  | not body => exact fun h => parseNot_stays hr _ _ _ h
  | eof => exact fun h => Stays.pure _ _ _ h
  | any =>
    refine fun h => Stays.bind bump_stays (fun r => ?_) _ _ _ h
    cases r with
    | none => exact Stays.pure
    | some r => exact Stays.pure
  | layer l body => exact fun h => parseLayer_stays hr _ _ _ h
  | rep body => exact fun h => repLoop_stays hr _ _ _ h
  | withSkip first body => exact fun h => withSkipLoop_stays hr _ _ _ h
  | pratt table => exact fun h => prattGo_stays hr _ _ _ h
  | enter c body => exact fun h => parseWithContext_stays hr _ _ _ h
  | exit c body => exact fun h => parseWithContext_stays hr _ _ _ h
  | isIn c => exact fun h => parseIsIn_stays _ _ _ h
  | call body as => exact fun h => parseCall_stays hr _ _ _ h
  | var i => exact fun h => parseVar_stays hr _ _ _ h
  | prevIs tys => exact fun h => parsePrevIs_stays _ _ _ h
  | inject pre body => exact fun h => parseInject_stays hr _ _ _ h
  | cached body => exact fun h => parseCached_stays hr _ _ _ h

theorem parseExpr_stays {n : Nat} : RecStays env.grammar (parseExpr env n) := by
  induction n with
  | zero => exact fun _ _ => Stays.timeout
  | succ n ih =>
    intro e pos
    exact (Stays.modifySame (by intro s; rfl)).bind fun _ => mark_stays.bind fun _ => (parseExprInner_stays ih).bind fun _ =>
      (Stays.cond rollback_stays).bind fun _ => Stays.pure

end Fall.Parser
