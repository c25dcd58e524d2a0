import Verif.Model.Convert
import Verif.Spec.Codegen

/-!
Renaming the rules of a grammar does not change what the parser does.
-/

namespace Fall

open Spec

/-- Renames the keys of memorised results. -/
def Event.ren (φ : Nat → Nat) : Event → Event
  | .cached key n => .cached (φ key) n
  | e => e

/-- Renames the rules that the state refers to. -/
def PState.ren (φ : Nat → Nat) (s : PState) : PState :=
  { s with events := s.events.map (Event.ren φ), args := s.args.map (Option.map φ) }

/-- Renames in an outcome. -/
def Out.ren (φ : Nat → Nat) (g : β → γ) : Out β → Out γ
  | .ok b s => .ok (g b) (s.ren φ)
  | .panic => .panic
  | .timeout => .timeout

/-- `m'` does the same as `m`, with the rules renamed. -/
def Sim (φ : Nat → Nat) (g : β → γ) (m : P β) (m' : P γ) : Prop := ∀ s, m' (s.ren φ) = (m s).ren φ g

/-- A grammar with renamed rules. -/
structure Renamed (φ : Nat → Nat) (env env' : Env) : Prop where
  cache : env.cache = none
  cache' : env'.cache = none
  text : env'.text = env.text
  tokens : env'.tokens = env.tokens
  nonWs : env'.nonWs = env.nonWs
  nodeTypes : env'.grammar.nodeTypes = env.grammar.nodeTypes
  rules : ∀ i, env'.grammar.rules[φ i]? = env.grammar.rules[i]?.map (rename φ)
  start : env'.grammar.startRule = φ env.grammar.startRule

variable {φ : Nat → Nat}

theorem sim_pure {g : β → γ} {b : β} {c : γ} (h : c = g b) : Sim φ g (pure b) (pure c) := by
  subst h
  intro s
  rfl

theorem sim_bind {g : β → γ} {g' : β' → γ'} {m : P β} {m' : P γ} {k : β → P β'} {k' : γ → P γ'} (h : Sim φ g m m')
    (hk : ∀ b, Sim φ g' (k b) (k' (g b))) : Sim φ g' (m >>= k) (m' >>= k') := by
  intro s
  show P.bind m' k' (s.ren φ) = (P.bind m k s).ren φ g'
  unfold P.bind
  rw [h s]
  cases m s with
  | ok b s => exact hk b s
  | panic => rfl
  | timeout => rfl

theorem sim_panic {g : β → γ} : Sim φ g P.panic P.panic := fun _ => rfl

theorem sim_timeout {g : β → γ} : Sim φ g P.timeout P.timeout := fun _ => rfl

theorem sim_lift {g : β → γ} {o : Option β} {o' : Option γ} (h : o' = o.map g) : Sim φ g (P.lift o) (P.lift o') := by
  subst h
  cases o with
  | none => exact sim_panic
  | some b => exact sim_pure rfl

theorem sim_lift_id {o o' : Option β} (h : o' = o) : Sim φ id (P.lift o) (P.lift o') := sim_lift (by simp [h])

theorem sim_cond {c c' : Bool} {m m' : P Unit} (hc : c' = c) (h : Sim φ id m m') :
    Sim φ id (P.cond c m) (P.cond c' m') := by
  subst hc
  cases c' with
  | false => exact sim_pure rfl
  | true => exact h

theorem sim_get : Sim φ (PState.ren φ) P.get P.get := fun _ => rfl

theorem sim_modify {t t' : PState → PState} (h : ∀ s, t' (s.ren φ) = (t s).ren φ) :
    Sim φ id (P.modify t) (P.modify t') := by
  intro s
  show Out.ok () (t' (s.ren φ)) = Out.ok () ((t s).ren φ)
  rw [h]

theorem sim_ite {g : β → γ} {c c' : Prop} [Decidable c] [Decidable c'] {m n : P β} {m' n' : P γ} (hc : c' ↔ c)
    (h : c → Sim φ g m m') (h' : ¬ c → Sim φ g n n') : Sim φ g (if c then m else n) (if c' then m' else n') := by
  by_cases hcc : c
  · rw [if_pos hcc, if_pos (hc.2 hcc)]
    exact h hcc
  · rw [if_neg hcc, if_neg fun h => hcc (hc.1 h)]
    exact h' hcc

/-- The same statement, without a renamed result. -/
abbrev Same (φ : Nat → Nat) (m m' : P β) : Prop := Sim φ id m m'

namespace Parser

theorem sim_tick : Same φ tick tick := sim_modify fun _ => rfl

theorem sim_event {e e' : Event} (h : e' = e.ren φ) : Same φ (event e) (event e') := by
  refine sim_modify fun s => ?_
  subst h
  by_cases hp : s.predicate = true <;> simp [PState.ren, hp]

theorem sim_mark : Same φ mark mark := by
  refine sim_bind sim_get fun s => sim_pure ?_
  simp [PState.ren]

theorem sim_startTy {ty : NodeType} : Same φ (startTy ty) (startTy ty) :=
  sim_bind sim_mark fun _ => sim_bind (sim_event rfl) fun _ => sim_pure rfl

theorem sim_startError : Same φ startError startError := sim_bind sim_startTy fun _ => sim_pure rfl

theorem sim_finish : Same φ finish finish := sim_event rfl

theorem sim_token {ty : NodeType} {k : Nat} : Same φ (token ty k) (token ty k) := sim_event rfl

theorem sim_startCached {i : Nat} : Same φ (startCached i) (startCached (φ i)) :=
  sim_bind sim_mark fun _ => sim_bind (sim_event rfl) fun _ => sim_pure rfl

theorem sim_finishCached {m : Nat} : Same φ (finishCached m) (finishCached m) := by
  intro s
  unfold finishCached
  by_cases hp : s.predicate = true
  · simp [PState.ren, hp, Out.ren]
  · simp only [PState.ren, hp, Bool.false_eq_true, if_false, List.getElem?_map, List.length_map]
    cases he : s.events[m]? with
    | none => rfl
    | some e =>
      cases e <;> simp [Event.ren, Out.ren, PState.ren, List.map_set]

theorem sim_reopen : Same φ reopen reopen := by
  intro s
  unfold reopen
  by_cases hp : s.predicate = true
  · simp [PState.ren, hp, Out.ren]
  · simp only [PState.ren, hp, Bool.false_eq_true, if_false, List.getLast?_map]
    cases he : s.events.getLast? with
    | none => rfl
    | some e =>
      cases e <;> simp [Event.ren, Out.ren, PState.ren, List.map_dropLast]

theorem sim_rollback {m : Nat} : Same φ (rollback m) (rollback m) := by
  intro s
  unfold rollback
  simp only [PState.ren, List.length_map]
  split <;> simp [Out.ren, PState.ren, List.map_take]

theorem sim_forwardParent {c p : Nat} : Same φ (forwardParent c p) (forwardParent c p) := by
  intro s
  unfold forwardParent
  simp only [PState.ren, List.getElem?_map]
  cases he : s.events[c]? with
  | none => rfl
  | some e =>
    cases e with
    | start ty fp =>
      simp only [Option.map_some, Event.ren]
      split <;> simp [Out.ren, PState.ren, List.map_set, Event.ren]
    | _ => rfl

section
variable {env env' : Env} (h : Renamed φ env env')
include h

theorem sim_nodeType {i : Nat} : Same φ (nodeType env i) (nodeType env' i) := sim_lift_id (by rw [h.nodeTypes])

theorem sim_tokenAt {pos : Pos} : Same φ (tokenAt env pos) (tokenAt env' pos) :=
  sim_lift_id (by rw [h.nonWs, h.tokens])

theorem sim_start {i : Nat} : Same φ (start env i) (start env' i) :=
  sim_bind (sim_nodeType h) fun _ => sim_startTy

theorem sim_replace {m i : Nat} : Same φ (replace env m i) (replace env' m i) := by
  refine sim_bind (sim_nodeType h) fun ty s => ?_
  simp only [PState.ren, List.getElem?_map, id]
  cases he : s.events[m]? with
  | none => rfl
  | some e => cases e <;> simp [Event.ren, Out.ren, PState.ren, List.map_set]

theorem sim_bump {pos : Pos} : Same φ (bump env pos) (bump env' pos) :=
  sim_ite Iff.rfl (fun _ => sim_pure rfl) fun _ =>
    sim_bind (sim_tokenAt h) fun _ => sim_bind sim_token fun _ => sim_pure rfl

theorem sim_byTextLoop {rest : List (Nat × Nat)} {leftover k : Nat} {pos : Pos} :
    Same φ (byTextLoop env rest leftover k pos) (byTextLoop env' rest leftover k pos) := by
  induction rest generalizing leftover k pos with
  | nil =>
    unfold byTextLoop
    refine sim_ite Iff.rfl (fun _ => sim_pure rfl) fun _ => sim_ite Iff.rfl (fun _ => sim_pure rfl) fun _ => sim_panic
  | cons r rest ih =>
    unfold byTextLoop
    refine sim_ite Iff.rfl (fun _ => sim_pure rfl) fun _ => sim_ite Iff.rfl (fun _ => sim_pure rfl) fun _ => ?_
    refine sim_bind (sim_lift_id (by rw [h.tokens])) fun t => ?_
    exact sim_ite Iff.rfl (fun _ => sim_pure rfl) fun _ => ih

theorem sim_bumpByText {pos : Pos} {text : List Nat} {i : Nat} :
    Same φ (bumpByText env pos text i) (bumpByText env' pos text i) := by
  refine sim_ite Iff.rfl (fun _ => sim_pure rfl) fun _ => ?_
  refine sim_bind (sim_lift_id (by rw [h.nonWs])) fun p => ?_
  simp only [id, h.text, h.nonWs]
  refine sim_ite Iff.rfl (fun _ => sim_panic) fun _ => sim_ite Iff.rfl (fun _ => sim_pure rfl) fun _ => ?_
  refine sim_bind (sim_byTextLoop h) fun r => ?_
  cases r with
  | none => exact sim_pure rfl
  | some r => exact sim_bind (sim_nodeType h) fun _ => sim_bind sim_token fun _ => sim_pure rfl

theorem sim_bumpAllN {n : Nat} {pos : Pos} : Same φ (bumpAllN env n pos) (bumpAllN env' n pos) := by
  induction n generalizing pos with
  | zero => exact sim_panic
  | succ n ih =>
    refine sim_bind (sim_bump h) fun r => ?_
    cases r with
    | none => exact sim_pure rfl
    | some r => exact ih

theorem sim_bumpAll {pos : Pos} : Same φ (bumpAll env pos) (bumpAll env' pos) := by
  unfold bumpAll
  rw [h.nonWs]
  exact sim_bumpAllN h

theorem sim_applyReplacement {m : Nat} {b : Bool} :
    Same φ (applyReplacement env m b) (applyReplacement env' m b) := by
  refine sim_bind sim_get fun s => ?_
  show Sim φ id _ (match b, s.replacement with | true, some ty => _ | _, _ => _)
  cases b with
  | false => exact sim_pure rfl
  | true =>
    cases s.replacement with
    | none => exact sim_pure rfl
    | some ty => exact sim_bind (sim_modify fun _ => rfl) fun _ => sim_replace h

theorem sim_prevIsLoop {prev : NodeType} {pos : Pos} {tys : List Nat} :
    Same φ (prevIsLoop env prev pos tys) (prevIsLoop env' prev pos tys) := by
  induction tys with
  | nil => exact sim_pure rfl
  | cons t tys ih =>
    exact sim_bind (sim_nodeType h) fun _ => sim_ite Iff.rfl (fun _ => sim_pure rfl) fun _ => ih

theorem sim_parsePrevIs {pos : Pos} {tys : List Nat} : Same φ (parsePrevIs env pos tys) (parsePrevIs env' pos tys) := by
  refine sim_bind sim_get fun s => ?_
  show Sim φ id _ (match s.prev with | some prev => _ | none => _)
  cases s.prev with
  | none => exact sim_pure rfl
  | some p => exact sim_prevIsLoop h

theorem sim_resolveArg {a : Nat} : Sim φ φ (resolveArg env a) (resolveArg env' (φ a)) := by
  refine sim_bind sim_get fun s => sim_bind (sim_lift (g := rename φ) (h.rules a)) fun e => ?_
  cases e with
  | var i =>
    refine sim_lift ?_
    simp only [PState.ren, List.getElem?_map]
    cases s.args[i]? <;> simp
  | _ => exact sim_pure rfl

theorem sim_setArgs {args : List (Nat × Nat)} :
    Same φ (setArgs env args) (setArgs env' (args.map fun a => (a.1, φ a.2))) := by
  induction args with
  | nil => exact sim_pure rfl
  | cons a args ih =>
    refine sim_bind (sim_resolveArg h) fun x => sim_bind sim_get fun s => ?_
    refine sim_ite (by simp [PState.ren]) (fun _ => ?_) fun _ => sim_panic
    exact sim_bind (sim_modify fun s => by simp [PState.ren, List.map_set]) fun _ => ih

end

/-- The recursive calls do the same. -/
def SimRec (φ : Nat → Nat) (rec rec' : Rec) : Prop := ∀ i pos, Same φ (rec i pos) (rec' (φ i) pos)

section
variable {rec rec' : Rec} (hr : SimRec φ rec rec')
include hr

theorem sim_pred {i : Nat} {pos : Pos} : Same φ (parseExprPred rec i pos) (parseExprPred rec' (φ i) pos) :=
  sim_bind sim_get fun _ => sim_bind (sim_modify fun _ => rfl) fun _ => sim_bind (hr i pos) fun _ =>
    sim_bind (sim_modify fun _ => rfl) fun _ => sim_pure rfl

theorem sim_pubReplace {pos : Pos} {ty b : Nat} :
    Same φ (parsePubReplace rec pos ty b) (parsePubReplace rec' pos ty (φ b)) := by
  refine sim_bind (hr b pos) fun r => ?_
  cases r with
  | none => exact sim_pure rfl
  | some ts => exact sim_bind (sim_modify fun _ => rfl) fun _ => sim_pure rfl

theorem sim_or {pos : Pos} {parts : List Nat} : Same φ (parseOr rec pos parts) (parseOr rec' pos (parts.map φ)) := by
  induction parts with
  | nil => exact sim_pure rfl
  | cons p ps ih =>
    refine sim_bind (hr p pos) fun r => ?_
    cases r with
    | none => exact ih
    | some ts => exact sim_pure rfl

theorem sim_andLoop {parts : List Nat} {k : Nat} {pos : Pos} :
    Same φ (andLoop rec parts k pos) (andLoop rec' (parts.map φ) k pos) := by
  induction parts generalizing k pos with
  | nil => exact sim_pure rfl
  | cons p ps ih =>
    refine sim_bind (hr p pos) fun r => ?_
    cases r with
    | none => exact sim_pure rfl
    | some ts => exact ih

theorem sim_and {pos : Pos} {parts : List Nat} {c : Option Nat} :
    Same φ (parseAnd rec pos parts c) (parseAnd rec' pos (parts.map φ) c) := by
  refine sim_bind (sim_andLoop hr) fun r => ?_
  simp only [id, List.length_map]
  refine sim_ite Iff.rfl (fun _ => sim_pure rfl) fun _ => ?_
  exact sim_bind (sim_cond rfl (sim_bind sim_startError fun _ => sim_finish)) fun _ => sim_pure rfl

theorem sim_opt {pos : Pos} {b : Nat} : Same φ (parseOpt rec pos b) (parseOpt rec' pos (φ b)) :=
  sim_bind (hr b pos) fun _ => sim_pure rfl

theorem sim_not {pos : Pos} {b : Nat} : Same φ (parseNot rec pos b) (parseNot rec' pos (φ b)) := by
  refine sim_bind (sim_pred hr) fun r => ?_
  cases r <;> exact sim_pure rfl

theorem sim_rep {b n : Nat} {pos : Pos} : Same φ (repLoop rec b n pos) (repLoop rec' (φ b) n pos) := by
  induction n generalizing pos with
  | zero => exact sim_timeout
  | succ n ih =>
    refine sim_bind (hr b pos) fun r => ?_
    cases r with
    | none => exact sim_pure rfl
    | some ts => exact ih

theorem sim_withSkipTry {pos : Pos} {a b : Nat} :
    Same φ (withSkipTry rec pos a b) (withSkipTry rec' pos (φ a) (φ b)) := by
  refine sim_bind (sim_pred hr) fun r => ?_
  cases r with
  | none => exact sim_pure rfl
  | some ts => exact hr b pos

theorem sim_withContext {pos : Pos} {c b : Nat} {v : Bool} :
    Same φ (parseWithContext rec pos c b v) (parseWithContext rec' pos c (φ b) v) :=
  sim_bind sim_get fun _ => sim_bind (sim_lift_id rfl) fun _ => sim_bind (sim_modify fun _ => rfl) fun _ =>
    sim_bind (hr b pos) fun _ => sim_bind (sim_modify fun _ => rfl) fun _ => sim_pure rfl

theorem sim_var {pos : Pos} {i : Nat} : Same φ (parseVar rec pos i) (parseVar rec' pos i) := by
  refine sim_bind sim_get fun s => sim_bind (g := φ) (sim_lift ?_) fun x => hr x pos
  simp only [PState.ren, List.getElem?_map]
  cases s.args[i]? <;> simp

theorem sim_inject {pos : Pos} {a b : Nat} :
    Same φ (parseInject rec pos a b) (parseInject rec' pos (φ a) (φ b)) := by
  refine sim_bind sim_mark fun m => sim_bind (hr a pos) fun r => ?_
  cases r with
  | none => exact sim_pure rfl
  | some ts =>
    refine sim_bind sim_mark fun m' => sim_bind (hr b ts) fun r => ?_
    cases r with
    | none => exact sim_pure rfl
    | some ts' => exact sim_bind (sim_cond rfl sim_forwardParent) fun _ => sim_pure rfl

theorem sim_operand {go go' : Pos → Nat → P (Option Pos)} (hg : ∀ pos k, Same φ (go pos k) (go' pos k)) {pf : Prefix}
    {pos : Pos} : Same φ (prattOperand rec go pf pos) (prattOperand rec' go' { pf with op := φ pf.op } pos) := by
  refine sim_bind (hr pf.op pos) fun r => ?_
  cases r with
  | none => exact sim_pure rfl
  | some ts => exact hg ts pf.priority

end

theorem sim_rhs {go go' : Pos → Nat → P (Option Pos)} (hg : ∀ pos k, Same φ (go pos k) (go' pos k)) {ix : Infix}
    {pos : Pos} : Same φ (prattRhs go ix pos) (prattRhs go' { ix with op := φ ix.op } pos) := by
  refine sim_ite Iff.rfl (fun _ => sim_bind (hg pos _) fun r => ?_) fun _ => sim_pure rfl
  cases r with
  | none => exact sim_bind sim_startError fun _ => sim_bind sim_finish fun _ => sim_pure rfl
  | some ts => exact sim_pure rfl

section
variable {env env' : Env} (h : Renamed φ env env') {rec rec' : Rec} (hr : SimRec φ rec rec')
include h hr

theorem sim_pub {pos : Pos} {ty b : Nat} {v : Bool} :
    Same φ (parsePub env rec pos ty b v) (parsePub env' rec' pos ty (φ b) v) := by
  refine sim_bind (sim_modify fun s => by cases v <;> rfl) fun _ => sim_bind (sim_start h) fun m =>
    sim_bind (hr b pos) fun r => ?_
  cases r with
  | none => exact sim_pure rfl
  | some ts =>
    exact sim_bind (sim_applyReplacement h) fun _ => sim_bind sim_finish fun _ => sim_bind (sim_nodeType h) fun _ =>
      sim_bind (sim_modify fun _ => rfl) fun _ => sim_pure rfl

omit hr in
theorem sim_parseToken {pos : Pos} {ty : Nat} : Same φ (parseToken env pos ty) (parseToken env' pos ty) := by
  refine sim_bind (sim_bump h) fun r => ?_
  cases r with
  | none => exact sim_pure rfl
  | some r =>
    exact sim_bind (sim_nodeType h) fun _ => sim_ite Iff.rfl (fun _ => sim_pure rfl) fun _ => sim_pure rfl

theorem sim_layer {pos : Pos} {a b : Nat} :
    Same φ (parseLayer env rec pos a b) (parseLayer env' rec' pos (φ a) (φ b)) := by
  refine sim_bind (sim_pred hr) fun r => ?_
  cases r with
  | none => exact sim_pure rfl
  | some ts =>
    refine sim_bind (hr b _) fun r => ?_
    exact sim_bind (sim_cond rfl (sim_bind sim_startError fun _ => sim_bind (sim_bumpAll h) fun _ => sim_finish))
      fun _ => sim_pure rfl

theorem sim_withSkip {a b n : Nat} {sk : Bool} {pos : Pos} :
    Same φ (withSkipLoop env rec a b n sk pos) (withSkipLoop env' rec' (φ a) (φ b) n sk pos) := by
  induction n generalizing sk pos with
  | zero => exact sim_timeout
  | succ n ih =>
    refine sim_bind (sim_cond rfl sim_finish) fun _ => sim_bind (sim_withSkipTry hr) fun r => ?_
    cases r with
    | some ts => exact sim_pure rfl
    | none =>
      refine sim_bind (g := id) ?_ fun _ => sim_bind (sim_bump h) fun r => ?_
      · cases sk with
        | false => exact sim_startError
        | true => exact sim_reopen
      · cases r with
        | none => exact sim_pure rfl
        | some r => exact ih

theorem sim_call {pos : Pos} {b : Nat} {args : List (Nat × Nat)} :
    Same φ (parseCall env rec pos b args) (parseCall env' rec' pos (φ b) (args.map fun a => (a.1, φ a.2))) :=
  sim_bind sim_get fun _ => sim_bind (sim_setArgs h) fun _ => sim_bind (hr b pos) fun _ =>
    sim_bind (sim_modify fun _ => rfl) fun _ => sim_pure rfl

theorem sim_cached {pos : Pos} {b : Nat} :
    Same φ (parseCached env rec pos b) (parseCached env' rec' pos (φ b)) := by
  refine sim_bind sim_startCached fun m => sim_bind (m := cachedOrParse env rec pos b) (g := id) ?_ fun r => ?_
  · refine sim_bind (g := id) ?_ fun r => ?_
    · unfold getFromCache
      rw [h.cache, h.cache']
      exact sim_pure rfl
    · cases r with
      | none => exact hr b pos
      | some ts => exact sim_pure rfl
  · cases r with
    | none => exact sim_pure rfl
    | some ts => exact sim_bind sim_finishCached fun _ => sim_pure rfl

theorem sim_infixes {go go' : Pos → Nat → P (Option Pos)} (hg : ∀ pos k, Same φ (go pos k) (go' pos k)) {lhs : Nat}
    {pos : Pos} {ixs : List Infix} :
    Same φ (prattInfixes env rec go lhs pos ixs)
      (prattInfixes env' rec' go' lhs pos (ixs.map fun p => { p with op := φ p.op })) := by
  induction ixs with
  | nil => exact sim_pure rfl
  | cons ix ixs ih =>
    refine sim_bind sim_mark fun nl => sim_bind (sim_start h) fun m => sim_bind (hr ix.op pos) fun r => ?_
    cases r with
    | none => exact sim_bind sim_rollback fun _ => ih
    | some ts =>
      exact sim_bind sim_forwardParent fun _ => sim_bind (sim_rhs hg) fun _ => sim_bind (sim_nodeType h) fun _ =>
        sim_bind (sim_modify fun _ => rfl) fun _ => sim_bind sim_finish fun _ => sim_pure rfl

theorem sim_prefixes {go go' : Pos → Nat → P (Option Pos)} (hg : ∀ pos k, Same φ (go pos k) (go' pos k)) {pos : Pos}
    {pfs : List Prefix} :
    Same φ (prattPrefixes env rec go pos pfs)
      (prattPrefixes env' rec' go' pos (pfs.map fun p => { p with op := φ p.op })) := by
  induction pfs with
  | nil => exact sim_pure rfl
  | cons pf pfs ih =>
    refine sim_bind (sim_start h) fun m => sim_bind (sim_operand hr hg) fun r => ?_
    cases r with
    | none => exact sim_bind sim_rollback fun _ => ih
    | some ts =>
      exact sim_bind (sim_nodeType h) fun _ => sim_bind (sim_modify fun _ => rfl) fun _ => sim_bind sim_finish fun _ =>
        sim_pure rfl

theorem sim_prattLoop {go go' : Pos → Nat → P (Option Pos)} (hg : ∀ pos k, Same φ (go pos k) (go' pos k))
    {table : PrattTable} {k n lhs : Nat} {pos : Pos} :
    Same φ (prattLoop env rec go table k n lhs pos) (prattLoop env' rec' go' (renameTable φ table) k n lhs pos) := by
  induction n generalizing lhs pos with
  | zero => exact sim_timeout
  | succ n ih =>
    have e : (renameTable φ table).infixesFrom k = (table.infixesFrom k).map fun p => { p with op := φ p.op } := by
      simp [PrattTable.infixesFrom, renameTable, List.filter_map, Function.comp_def]
    unfold prattLoop
    rw [e]
    refine sim_bind (sim_infixes h hr hg) fun r => ?_
    cases r with
    | none => exact sim_pure rfl
    | some r => exact ih

theorem sim_prattGo {table : PrattTable} {n : Nat} {pos : Pos} {k : Nat} :
    Same φ (prattGo env rec table n pos k) (prattGo env' rec' (renameTable φ table) n pos k) := by
  induction n generalizing pos k with
  | zero => exact sim_timeout
  | succ n ih =>
    refine sim_bind sim_mark fun lhs => sim_bind (g := id) ?_ fun r => ?_
    · refine sim_bind (sim_or hr) fun r => ?_
      cases r with
      | none => exact sim_prefixes h hr fun _ _ => ih
      | some ts => exact sim_pure rfl
    · cases r with
      | none => exact sim_pure rfl
      | some ts => exact sim_prattLoop h hr fun _ _ => ih

theorem sim_inner {n i : Nat} {pos : Pos} :
    Same φ (parseExprInner env rec n i pos) (parseExprInner env' rec' n (φ i) pos) := by
  refine sim_bind (sim_lift (g := rename φ) (h.rules i)) fun e => ?_
  cases e with
  | pub ty b v => exact sim_pub h hr
  | pubReplace ty b => exact sim_pubReplace hr
  | or ps => exact sim_or hr
  | and ps c => exact sim_and hr
  | token ty => exact sim_parseToken h
  | contextualToken ty t => exact sim_bumpByText h
  | rep b => exact sim_rep hr
  | withSkip a b => exact sim_withSkip h hr
  | opt b => exact sim_opt hr
  | not b => exact sim_not hr
  | eof => exact sim_pure rfl
  | any =>
    refine sim_bind (sim_bump h) fun r => ?_
    cases r <;> exact sim_pure rfl
  | layer a b => exact sim_layer h hr
  | pratt t => exact sim_prattGo h hr
  | enter c b => exact sim_withContext hr
  | exit c b => exact sim_withContext hr
  | isIn c =>
    exact sim_bind sim_get fun _ => sim_bind (sim_lift_id rfl) fun _ =>
      sim_ite Iff.rfl (fun _ => sim_pure rfl) fun _ => sim_pure rfl
  | call b args => exact sim_call h hr
  | var i => exact sim_var hr
  | prevIs tys => exact sim_parsePrevIs h
  | inject a b => exact sim_inject hr
  | cached b => exact sim_cached h hr

end

theorem sim_parseExpr {env env' : Env} (h : Renamed φ env env') (n : Nat) :
    SimRec φ (parseExpr env n) (parseExpr env' n) := by
  induction n with
  | zero => exact fun _ _ => sim_timeout
  | succ n ih =>
    intro i pos
    exact sim_bind sim_tick fun _ => sim_bind sim_mark fun _ => sim_bind (sim_inner h ih) fun _ =>
      sim_bind (sim_cond rfl sim_rollback) fun _ => sim_pure rfl

theorem sim_parseMain {env env' : Env} (h : Renamed φ env env') (n : Nat) :
    Same φ (parseMain env n) (parseMain env' n) := by
  unfold parseMain
  rw [h.start]
  refine sim_bind ?_ fun r => sim_bind (sim_lift_id rfl) fun p => ?_
  · have : env'.startPos = env.startPos := by simp [Env.startPos, h.nonWs]
    rw [this]
    exact sim_parseExpr h n _ _
  · exact sim_cond rfl (sim_bind sim_reopen fun _ => sim_bind sim_startError fun _ => sim_bind (sim_bumpAll h) fun _ =>
      sim_bind sim_finish fun _ => sim_finish)

end Parser

/-- Renames in the result of a parse. -/
def Result.ren (φ : Nat → Nat) : Result (List Event × Nat) → Result (List Event × Nat)
  | .ok (es, ticks) => .ok (es.map (Event.ren φ), ticks)
  | .panic => .panic
  | .timeout => .timeout

theorem synParse_renamed {env env' : Env} (h : Renamed φ env env') (n : Nat) :
    synParse env' n = (synParse env n).ren φ := by
  have := Parser.sim_parseMain h n .new
  have hn : PState.new.ren φ = PState.new := by simp [PState.ren, PState.new]
  rw [hn] at this
  unfold synParse
  rw [this]
  cases Parser.parseMain env n .new <;> rfl

/-! ## Trees -/

namespace Convert

theorem links_ren {es : List Event} {fuel i : Nat} : links (es.map (Event.ren φ)) fuel i = links es fuel i := by
  induction fuel generalizing i with
  | zero => rfl
  | succ fuel ih =>
    unfold links
    simp only [List.getElem?_map]
    cases es[i]? with
    | none => rfl
    | some e =>
      cases e with
      | start ty fp => cases fp <;> simp [Event.ren, ih]
      | _ => rfl

/-- Renames in the result. -/
def renAll (φ : Nat → Nat) : Result (List Event) → Result (List Event)
  | .ok es => .ok (es.map (Event.ren φ))
  | .panic => .panic
  | .timeout => .timeout

theorem result_bind_ren {r : Result β} {k k' : β → Result (List Event)} (h : ∀ b, k' b = renAll φ (k b)) :
    (r >>= k') = renAll φ (r >>= k) := by
  cases r with
  | ok b => exact h b
  | panic => rfl
  | timeout => rfl

theorem result_bind_both {r r' : Result (List Event)} {k k' : List Event → Result (List Event)} (hr : r' = renAll φ r)
    (h : ∀ b, k' (b.map (Event.ren φ)) = renAll φ (k b)) : (r' >>= k') = renAll φ (r >>= k) := by
  subst hr
  cases r with
  | ok b => exact h b
  | panic => rfl
  | timeout => rfl

theorem reshuffleFrom_ren {all es : List Event} {i : Nat} {holes : List Nat} :
    reshuffleFrom (all.map (Event.ren φ)) i (es.map (Event.ren φ)) holes = renAll φ (reshuffleFrom all i es holes) := by
  induction es generalizing i holes with
  | nil => rfl
  | cons e es ih =>
    simp only [List.map_cons]
    unfold reshuffleFrom
    split
    · exact ih
    · cases e with
      | start ty fp =>
        cases fp with
        | none => exact result_bind_both ih fun _ => rfl
        | some k =>
          simp only [Event.ren, links_ren, List.length_map]
          refine result_bind_ren fun ps => result_bind_both ih fun rest => ?_
          show Result.ok _ = Result.ok _
          simp [Event.ren, Function.comp_def]
      | token ty k => exact result_bind_both ih fun _ => rfl
      | fin => exact result_bind_both ih fun _ => rfl
      | cached key k => exact result_bind_both ih fun _ => rfl

/-- Renames the events that are left. -/
def renRest (φ : Nat → Nat) (r : Option (List BuilderOp × List TokenText × List Event)) :
    Option (List BuilderOp × List TokenText × List Event) :=
  r.map fun x => (x.1, x.2.1, x.2.2.map (Event.ren φ))

theorem goWith_ren {cv : Convertor} {fill : List TokenText → List Event → Option (List BuilderOp × List TokenText × List Event)}
    (hfill : ∀ ts es, fill ts (es.map (Event.ren φ)) = renRest φ (fill ts es)) {ty : NodeType} {ts : List TokenText}
    {es : List Event} : cv.goWith fill ty ts (es.map (Event.ren φ)) = renRest φ (cv.goWith fill ty ts es) := by
  unfold Convertor.goWith
  rw [hfill]
  cases fill ts es with
  | none => rfl
  | some r =>
    simp only [renRest, Option.map_some, Option.bind_eq_bind, Option.bind_some]
    split <;> rfl

theorem fill_ren {cv : Convertor} {n : Nat} {ts : List TokenText} {es : List Event} :
    cv.fill n ts (es.map (Event.ren φ)) = renRest φ (cv.fill n ts es) := by
  induction n generalizing ts es with
  | zero => rfl
  | succ n ih =>
    cases es with
    | nil => rfl
    | cons e es =>
      cases e with
      | fin => rfl
      | cached key k => exact ih
      | token ty k =>
        simp only [List.map_cons, Event.ren, Convertor.fill]
        split
        · rfl
        · rw [ih]
          cases cv.fill n ((ts.drop (cv.spaces ts).length).drop k) es <;> rfl
      | start ty fp =>
        simp only [List.map_cons, Event.ren, Convertor.fill]
        split
        · rfl
        · rw [goWith_ren fun _ _ => ih]
          cases cv.goWith (cv.fill n) ty (ts.drop _) es with
          | none => rfl
          | some r =>
            simp only [renRest, Option.map_some, Option.bind_eq_bind, Option.bind_some]
            rw [ih]
            cases cv.fill n r.2.1 r.2.2 <;> rfl

/-- Trees do not depend on the keys of memorised results. -/
theorem convert_ren {cv : Convertor} {text : List Nat} {tokens : List Token} {es : List Event} :
    cv.convert text tokens (es.map (Event.ren φ)) = cv.convert text tokens es := by
  unfold Convertor.convert reshuffle
  rw [reshuffleFrom_ren]
  cases reshuffleFrom es 0 es [] with
  | panic => rfl
  | timeout => rfl
  | ok es' =>
    cases es' with
    | nil => rfl
    | cons e es' =>
      cases e with
      | start ty fp =>
        show (Result.ofOption (tokenTexts text tokens) >>= _) = (Result.ofOption (tokenTexts text tokens) >>= _)
        cases tokenTexts text tokens with
        | none => rfl
        | some tt =>
          show (Result.ofOption (cv.goWith (cv.fill (es'.map (Event.ren φ)).length) ty tt (es'.map (Event.ren φ))) >>= _) =
            (Result.ofOption (cv.goWith (cv.fill es'.length) ty tt es') >>= _)
          rw [List.length_map, goWith_ren fun _ _ => fill_ren]
          cases cv.goWith (cv.fill es'.length) ty tt es' <;> rfl
      | _ => rfl

end Convert

end Fall
