import Verif.Model.Syn

/-!
The budget of the interpreter only decides whether there is a result, not which.
-/

namespace Fall

/-- `m'` gives the same as `m` unless the budget of `m` is used up. -/
def P.Le (m m' : P β) : Prop := ∀ s, m s = .timeout ∨ m' s = m s

namespace P

theorem Le.refl (m : P β) : Le m m := fun _ => Or.inr rfl

theorem Le.trans {m1 m2 m3 : P β} (h : Le m1 m2) (h' : Le m2 m3) : Le m1 m3 := by
  intro s
  rcases h s with h | h
  · exact Or.inl h
  · rcases h' s with h' | h'
    · exact Or.inl (by rw [← h, h'])
    · exact Or.inr (by rw [h', h])

theorem Le.timeout (m : P β) : Le P.timeout m := fun _ => Or.inl rfl

theorem Le.bind {m m' : P β} {f f' : β → P γ} (h : Le m m') (hf : ∀ b, Le (f b) (f' b)) :
    Le (m >>= f) (m' >>= f') := by
  intro s
  show P.bind m f s = _ ∨ P.bind m' f' s = P.bind m f s
  unfold P.bind
  rcases h s with h | h
  · rw [h]; exact Or.inl rfl
  · rw [h]
    cases m s with
    | ok b s' => exact hf b s'
    | panic => exact Or.inr rfl
    | timeout => exact Or.inl rfl

theorem Le.cond {c : Bool} {m m' : P Unit} (h : Le m m') : Le (P.cond c m) (P.cond c m') := by
  cases c
  · exact Le.refl _
  · exact h

theorem Le.ok {m m' : P β} (h : Le m m') {s s' : PState} {b : β} (hm : m s = .ok b s') :
    m' s = .ok b s' := by
  rcases h s with h | h
  · rw [hm] at h; cases h
  · rw [h, hm]

theorem Le.panic {m m' : P β} (h : Le m m') {s : PState} (hm : m s = .panic) : m' s = .panic := by
  rcases h s with h | h
  · rw [hm] at h; cases h
  · rw [h, hm]

end P

namespace Parser

/-- `rec'` is `rec` with a larger budget. -/
def RecLe (rec rec' : Rec) : Prop := ∀ e pos, P.Le (rec e pos) (rec' e pos)

open P (Le)


variable {env : Env} {rec rec' : Rec}

theorem parseExprPred_le (h : RecLe rec rec') (e : Nat) (pos : Pos) :
    Le (parseExprPred rec e pos) (parseExprPred rec' e pos) := by
  unfold parseExprPred
  exact Le.bind (Le.refl _) fun _ => Le.bind (Le.refl _) fun _ => Le.bind (h _ _) fun _ => Le.refl _

theorem parsePub_le (h : RecLe rec rec') (pos : Pos) (ty body : Nat) (b : Bool) :
    Le (parsePub env rec pos ty body b) (parsePub env rec' pos ty body b) := by
  unfold parsePub
  refine Le.bind (Le.refl _) fun _ => Le.bind (Le.refl _) fun _ => Le.bind (h _ _) fun r => ?_
  cases r <;> exact Le.refl _

theorem parsePubReplace_le (h : RecLe rec rec') (pos : Pos) (ty body : Nat) :
    Le (parsePubReplace rec pos ty body) (parsePubReplace rec' pos ty body) := by
  unfold parsePubReplace
  refine Le.bind (h _ _) fun r => ?_
  cases r <;> exact Le.refl _

theorem parseOr_le (h : RecLe rec rec') (pos : Pos) (ps : List Nat) :
    Le (parseOr rec pos ps) (parseOr rec' pos ps) := by
  induction ps with
  | nil => exact Le.refl _
  | cons p ps ih =>
    refine Le.bind (h _ _) fun r => ?_
    cases r
    · exact ih
    · exact Le.refl _

theorem andLoop_le (h : RecLe rec rec') (ps : List Nat) (k : Nat) (pos : Pos) :
    Le (andLoop rec ps k pos) (andLoop rec' ps k pos) := by
  induction ps generalizing k pos with
  | nil => exact Le.refl _
  | cons p ps ih =>
    refine Le.bind (h _ _) fun r => ?_
    cases r
    · exact Le.refl _
    · exact ih _ _

theorem parseAnd_le (h : RecLe rec rec') (pos : Pos) (ps : List Nat) (c : Option Nat) :
    Le (parseAnd rec pos ps c) (parseAnd rec' pos ps c) := by
  unfold parseAnd
  exact Le.bind (andLoop_le h _ _ _) fun _ => Le.refl _

theorem parseOpt_le (h : RecLe rec rec') (pos : Pos) (body : Nat) :
    Le (parseOpt rec pos body) (parseOpt rec' pos body) := by
  unfold parseOpt
  exact Le.bind (h _ _) fun _ => Le.refl _

theorem parseNot_le (h : RecLe rec rec') (pos : Pos) (e : Nat) :
    Le (parseNot rec pos e) (parseNot rec' pos e) := by
  unfold parseNot
  refine Le.bind (parseExprPred_le h _ _) fun r => ?_
  cases r <;> exact Le.refl _

theorem parseLayer_le (h : RecLe rec rec') (pos : Pos) (l e : Nat) :
    Le (parseLayer env rec pos l e) (parseLayer env rec' pos l e) := by
  unfold parseLayer
  refine Le.bind (parseExprPred_le h _ _) fun r => ?_
  cases r
  · exact Le.refl _
  · exact Le.bind (h _ _) fun _ => Le.refl _

theorem repLoop_le (h : RecLe rec rec') (body : Nat) {n m : Nat} (hn : n ≤ m) (pos : Pos) :
    Le (repLoop rec body n pos) (repLoop rec' body m pos) := by
  induction n generalizing m pos with
  | zero => exact Le.timeout _
  | succ n ih =>
    obtain ⟨m, rfl⟩ : ∃ k, m = k + 1 := ⟨m - 1, by omega⟩
    refine Le.bind (h _ _) fun r => ?_
    cases r
    · exact Le.refl _
    · exact ih (by omega) _

theorem withSkipTry_le (h : RecLe rec rec') (pos : Pos) (first body : Nat) :
    Le (withSkipTry rec pos first body) (withSkipTry rec' pos first body) := by
  unfold withSkipTry
  refine Le.bind (parseExprPred_le h _ _) fun r => ?_
  cases r
  · exact Le.refl _
  · exact h _ _

theorem withSkipLoop_le (h : RecLe rec rec') (first body : Nat) {n m : Nat} (hn : n ≤ m)
    (sk : Bool) (pos : Pos) :
    Le (withSkipLoop env rec first body n sk pos) (withSkipLoop env rec' first body m sk pos) := by
  induction n generalizing m sk pos with
  | zero => exact Le.timeout _
  | succ n ih =>
    obtain ⟨m, rfl⟩ : ∃ k, m = k + 1 := ⟨m - 1, by omega⟩
    unfold withSkipLoop
    refine Le.bind (Le.refl _) fun _ => Le.bind (withSkipTry_le h _ _ _) fun r => ?_
    cases r
    · refine Le.bind (Le.refl _) fun _ => Le.bind (Le.refl _) fun r => ?_
      rcases r with _ | ⟨_, ts⟩
      · exact Le.refl _
      · exact ih (by omega) _ _
    · exact Le.refl _

theorem parseWithContext_le (h : RecLe rec rec') (pos : Pos) (ctx e : Nat) (b : Bool) :
    Le (parseWithContext rec pos ctx e b) (parseWithContext rec' pos ctx e b) := by
  unfold parseWithContext
  exact Le.bind (Le.refl _) fun _ => Le.bind (Le.refl _) fun _ => Le.bind (Le.refl _) fun _ =>
    Le.bind (h _ _) fun _ => Le.refl _

theorem parseCall_le (h : RecLe rec rec') (pos : Pos) (body : Nat) (as : List (Nat × Nat)) :
    Le (parseCall env rec pos body as) (parseCall env rec' pos body as) := by
  unfold parseCall
  exact Le.bind (Le.refl _) fun _ => Le.bind (Le.refl _) fun _ => Le.bind (h _ _) fun _ => Le.refl _

theorem parseVar_le (h : RecLe rec rec') (pos : Pos) (i : Nat) :
    Le (parseVar rec pos i) (parseVar rec' pos i) := by
  unfold parseVar
  exact Le.bind (Le.refl _) fun _ => Le.bind (Le.refl _) fun _ => h _ _

theorem parseInject_le (h : RecLe rec rec') (pos : Pos) (pre body : Nat) :
    Le (parseInject rec pos pre body) (parseInject rec' pos pre body) := by
  unfold parseInject
  refine Le.bind (Le.refl _) fun _ => Le.bind (h _ _) fun r => ?_
  cases r
  · exact Le.refl _
  · refine Le.bind (Le.refl _) fun _ => Le.bind (h _ _) fun r => ?_
    cases r <;> exact Le.refl _

theorem parseCached_le (h : RecLe rec rec') (pos : Pos) (e : Nat) :
    Le (parseCached env rec pos e) (parseCached env rec' pos e) := by
  unfold parseCached
  refine Le.bind (Le.refl _) fun _ => Le.bind ?_ fun r => ?_
  · unfold cachedOrParse
    refine Le.bind (Le.refl _) fun r => ?_
    cases r
    · exact h _ _
    · exact Le.refl _
  · cases r <;> exact Le.refl _

variable {go go' : Pos → Nat → P (Option Pos)}

theorem prattRhs_le (h : ∀ pos p, Le (go pos p) (go' pos p)) (ix : Infix) (pos : Pos) :
    Le (prattRhs go ix pos) (prattRhs go' ix pos) := by
  unfold prattRhs
  split
  · refine Le.bind (h _ _) fun r => ?_
    cases r <;> exact Le.refl _
  · exact Le.refl _

theorem prattInfixes_le (h : RecLe rec rec') (hg : ∀ pos p, Le (go pos p) (go' pos p)) (lhs : Nat)
    (pos : Pos) (ixs : List Infix) :
    Le (prattInfixes env rec go lhs pos ixs) (prattInfixes env rec' go' lhs pos ixs) := by
  induction ixs with
  | nil => exact Le.refl _
  | cons ix ixs ih =>
    unfold prattInfixes
    refine Le.bind (Le.refl _) fun _ => Le.bind (Le.refl _) fun _ => Le.bind (h _ _) fun r => ?_
    cases r
    · exact Le.bind (Le.refl _) fun _ => ih
    · exact Le.bind (Le.refl _) fun _ => Le.bind (prattRhs_le hg _ _) fun _ => Le.refl _

theorem prattLoop_le (h : RecLe rec rec') (hg : ∀ pos p, Le (go pos p) (go' pos p))
    (table : PrattTable) (p : Nat) {n m : Nat} (hn : n ≤ m) (lhs : Nat) (pos : Pos) :
    Le (prattLoop env rec go table p n lhs pos) (prattLoop env rec' go' table p m lhs pos) := by
  induction n generalizing m lhs pos with
  | zero => exact Le.timeout _
  | succ n ih =>
    obtain ⟨m, rfl⟩ : ∃ k, m = k + 1 := ⟨m - 1, by omega⟩
    unfold prattLoop
    refine Le.bind (prattInfixes_le h hg _ _ _) fun r => ?_
    rcases r with _ | ⟨lhs', pos'⟩
    · exact Le.refl _
    · exact ih (by omega) _ _

theorem prattPrefixes_le (h : RecLe rec rec') (hg : ∀ pos p, Le (go pos p) (go' pos p)) (pos : Pos)
    (pfs : List Prefix) :
    Le (prattPrefixes env rec go pos pfs) (prattPrefixes env rec' go' pos pfs) := by
  induction pfs with
  | nil => exact Le.refl _
  | cons pf pfs ih =>
    unfold prattPrefixes
    refine Le.bind (Le.refl _) fun _ => Le.bind ?_ fun r => ?_
    · unfold prattOperand
      refine Le.bind (h _ _) fun r => ?_
      cases r
      · exact Le.refl _
      · exact hg _ _
    · cases r
      · exact Le.bind (Le.refl _) fun _ => ih
      · exact Le.refl _

theorem prattGo_le (h : RecLe rec rec') (table : PrattTable) {n m : Nat} (hn : n ≤ m) (pos : Pos)
    (p : Nat) : Le (prattGo env rec table n pos p) (prattGo env rec' table m pos p) := by
  induction n generalizing m pos p with
  | zero => exact Le.timeout _
  | succ n ih =>
    obtain ⟨m, rfl⟩ : ∃ k, m = k + 1 := ⟨m - 1, by omega⟩
    have hg : ∀ pos p, Le (prattGo env rec table n pos p) (prattGo env rec' table m pos p) :=
      fun pos p => ih (by omega) pos p
    unfold prattGo
    refine Le.bind (Le.refl _) fun _ => Le.bind ?_ fun r => ?_
    · unfold prattPrefix
      refine Le.bind (parseOr_le h _ _) fun r => ?_
      cases r
      · exact prattPrefixes_le h hg _ _
      · exact Le.refl _
    · cases r
      · exact Le.refl _
      · exact prattLoop_le h hg _ _ (by omega) _ _

theorem parseExprInner_le (h : RecLe rec rec') {n m : Nat} (hn : n ≤ m) (e : Nat) (pos : Pos) :
    Le (parseExprInner env rec n e pos) (parseExprInner env rec' m e pos) := by
  unfold parseExprInner
  refine Le.bind (Le.refl _) fun rule => ?_
  cases rule with
  | pub ty body b => exact parsePub_le h _ _ _ _
  | pubReplace ty body => exact parsePubReplace_le h _ _ _
  | or parts => exact parseOr_le h _ _
  | and parts c => exact parseAnd_le h _ _ _
  | rep body => exact repLoop_le h _ hn _
  | withSkip first body => exact withSkipLoop_le h _ _ hn _ _
  | opt body => exact parseOpt_le h _ _
  | not e => exact parseNot_le h _ _
  | layer l e => exact parseLayer_le h _ _ _
  | pratt table => exact prattGo_le h _ hn _ _
  | enter ctx e => exact parseWithContext_le h _ _ _ _
  | exit ctx e => exact parseWithContext_le h _ _ _ _
  | call body as => exact parseCall_le h _ _ _
  | var i => exact parseVar_le h _ _
  | inject pre body => exact parseInject_le h _ _ _
  | cached body => exact parseCached_le h _ _
  | _ => exact Le.refl _

/-- A larger budget does not change the outcome of an expression. -/
theorem parseExpr_le (env : Env) {n m : Nat} (hn : n ≤ m) : RecLe (parseExpr env n) (parseExpr env m) := by
  induction n generalizing m with
  | zero => exact fun _ _ => Le.timeout _
  | succ n ih =>
    obtain ⟨m, rfl⟩ : ∃ k, m = k + 1 := ⟨m - 1, by omega⟩
    intro e pos
    unfold parseExpr
    exact Le.bind (Le.refl _) fun _ => Le.bind (Le.refl _) fun _ =>
      Le.bind (parseExprInner_le (ih (by omega)) (by omega) _ _) fun _ => Le.refl _

theorem parseMain_le (env : Env) {n m : Nat} (hn : n ≤ m) : Le (parseMain env n) (parseMain env m) := by
  unfold parseMain
  exact Le.bind (parseExpr_le env hn _ _) fun _ => Le.refl _

end Parser

theorem synParse_le (env : Env) {n m : Nat} (hn : n ≤ m) :
    synParse env n = .timeout ∨ synParse env m = synParse env n := by
  unfold synParse
  rcases Parser.parseMain_le env hn .new with h | h
  · rw [h]; exact Or.inl rfl
  · rw [h]; exact Or.inr rfl

end Fall
