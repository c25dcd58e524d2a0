import Verif.Lemmas.SynCut
import Verif.Spec.Incremental

/-! Parsing with a reparse cache. -/

namespace Fall

open Spec

namespace Parser

variable {strict : Bool} {pan : Prop} {passed : Nat → Prop} {A : Bool → Bool → Nat → Prop} {K : Nat} {env1 env2 : Env}

/-- Environments that differ at most in the cache. -/
theorem envSim_of (h1 : env1.grammar = env2.grammar) (h2 : env1.text = env2.text)
    (h3 : env1.tokens = env2.tokens) (h4 : env1.nonWs = env2.nonWs) :
    EnvSim env2.nonWs.length env1 env2 := by
  refine ⟨h1, fun i _ => ?_, fun pos w ty s _ => ?_, by rw [h4]; exact Nat.le_refl _, Nat.le_refl _⟩
  · unfold sigToken
    rw [h3, h4]
  · have loop : ∀ rest l k pos, byTextLoop env1 rest l k pos = byTextLoop env2 rest l k pos := by
      intro rest
      induction rest with
      | nil => intro l k pos; unfold byTextLoop; rfl
      | cons x rest ih =>
        intro l k pos
        unfold byTextLoop
        simp only [h3, ih]
    unfold bumpByText nodeType
    simp only [h1, h2, h4, loop]

theorem envSim_cache (env : Env) (c1 c2 : Option (CacheMap × List Event)) :
    EnvSim env.nonWs.length { env with cache := c1 } { env with cache := c2 } :=
  envSim_of (env1 := { env with cache := c1 }) (env2 := { env with cache := c2 }) rfl rfl rfl rfl

theorem parseMain_sim (he : EnvSim K env1 env2) (hc : Caches pan A env1 env2)
    (hG : SimGrammar strict passed A K env1 env2) (hlen : env1.nonWs.length = env2.nonWs.length)
    (hK : K = env2.nonWs.length) (hA : ∀ z, A false z env2.grammar.startRule) (n : Nat) :
    Sim strict pan passed false (parseMain env1 n) (parseMain env2 n) (fun _ => True) := by
  unfold parseMain
  have hp : Within K false env2.startPos := ⟨Nat.zero_le _, Nat.le_of_eq hK.symm, fun _ => hK.symm⟩
  have hs : env1.startPos = env2.startPos := by simp [Env.startPos, hlen]
  rw [he.grammar, hs]
  refine Sim.bind (parseExpr_sim he hc hG n false false _ _ (hA _) hp) fun r hA => ?_
  refine Sim.bind (Sim.lift (Q := fun q => Within K false q) fun q hq => hA.within hq hp) fun q hq => ?_
  unfold P.cond
  split
  · rename_i h
    exact Sim.bind reopen_sim fun _ _ => Sim.bind startError_sim fun _ _ =>
      Sim.bind (bumpAll_sim he hq (by simpa using h)) fun _ _ => Sim.bind event_sim fun _ _ => event_sim
  · exact Sim.pure trivial

theorem synParse_sim (he : EnvSim K env1 env2) (hc : Caches pan A env1 env2)
    (hG : SimGrammar strict passed A K env1 env2) (hlen : env1.nonWs.length = env2.nonWs.length)
    (hK : K = env2.nonWs.length) (hA : ∀ z, A false z env2.grammar.startRule) (n : Nat) {es : List Event} {t : Nat}
    (h : synParse env2 n = .ok (es, t)) :
    (pan ∧ synParse env1 n = .panic) ∨
      ∃ t', synParse env1 n = .ok (es, t') ∧ (strict = true → t' = t) := by
  unfold synParse at h ⊢
  cases hm : parseMain env2 n .new with
  | panic => rw [hm] at h; cases h
  | timeout => rw [hm] at h; cases h
  | ok u s =>
    rw [hm] at h
    cases h
    have hargs : ∀ (i a : Nat), PState.new.args[i]? ≠ some (some a) := by
      intro i a h
      cases List.eq_of_mem_replicate (List.mem_of_getElem? h)
    obtain ⟨_, _, h3⟩ := parseMain_sim he hc hG hlen hK hA n .new
      ⟨rfl, fun i a h => absurd h (hargs i a), fun _ => rfl⟩ u s hm
    rcases h3 .new ⟨rfl, rfl, rfl, rfl, rfl, fun _ => ⟨rfl, rfl⟩⟩ with ⟨hp, h4⟩ | ⟨s1, h4, ha⟩
    · exact Or.inl ⟨hp, by rw [h4]⟩
    · refine Or.inr ⟨s1.ticks, ?_, fun hst => (ha.same hst).1⟩
      rw [h4]
      simp only [ha.events]

/-- Condition on a rule for `N`, the expressions that may be run at the end of the input. -/
def EndRule (N : Nat → Prop) (g : Grammar) (env : Env) (e : Nat) : Expr → Prop
  | .pub _ body _ | .opt body | .enter _ body | .exit _ body | .pubReplace _ body | .call body _ | .cached body =>
    N e → N body
  | .rep body | .not body => N body
  | .or parts => N e → ∀ p ∈ parts, N p
  | .and parts _ => (N e → ∀ p ∈ parts.head?, N p) ∧ ∀ p ∈ parts.tail, N p
  | .withSkip l body => N l ∧ (N body ∨ Eager env l)
  | .layer l body => N l ∧ N body
  | .pratt table => (∀ a ∈ table.atoms, N a) ∧ (∀ p ∈ table.prefixes, N p.op) ∧ ∀ i ∈ table.infixes, N i.op
  | .var _ => N e → ∀ a, Passed g a → N a
  | .inject pre body => (N e → N pre) ∧ N body
  | .prevIs _ | .token _ | .contextualToken _ _ | .eof | .any | .isIn _ => True

theorem endRule_true {g : Grammar} {env : Env} {e : Nat} {rule : Expr} : EndRule (fun _ => True) g env e rule := by
  cases rule <;> simp [EndRule]

/-- Where an expression may be run. -/
def Place (g : Grammar) (N : Nat → Prop) (f z : Bool) (e : Nat) : Prop :=
  (f = true → Confined g e) ∧ (z = true → N e)

theorem simGrammar_sound {env : Env} (hf : CacheFriendly env.grammar) (hs : SoundCache env)
    (hg : env2.grammar = env.grammar) (hn : env2.nonWs = env.nonWs)
    (hr : ∀ n e pos s r s', Within env.nonWs.length true pos → parseExpr env2 n e pos s = .ok r s' →
      Runs { env with cache := none } e pos s r s') {N : Nat → Prop}
    (hN : ∀ e rule, env.grammar.rules[e]? = some rule → EndRule N env.grammar env2 e rule) :
    SimGrammar false (Passed env.grammar) (Place env.grammar N) env.nonWs.length env env2 := by
  intro e rule hrule
  rw [hg] at hrule
  have hmem := List.mem_of_getElem? hrule
  have hE := hN e rule hrule
  have part : ∀ p, p ∈ parts rule → ∀ f z z', Place env.grammar N f z e → (z' = true → N p) →
      Place env.grammar N f z' p :=
    fun p hp f z z' h h' => ⟨fun hf => .part (h.1 hf) hrule hp, h'⟩
  cases rule with
  | pubReplace ty body => exact absurd hmem (hf.noReplace ty body)
  | prevIs tys => exact absurd hmem (hf.noPrev tys)
  | withSkip l body =>
    refine ⟨fun z => ⟨fun _ => .skip hrule, fun _ => hE.1⟩, fun f z h => ⟨?_, hE.2.imp_left fun hb => ?_⟩⟩
    · exact part body (by simp [parts]) f z _ h (by simp)
    · exact part body (by simp [parts]) f z _ h fun _ => hb
  | layer l body =>
    exact ⟨fun z => ⟨fun _ => .bound hrule, fun _ => hE.1⟩, fun z => ⟨fun _ => .layer hrule, fun _ => hE.2⟩⟩
  | not l => exact fun z => ⟨fun _ => .not hrule, fun _ => hE⟩
  | or ps => exact fun f z h p hp => part p hp f z _ h fun hz => hE (h.2 hz) p hp
  | and ps c =>
    refine fun f z h => ⟨fun p hp => ?_, fun p hp z' => ?_⟩
    · exact part p (List.mem_of_mem_head? hp) f z _ h fun hz => hE.1 (h.2 hz) p hp
    · exact part p (List.mem_of_mem_tail hp) f z _ h fun _ => hE.2 p hp
  | pratt table =>
    refine fun f z h => ⟨fun a ha z' => part a ?_ f z _ h fun _ => hE.1 a ha,
      fun p hp z' => part _ ?_ f z _ h fun _ => hE.2.1 p hp, fun i hi z' => part _ ?_ f z _ h fun _ => hE.2.2 i hi⟩
    · simp [parts, ha]
    · simp only [parts, List.mem_append, List.mem_map]
      exact Or.inl (Or.inr ⟨p, hp, rfl⟩)
    · simp only [parts, List.mem_append, List.mem_map]
      exact Or.inr ⟨i, hi, rfl⟩
  | call body args =>
    refine ⟨fun f z h => part _ (by simp [parts]) f z _ h fun hz => hE (h.2 hz), fun x hx _ _ _ => ?_⟩
    exact ⟨e, body, args, x.1, hrule, hx⟩
  | var i => exact fun f z h a ha => ⟨fun hf => .arg (h.1 hf) hrule ha, fun hz => hE (h.2 hz) a ha⟩
  | inject pre body =>
    exact fun f z h => ⟨part _ (by simp [parts]) f z _ h fun hz => hE.1 (h.2 hz),
      fun z' => part _ (by simp [parts]) f z _ h fun _ => hE.2⟩
  | rep body => exact fun f z h z' => part _ (by simp [parts]) f z _ h fun _ => hE
  | cached body =>
    refine ⟨fun f z h => part _ (by simp [parts]) f z _ h fun hz => hE (h.2 hz),
      Or.inr ⟨rfl, fun z h => hf.free e body hrule (h.1 rfl), ?_⟩⟩
    intro cache evs hc pos off k a nE nT hp hk hl n s r s' hpred h
    have hpos : pos = ⟨pos.cur, env.nonWs.length⟩ := by
      have := hp.2.2 rfl
      cases pos
      simp_all
    have := hs cache evs hc e body hrule pos.cur off k a nE nT hk hl s r s' hpred
      (hpos ▸ hr n body pos s r s' ⟨hp.1, hp.2.1, by simp⟩ h)
    rw [← hp.2.2 rfl] at this
    exact this
  | pub ty body rp => exact fun f z h => part _ (by simp [parts]) f z _ h fun hz => hE (h.2 hz)
  | opt body => exact fun f z h => part _ (by simp [parts]) f z _ h fun hz => hE (h.2 hz)
  | enter ctx body => exact fun f z h => part _ (by simp [parts]) f z _ h fun hz => hE (h.2 hz)
  | exit ctx body => exact fun f z h => part _ (by simp [parts]) f z _ h fun hz => hE (h.2 hz)
  | _ => trivial

/-- An empty cache only adds panics. -/
theorem runs_of_empty {env : Env} (h1 : env1.grammar = env.grammar) (h2 : env1.text = env.text)
    (h3 : env1.tokens = env.tokens) (h4 : env1.nonWs = env.nonWs) (hno : NoHits env1)
    (n e : Nat) (pos : Pos) (s : PState) (r : Option Pos) (s' : PState)
    (hp : Within env.nonWs.length true pos) (h : parseExpr env1 n e pos s = .ok r s') :
    Runs { env with cache := none } e pos s r s' := by
  obtain ⟨_, _, h5⟩ := parseExpr_sim (pan := False) (K := env1.nonWs.length)
    (env1 := { env with cache := none }) (env2 := env1)
    (envSim_of h1.symm h2.symm h3.symm h4.symm) ⟨hno, Or.inl rfl⟩
    (simGrammar_strict (noHits_none rfl)) n s.predicate true e pos trivial
    (h4 ▸ hp) s ⟨rfl, fun _ _ _ => trivial, by simp⟩ r s' h
  rcases h5 s (Alike.refl s) with ⟨h, _⟩ | ⟨s1, h6, ha⟩
  · cases h
  · cases ha.eq
    exact ⟨n, h6⟩

/-! ## Without cached rules -/

section uncached

variable {env : Env}

theorem byTextLoop_bare (rest : List (Nat × Nat)) (l k : Nat) (pos : Pos) :
    byTextLoop { env with cache := none } rest l k pos = byTextLoop env rest l k pos := by
  induction rest generalizing l k pos with
  | nil => unfold byTextLoop; rfl
  | cons x rest ih =>
    unfold byTextLoop
    simp only [ih]

theorem bumpByText_bare (pos : Pos) (w : List Nat) (ty : Nat) :
    bumpByText { env with cache := none } pos w ty = bumpByText env pos w ty := by
  unfold bumpByText
  simp only [byTextLoop_bare]
  rfl

theorem bump_bare (pos : Pos) : bump { env with cache := none } pos = bump env pos := rfl

theorem bumpAllN_bare (n : Nat) (pos : Pos) : bumpAllN { env with cache := none } n pos = bumpAllN env n pos := by
  induction n generalizing pos with
  | zero => rfl
  | succ n ih =>
    unfold bumpAllN
    simp only [ih, bump_bare]

theorem bumpAll_bare (pos : Pos) : bumpAll { env with cache := none } pos = bumpAll env pos := by
  unfold bumpAll
  rw [bumpAllN_bare]

theorem parseLayer_bare (rec : Rec) (pos : Pos) (l e : Nat) :
    parseLayer { env with cache := none } rec pos l e = parseLayer env rec pos l e := by
  unfold parseLayer
  simp only [bumpAll_bare]

theorem withSkipLoop_bare (rec : Rec) (l e n : Nat) (sk : Bool) (pos : Pos) :
    withSkipLoop { env with cache := none } rec l e n sk pos = withSkipLoop env rec l e n sk pos := by
  induction n generalizing sk pos with
  | zero => rfl
  | succ n ih =>
    unfold withSkipLoop
    simp only [ih, bump_bare]

theorem setArgs_bare (args : List (Nat × Nat)) : setArgs { env with cache := none } args = setArgs env args := by
  induction args with
  | nil => rfl
  | cons x args ih =>
    unfold setArgs
    simp only [ih]
    rfl

theorem parseCall_bare (rec : Rec) (pos : Pos) (body : Nat) (args : List (Nat × Nat)) :
    parseCall { env with cache := none } rec pos body args = parseCall env rec pos body args := by
  unfold parseCall
  rw [setArgs_bare]

theorem prevIsLoop_bare (t : NodeType) (pos : Pos) (tys : List Nat) :
    prevIsLoop { env with cache := none } t pos tys = prevIsLoop env t pos tys := by
  induction tys with
  | nil => rfl
  | cons x tys ih =>
    unfold prevIsLoop
    simp only [ih]
    rfl

theorem parsePrevIs_bare (pos : Pos) (tys : List Nat) :
    parsePrevIs { env with cache := none } pos tys = parsePrevIs env pos tys := by
  unfold parsePrevIs
  simp only [prevIsLoop_bare]

theorem prattInfixes_bare (rec : Rec) (go : Pos → Nat → P (Option Pos)) (lhs : Nat) (pos : Pos)
    (ixs : List Infix) :
    prattInfixes { env with cache := none } rec go lhs pos ixs = prattInfixes env rec go lhs pos ixs := by
  induction ixs with
  | nil => rfl
  | cons ix ixs ih =>
    unfold prattInfixes
    simp only [ih]
    rfl

theorem prattLoop_bare (rec : Rec) (go : Pos → Nat → P (Option Pos)) (table : PrattTable)
    (mp n lhs : Nat) (pos : Pos) :
    prattLoop { env with cache := none } rec go table mp n lhs pos = prattLoop env rec go table mp n lhs pos := by
  induction n generalizing lhs pos with
  | zero => rfl
  | succ n ih =>
    unfold prattLoop
    simp only [ih, prattInfixes_bare]

theorem prattPrefixes_bare (rec : Rec) (go : Pos → Nat → P (Option Pos)) (pos : Pos)
    (pfs : List Prefix) :
    prattPrefixes { env with cache := none } rec go pos pfs = prattPrefixes env rec go pos pfs := by
  induction pfs with
  | nil => rfl
  | cons pf pfs ih =>
    unfold prattPrefixes
    simp only [ih]
    rfl

theorem prattGo_bare (rec : Rec) (table : PrattTable) (n : Nat) :
    prattGo { env with cache := none } rec table n = prattGo env rec table n := by
  induction n with
  | zero => rfl
  | succ n ih =>
    funext pos mp
    unfold prattGo
    unfold prattPrefix
    simp only [ih, prattPrefixes_bare, prattLoop_bare]

theorem parseExpr_bare (hno : ∀ body, Expr.cached body ∉ env.grammar.rules) (n : Nat) :
    parseExpr { env with cache := none } n = parseExpr env n := by
  induction n with
  | zero => rfl
  | succ n ih =>
    funext e pos
    unfold parseExpr
    rw [ih]
    congr 1
    funext _
    congr 1
    funext m
    congr 1
    funext s
    unfold parseExprInner
    cases hr : env.grammar.rules[e]? with
    | none => rfl
    | some rule =>
      have hmem := List.mem_of_getElem? hr
      cases rule with
      | cached body => exact absurd hmem (hno body)
      | contextualToken ty w => simp only [bumpByText_bare]; rfl
      | layer l e => simp only [parseLayer_bare]; rfl
      | withSkip l e => simp only [withSkipLoop_bare]; rfl
      | call body args => simp only [parseCall_bare]; rfl
      | prevIs tys => simp only [parsePrevIs_bare]; rfl
      | pratt table => simp only [prattGo_bare]; rfl
      | _ => rfl

theorem synParse_bare (hno : ∀ body, Expr.cached body ∉ env.grammar.rules) (n : Nat) :
    synParse { env with cache := none } n = synParse env n := by
  unfold synParse parseMain
  simp only [parseExpr_bare hno, bumpAll_bare]
  rfl

end uncached

end Parser

end Fall
