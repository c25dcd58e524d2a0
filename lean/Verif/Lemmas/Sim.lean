import Verif.Lemmas.SynRuns

/-!
Comparing runs of the parser in two environments that agree on the tokens before some point: with a
cache and without one, or with different tokens after that point.
-/

namespace Fall

open Spec

namespace Parser

/-- States that differ at most in the number of ticks and the previous node, and not even in these
if `strict`. -/
structure Alike (strict : Bool) (s1 s2 : PState) : Prop where
  events : s1.events = s2.events
  predicate : s1.predicate = s2.predicate
  contexts : s1.contexts = s2.contexts
  args : s1.args = s2.args
  replacement : s1.replacement = s2.replacement
  same : strict = true → s1.ticks = s2.ticks ∧ s1.prev = s2.prev

/-- In lookahead (`b = true`) or outside, with arguments from `passed`, and without a replacement
unless `strict`. -/
structure Fine (strict : Bool) (passed : Nat → Prop) (b : Bool) (s : PState) : Prop where
  mode : s.predicate = b
  passed : ∀ (i a : Nat), s.args[i]? = some (some a) → passed a
  plain : strict = false → s.replacement = none

/-- Whenever `m2` gives a result, so does `m1`, or it panics, where this may happen (`pan`). -/
def Sim (strict : Bool) (pan : Prop) (passed : Nat → Prop) (b : Bool) (m1 m2 : P β) (Q : β → Prop) : Prop :=
  ∀ s2, Fine strict passed b s2 → ∀ x s2', m2 s2 = .ok x s2' →
    Q x ∧ Fine strict passed b s2' ∧ ∀ s1, Alike strict s1 s2 →
      (pan ∧ m1 s1 = .panic ∨ ∃ s1', m1 s1 = .ok x s1' ∧ Alike strict s1' s2')

variable {strict : Bool} {pan : Prop} {passed : Nat → Prop} {b c : Bool}

namespace Sim

theorem bind {m1 m2 : P β} {f1 f2 : β → P γ} {Q : β → Prop} {R : γ → Prop}
    (hm : Sim strict pan passed b m1 m2 Q) (hf : ∀ x, Q x → Sim strict pan passed b (f1 x) (f2 x) R) :
    Sim strict pan passed b (m1 >>= f1) (m2 >>= f2) R := by
  intro s2 hb y s2' h
  obtain ⟨x, s3, h1, h2⟩ := P.bind_ok.1 h
  obtain ⟨hQ, hb3, hm⟩ := hm s2 hb x s3 h1
  obtain ⟨hR, hb', hf⟩ := hf x hQ s3 hb3 y s2' h2
  refine ⟨hR, hb', fun s1 ha => ?_⟩
  rcases hm s1 ha with ⟨hst, hp⟩ | ⟨s4, h4, ha4⟩
  · refine Or.inl ⟨hst, ?_⟩
    show P.bind m1 f1 s1 = _
    unfold P.bind
    rw [hp]
  · rcases hf s4 ha4 with ⟨hst, hp⟩ | ⟨s5, h5, ha5⟩
    · refine Or.inl ⟨hst, ?_⟩
      show P.bind m1 f1 s1 = _
      unfold P.bind
      rw [h4]
      exact hp
    · exact Or.inr ⟨s5, P.bind_ok.2 ⟨x, s4, h4, h5⟩, ha5⟩

theorem pure {Q : β → Prop} {x : β} (h : Q x) : Sim strict pan passed b (pure x) (pure x) Q := by
  intro s2 hb y s2' hy
  obtain ⟨rfl, rfl⟩ := P.pure_ok.1 hy
  exact ⟨h, hb, fun s1 ha => Or.inr ⟨s1, rfl, ha⟩⟩

theorem weaken {m1 m2 : P β} {Q R : β → Prop} (h : Sim strict pan passed b m1 m2 Q)
    (hQ : ∀ x, Q x → R x) : Sim strict pan passed b m1 m2 R := by
  intro s2 hb x s2' hx
  obtain ⟨h1, h2, h3⟩ := h s2 hb x s2' hx
  exact ⟨hQ x h1, h2, h3⟩

theorem timeout {m1 : P β} {Q : β → Prop} : Sim strict pan passed b m1 P.timeout Q :=
  fun _ _ _ _ h => (P.timeout_ok.1 h).elim

theorem panic {m1 : P β} {Q : β → Prop} : Sim strict pan passed b m1 P.panic Q :=
  fun _ _ _ _ h => (P.panic_ok.1 h).elim

theorem lift {o : Option β} {Q : β → Prop} (h : ∀ x, o = some x → Q x) :
    Sim strict pan passed b (P.lift o) (P.lift o) Q := by
  cases o with
  | none => exact panic
  | some x => exact pure (h x rfl)

theorem cond {c : Bool} {m1 m2 : P Unit} (h : Sim strict pan passed b m1 m2 (fun _ => True)) :
    Sim strict pan passed b (P.cond c m1) (P.cond c m2) (fun _ => True) := by
  unfold P.cond
  split
  · exact h
  · exact pure trivial

/-- A step that only looks at the common part of the states. -/
theorem step {m : P β} {Q : β → Prop}
    (h : ∀ s x s', m s = .ok x s' → Q x ∧ (Fine strict passed b s → Fine strict passed b s') ∧
      ∀ s1, Alike strict s1 s → ∃ s1', m s1 = .ok x s1' ∧ Alike strict s1' s') :
    Sim strict pan passed b m m Q := by
  intro s2 hb x s2' hx
  obtain ⟨h1, h2, h3⟩ := h s2 x s2' hx
  exact ⟨h1, h2 hb, fun s1 ha => Or.inr (h3 s1 ha)⟩

end Sim

theorem Alike.ticked {s1 s2 : PState} (h : Alike strict s1 s2) : Alike strict (ticked s1) (ticked s2) :=
  ⟨h.events, h.predicate, h.contexts, h.args, h.replacement,
    fun hs => ⟨congrArg (· + 1) (h.same hs).1, (h.same hs).2⟩⟩

theorem Alike.withEvents {s1 s2 : PState} (h : Alike strict s1 s2) (es : List Event) :
    Alike strict { s1 with events := es } { s2 with events := es } :=
  ⟨rfl, h.predicate, h.contexts, h.args, h.replacement, h.same⟩

theorem Fine.withEvents {s : PState} (h : Fine strict passed b s) (es : List Event) :
    Fine strict passed b { s with events := es } := ⟨h.mode, h.passed, h.plain⟩

theorem Alike.emit {s1 s2 : PState} (h : Alike strict s1 s2) (es : List Event) :
    Alike strict (emit s1 es) (emit s2 es) := by
  unfold Spec.emit
  rw [h.predicate, h.events]
  split
  · exact h
  · exact ⟨rfl, rfl, h.contexts, h.args, h.replacement, h.same⟩

theorem Fine.emit {s : PState} (h : Fine strict passed b s) (es : List Event) :
    Fine strict passed b (emit s es) := by
  unfold Spec.emit
  split
  · exact h
  · exact h.withEvents _

theorem tick_sim : Sim strict pan passed b tick tick (fun _ => True) := by
  refine Sim.step fun s x s' h => ?_
  obtain rfl := P.modify_ok.1 h
  exact ⟨trivial, fun hf => ⟨hf.mode, hf.passed, hf.plain⟩, fun s1 ha => ⟨_, rfl, ha.ticked⟩⟩

theorem event_sim {e : Event} : Sim strict pan passed b (event e) (event e) (fun _ => True) := by
  refine Sim.step fun s x s' h => ?_
  cases (event_emit _ _).symm.trans h
  exact ⟨trivial, fun hf => hf.emit _, fun s1 ha => ⟨_, event_emit _ _, ha.emit _⟩⟩

theorem mark_sim : Sim strict pan passed b mark mark (fun _ => True) := by
  refine Sim.step fun s x s' h => ?_
  obtain ⟨rfl, rfl⟩ := mark_ok h
  exact ⟨trivial, id, fun s1 ha => ⟨s1, by show Out.ok s1.events.length s1 = _; rw [ha.events], ha⟩⟩

theorem setPrev_sim {t : NodeType} :
    Sim strict pan passed b (P.modify fun s => { s with prev := some t })
      (P.modify fun s => { s with prev := some t }) (fun _ => True) := by
  refine Sim.step fun s x s' h => ?_
  obtain rfl := P.modify_ok.1 h
  exact ⟨trivial, fun hf => ⟨hf.mode, hf.passed, hf.plain⟩, fun s1 ha => ⟨_, rfl,
    ha.events, ha.predicate, ha.contexts, ha.args, ha.replacement, fun hs => ⟨(ha.same hs).1, rfl⟩⟩⟩

theorem setReplacement_sim {o : Option Nat} (ho : strict = false → o = none) :
    Sim strict pan passed b (P.modify fun s => { s with replacement := o })
      (P.modify fun s => { s with replacement := o }) (fun _ => True) := by
  refine Sim.step fun s x s' h => ?_
  obtain rfl := P.modify_ok.1 h
  exact ⟨trivial, fun hf => ⟨hf.mode, hf.passed, ho⟩, fun s1 ha => ⟨_, rfl,
    ha.events, ha.predicate, ha.contexts, ha.args, rfl, ha.same⟩⟩

theorem rollback_sim {m : Nat} : Sim strict pan passed b (rollback m) (rollback m) (fun _ => True) := by
  refine Sim.step fun s x s' h => ?_
  unfold rollback at h
  split at h
  · cases h
    refine ⟨trivial, fun hf => hf.withEvents _, fun s1 ha => ⟨_, ?_, ha.withEvents _⟩⟩
    unfold rollback
    rw [ha.events, if_pos ‹_›]
  · cases h

theorem reopen_sim : Sim strict pan passed b reopen reopen (fun _ => True) := by
  refine Sim.step fun s x s' h => ?_
  unfold reopen at h
  split at h
  · cases h
    refine ⟨trivial, id, fun s1 ha => ⟨s1, ?_, ha⟩⟩
    unfold reopen
    rw [ha.predicate, if_pos ‹_›]
  · split at h
    · cases h
      refine ⟨trivial, fun hf => hf.withEvents _, fun s1 ha => ⟨_, ?_, ha.withEvents _⟩⟩
      unfold reopen
      rw [ha.predicate, if_neg ‹_›, ha.events, ‹s.events.getLast? = _›]
    · cases h

theorem forwardParent_sim {c p : Nat} :
    Sim strict pan passed b (forwardParent c p) (forwardParent c p) (fun _ => True) := by
  refine Sim.step fun s x s' h => ?_
  unfold forwardParent at h
  split at h
  · split at h
    · cases h
      refine ⟨trivial, fun hf => hf.withEvents _, fun s1 ha => ⟨_, ?_, ha.withEvents _⟩⟩
      unfold forwardParent
      rw [ha.events, ‹s.events[c]? = _›]
      dsimp only
      rw [if_pos ‹_›]
    · cases h
  · cases h

theorem finishCached_sim {m : Nat} :
    Sim strict pan passed b (finishCached m) (finishCached m) (fun _ => True) := by
  refine Sim.step fun s x s' h => ?_
  unfold finishCached at h
  split at h
  · cases h
    refine ⟨trivial, id, fun s1 ha => ⟨s1, ?_, ha⟩⟩
    unfold finishCached
    rw [ha.predicate, if_pos ‹_›]
  · split at h
    · cases h
      refine ⟨trivial, fun hf => hf.withEvents _, fun s1 ha => ⟨_, ?_, ha.withEvents _⟩⟩
      unfold finishCached
      rw [ha.predicate, if_neg ‹_›, ha.events, ‹s.events[m]? = _›]
    · cases h

/-- A layer that ends at `K` or, if `c`, before. -/
def Within (K : Nat) (c : Bool) (pos : Pos) : Prop :=
  pos.cur ≤ pos.stop ∧ pos.stop ≤ K ∧ (c = false → pos.stop = K)

/-- Only moves forward in the layer. -/
def After (pos : Pos) (r : Option Pos) : Prop :=
  ∀ q, r = some q → q.stop = pos.stop ∧ pos.cur ≤ q.cur ∧ q.cur ≤ q.stop

theorem After.none {pos : Pos} : After pos none := by simp [After]

theorem After.self {K : Nat} {pos : Pos} (h : Within K c pos) : After pos (some pos) := by
  rintro _ ⟨⟩
  exact ⟨rfl, Nat.le_refl _, h.1⟩

theorem After.within {K : Nat} {pos q : Pos} {r : Option Pos} (h : After pos r) (hr : r = some q)
    (hp : Within K c pos) : Within K c q := by
  obtain ⟨h1, h2, h3⟩ := h q hr
  exact ⟨h3, by rw [h1]; exact hp.2⟩

theorem Within.weaken {K : Nat} {pos : Pos} (h : Within K c pos) : Within K true pos :=
  ⟨h.1, h.2.1, by simp⟩

theorem After.trans {pos q : Pos} {r : Option Pos} (h : After pos (some q)) (h' : After q r) :
    After pos r := by
  intro p hp
  obtain ⟨h1, h2, h3⟩ := h' p hp
  obtain ⟨h4, h5, h6⟩ := h q rfl
  exact ⟨h1.trans h4, by omega, h3⟩

/-- The environments have the same grammar and agree on the first `K` significant tokens. -/
structure EnvSim (K : Nat) (env1 env2 : Env) : Prop where
  grammar : env1.grammar = env2.grammar
  tok : ∀ i, i < K → sigToken env1 i = sigToken env2 i
  byText : ∀ pos w ty s, Within K true pos → bumpByText env1 pos w ty s = bumpByText env2 pos w ty s
  len1 : K ≤ env1.nonWs.length
  len2 : K ≤ env2.nonWs.length

/-- There is no cache or an empty one. -/
def NoHits (env : Env) : Prop := ∀ cache evs, env.cache = some (cache, evs) → cache = []

/-- What the caches of the environments have to be like: the second one has no hits, and if the first
environment has one, panics are possible, or the second one has one too and the positions of the
tokens are the same, or cached rules are not run at the end of the input. -/
structure Caches (pan : Prop) (A : Bool → Bool → Nat → Prop) (env1 env2 : Env) : Prop where
  noHits : NoHits env2
  panics : env1.cache = none ∨ pan ∨ (env2.cache ≠ none ∧ env1.nonWs = env2.nonWs) ∨
    ∀ e body f, env2.grammar.rules[e]? = some (.cached body) → ¬ A f true e

/-- The hits of the cache outside of layers are what parsing without it gives. -/
def CacheSound (K : Nat) (env1 env2 : Env) (e : Nat) : Prop :=
  ∀ cache evs, env1.cache = some (cache, evs) → ∀ pos off k a nE nT, Within K false pos →
    env1.nonWs[pos.cur]? = some (off, k) → cache.lookup (off, e) = some (a, nE, nT) →
    ∀ n s r s', s.predicate = false → parseExpr env2 n e pos s = .ok r s' →
      a + nE ≤ evs.length ∧ r = some ⟨pos.cur + nT, pos.stop⟩ ∧
        s'.events = s.events ++ (evs.drop a).take nE

/-- An expression that fails at the end of the input. -/
def Eager (env : Env) (l : Nat) : Prop :=
  ∀ n q s r s', q.isEmpty = true → parseExpr env n l q s = .ok r s' → r = none

/-- Condition on a rule: `A f z e` if `e` may be run, `f` if in lookahead or in layers, `z` if at the end of the
input; `passed` are the expressions passed as arguments. -/
def SimRule (strict : Bool) (passed : Nat → Prop) (A : Bool → Bool → Nat → Prop) (K : Nat) (env1 env2 : Env)
    (e : Nat) : Expr → Prop
  | .pub _ body _ | .opt body | .enter _ body | .exit _ body => ∀ f z, A f z e → A f z body
  | .rep body => ∀ f z, A f z e → ∀ z', A f z' body
  | .pubReplace _ body => strict = true ∧ ∀ f z, A f z e → A f z body
  | .or parts => ∀ f z, A f z e → ∀ p ∈ parts, A f z p
  | .and parts _ => ∀ f z, A f z e → (∀ p ∈ parts.head?, A f z p) ∧ ∀ p ∈ parts.tail, ∀ z', A f z' p
  | .withSkip l body => (∀ z, A true z l) ∧
      ∀ f z, A f z e → A f false body ∧ (A f true body ∨ Eager env2 l)
  | .layer l body => (∀ z, A true z l) ∧ ∀ z, A true z body
  | .not l => ∀ z, A true z l
  | .pratt table => ∀ f z, A f z e → (∀ a ∈ table.atoms, ∀ z', A f z' a) ∧
      (∀ p ∈ table.prefixes, ∀ z', A f z' p.op) ∧ ∀ i ∈ table.infixes, ∀ z', A f z' i.op
  | .call body args => (∀ f z, A f z e → A f z body) ∧
      ∀ x ∈ args, ∀ rule, env2.grammar.rules[x.2]? = some rule → (∀ i, rule ≠ .var i) → passed x.2
  | .var _ => ∀ f z, A f z e → ∀ a, passed a → A f z a
  | .prevIs _ => strict = true
  | .inject pre body => ∀ f z, A f z e → A f z pre ∧ ∀ z', A f z' body
  | .cached body => (∀ f z, A f z e → A f z body) ∧ (NoHits env1 ∨
      (strict = false ∧ (∀ z, ¬ A true z e) ∧ CacheSound K env1 env2 body))
  | .token _ | .contextualToken _ _ | .eof | .any | .isIn _ => True

/-- `parse_expr` in both environments. -/
def RecSim (strict : Bool) (pan : Prop) (passed : Nat → Prop) (A : Bool → Bool → Nat → Prop) (K : Nat)
    (rec1 rec2 : Rec) : Prop :=
  ∀ b c e pos, A (b || c) pos.isEmpty e → Within K c pos →
    Sim strict pan passed b (rec1 e pos) (rec2 e pos) (After pos)

variable {A : Bool → Bool → Nat → Prop} {K : Nat} {env1 env2 : Env} {rec1 rec2 : Rec} {pos : Pos}

theorem bump_sim (he : EnvSim K env1 env2) (hp : Within K c pos) :
    Sim strict pan passed b (bump env1 pos) (bump env2 pos)
      (fun r => r.map (·.2) = none ∨ r.map (·.2) = some pos.next ∧ pos.cur < pos.stop) := by
  unfold bump
  split
  · exact Sim.pure (Or.inl rfl)
  · rename_i h
    have hlt : pos.cur < pos.stop := by
      have := hp.1
      have : pos.cur ≠ pos.stop := by simpa [Pos.isEmpty] using h
      omega
    have htok : tokenAt env1 pos = tokenAt env2 pos :=
      congrArg P.lift (he.tok pos.cur (by have := hp.2; omega))
    rw [htok]
    refine Sim.bind (Sim.lift (Q := fun _ => True) fun _ _ => trivial) fun t _ => ?_
    exact Sim.bind event_sim fun _ _ => Sim.pure (Or.inr ⟨rfl, hlt⟩)

theorem After.next {pos : Pos} (h : pos.cur < pos.stop) : After pos (some pos.next) := by
  rintro _ ⟨⟩
  exact ⟨rfl, Nat.le_succ _, h⟩

theorem rest_of_within (he : ∀ i, i < K → ∃ t, sigToken env2 i = some t) (hp : Within K c pos) :
    ∃ es, Rest env2 pos es := by
  obtain ⟨cur, stop⟩ := pos
  obtain ⟨h1, h2⟩ := hp
  simp only at h1 h2
  generalize hd : stop - cur = d
  induction d generalizing cur with
  | zero => exact ⟨[], .nil (by simp; omega)⟩
  | succ d ih =>
    obtain ⟨es, hes⟩ := ih (cur + 1) (by omega) (by omega)
    obtain ⟨t, ht⟩ := he cur (by omega)
    exact ⟨.token t.ty 1 :: es, .cons (by simp; omega) (by unfold sigTy; rw [ht]; rfl) hes⟩

theorem Rest.congr (he : EnvSim K env1 env2) {es : List Event} (h : Rest env2 pos es)
    (hp : Within K c pos) : Rest env1 pos es := by
  induction h with
  | nil h => exact .nil h
  | cons h1 h2 h3 ih =>
    refine .cons h1 ?_ (ih ⟨?_, hp.2⟩)
    · unfold sigTy at *
      rw [he.tok _ (by have := hp.1; have := hp.2; omega)]
      exact h2
    · have := hp.1
      simp only
      omega

theorem emit_sim {es : List Event} {m1 m2 : P Unit} (h1 : ∀ s, m1 s = .ok () (emit s es))
    (h2 : ∀ s, m2 s = .ok () (emit s es)) : Sim strict pan passed b m1 m2 (fun _ => True) := by
  intro s2 hf x s2' h
  rw [h2] at h
  cases h
  exact ⟨trivial, hf.emit _, fun s1 ha => Or.inr ⟨_, h1 s1, ha.emit _⟩⟩

theorem bumpAll_sim (he : EnvSim K env1 env2) (hp : Within K c pos) (hne : pos.isEmpty = false) :
    Sim strict pan passed b (bumpAll env1 pos) (bumpAll env2 pos) (fun _ => True) := by
  have hne : pos.cur ≠ pos.stop := by simpa [Pos.isEmpty] using hne
  intro s2 hf x s2' h
  obtain ⟨es, hr, rfl⟩ := bumpAllN_ok h
  exact emit_sim (fun s => bumpAll_of (Rest.congr he hr hp) hne) (fun s => bumpAll_of hr hne) s2 hf
    x _ h

theorem byText_sim (he : EnvSim K env1 env2) (hp : Within K c pos) {w : List Nat} {ty : Nat} :
    Sim strict pan passed b (bumpByText env1 pos w ty) (bumpByText env2 pos w ty) (After pos) := by
  rw [show bumpByText env1 pos w ty = bumpByText env2 pos w ty from funext fun s => he.byText _ _ _ _ hp.weaken]
  refine Sim.step fun s r s' h => ?_
  unfold bumpByText at h
  by_cases hc : pos.isEmpty
  · rw [if_pos hc] at h
    obtain ⟨rfl, rfl⟩ := P.pure_ok.1 h
    refine ⟨After.none, id, fun s1 ha => ⟨s1, ?_, ha⟩⟩
    unfold bumpByText
    rw [if_pos hc]
    rfl
  rw [if_neg hc] at h
  obtain ⟨⟨off, k⟩, s1, h1, h⟩ := P.bind_ok.1 h
  obtain ⟨hk, rfl⟩ := P.lift_ok.1 h1
  dsimp only at h
  by_cases hlt : env2.text.length < off
  · rw [if_pos hlt] at h
    exact (P.panic_ok.1 h).elim
  rw [if_neg hlt] at h
  by_cases hw : (!(w.isPrefixOf (env2.text.drop off))) = true
  · rw [if_pos hw] at h
    obtain ⟨rfl, rfl⟩ := P.pure_ok.1 h
    refine ⟨After.none, id, fun s2 ha => ⟨s2, ?_, ha⟩⟩
    unfold bumpByText
    rw [if_neg hc, hk]
    show (if env2.text.length < off then P.panic else _ : P _) s2 = _
    rw [if_neg hlt, if_pos hw]
    rfl
  rw [if_neg hw] at h
  obtain ⟨rt, s2, h2, h⟩ := P.bind_ok.1 h
  obtain ⟨rfl, hrt⟩ := byTextLoop_ok rfl h2
  have hloop : ∀ s, byTextLoop env2 (env2.nonWs.drop pos.cur) w.length 0 pos s = .ok rt s := by
    intro s
    have : ∀ (rest : List (Nat × Nat)) (l n : Nat) (pos : Pos) (s0 s0' s : PState) rt,
        byTextLoop env2 rest l n pos s0 = .ok rt s0' → byTextLoop env2 rest l n pos s = .ok rt s := by
      intro rest
      induction rest with
      | nil =>
        intro l n pos s0 s0' s rt h
        unfold byTextLoop at h ⊢
        split
        · rw [if_pos ‹_›] at h; obtain ⟨rfl, rfl⟩ := P.pure_ok.1 h; rfl
        · rw [if_neg ‹_›] at h
          split
          · rw [if_pos ‹_›] at h; obtain ⟨rfl, rfl⟩ := P.pure_ok.1 h; rfl
          · rw [if_neg ‹_›] at h; exact (P.panic_ok.1 h).elim
      | cons y rest ih =>
        intro l n pos s0 s0' s rt h
        unfold byTextLoop at h ⊢
        split
        · rw [if_pos ‹_›] at h; obtain ⟨rfl, rfl⟩ := P.pure_ok.1 h; rfl
        · rw [if_neg ‹_›] at h
          split
          · rw [if_pos ‹_›] at h; obtain ⟨rfl, rfl⟩ := P.pure_ok.1 h; rfl
          · rw [if_neg ‹_›] at h
            obtain ⟨t, s1, h1, h⟩ := P.bind_ok.1 h
            obtain ⟨ht, rfl⟩ := P.lift_ok.1 h1
            refine P.bind_ok.2 ⟨t, s, P.lift_ok.2 ⟨ht, rfl⟩, ?_⟩
            split
            · rw [if_pos ‹_›] at h; obtain ⟨rfl, rfl⟩ := P.pure_ok.1 h; rfl
            · rw [if_neg ‹_›] at h; exact ih _ _ _ _ _ _ _ h
    exact this _ _ _ _ _ _ s _ h2
  cases rt with
  | none =>
    obtain ⟨rfl, rfl⟩ := P.pure_ok.1 h
    refine ⟨After.none, id, fun s2 ha => ⟨s2, ?_, ha⟩⟩
    unfold bumpByText
    rw [if_neg hc, hk]
    show (if env2.text.length < off then P.panic else _ : P _) s2 = _
    rw [if_neg hlt, if_neg hw]
    exact P.bind_ok.2 ⟨none, s2, hloop s2, rfl⟩
  | some x =>
    obtain ⟨m, p'⟩ := x
    obtain ⟨t, s3, h3, h⟩ := P.bind_ok.1 h
    obtain ⟨ht, rfl⟩ := P.lift_ok.1 h3
    obtain ⟨_, s4, h4, h⟩ := P.bind_ok.1 h
    obtain ⟨rfl, rfl⟩ := P.pure_ok.1 h
    cases (event_emit _ _).symm.trans h4
    obtain ⟨_, hm2, hm3, _⟩ := hrt _ _ rfl
    refine ⟨?_, fun hf => hf.emit _, fun s2 ha => ⟨emit s2 [.token t m], ?_, ha.emit _⟩⟩
    · rintro _ ⟨⟩
      exact ⟨hm3.stop, by omega, by rw [hm3.stop]; exact hm3.le hp.1⟩
    · unfold bumpByText
      rw [if_neg hc, hk]
      show (if env2.text.length < off then P.panic else _ : P _) s2 = _
      rw [if_neg hlt, if_neg hw]
      exact P.bind_ok.2 ⟨_, s2, hloop s2, P.bind_ok.2 ⟨t, s2, P.lift_ok.2 ⟨ht, rfl⟩,
        P.bind_ok.2 ⟨(), _, event_emit _ _, rfl⟩⟩⟩

theorem start_sim (he : EnvSim K env1 env2) {ty : Nat} :
    Sim strict pan passed b (start env1 ty) (start env2 ty) (fun _ => True) := by
  unfold start nodeType
  rw [he.grammar]
  refine Sim.bind (Sim.lift (Q := fun _ => True) fun _ _ => trivial) fun t _ => ?_
  exact Sim.bind mark_sim fun _ _ => Sim.bind event_sim fun _ _ => Sim.pure trivial

theorem startError_sim : Sim strict pan passed b startError startError (fun _ => True) :=
  Sim.bind (Sim.bind mark_sim fun _ _ => Sim.bind event_sim fun _ _ => Sim.pure (Q := fun _ => True) trivial)
    fun _ _ => Sim.pure trivial

theorem nodeType_sim (he : EnvSim K env1 env2) {ty : Nat} :
    Sim strict pan passed b (nodeType env1 ty) (nodeType env2 ty) (fun _ => True) := by
  unfold nodeType
  rw [he.grammar]
  exact Sim.lift fun _ _ => trivial

theorem pred_sim (hr : RecSim strict pan passed A K rec1 rec2) {e : Nat} (hL : ∀ z, A true z e) (hp : Within K c pos) :
    Sim strict pan passed b (parseExprPred rec1 e pos) (parseExprPred rec2 e pos) (After pos) := by
  intro s2 hf r s2' h
  obtain ⟨s3, h3, rfl⟩ := pred_ok.1 h
  obtain ⟨hA, hf3, hs⟩ := hr true c e pos (hL _) hp { s2 with predicate := true }
    ⟨rfl, hf.passed, hf.plain⟩ r s3 h3
  refine ⟨hA, ⟨hf.mode, hf3.passed, hf3.plain⟩, fun s1 ha => ?_⟩
  rcases hs { s1 with predicate := true } ⟨ha.events, rfl, ha.contexts, ha.args, ha.replacement, ha.same⟩ with
    ⟨hst, hp⟩ | ⟨s4, h4, ha4⟩
  · refine Or.inl ⟨hst, ?_⟩
    show P.bind (rec1 e pos) _ { s1 with predicate := true } = _
    unfold P.bind
    rw [hp]
  · refine Or.inr ⟨_, pred_ok.2 ⟨s4, h4, rfl⟩, ?_⟩
    exact ⟨ha4.events, ha.predicate, ha4.contexts, ha4.args, ha4.replacement, ha4.same⟩

theorem replace_sim (he : EnvSim K env1 env2) {m ty : Nat} :
    Sim strict pan passed b (replace env1 m ty) (replace env2 m ty) (fun _ => True) := by
  unfold replace
  refine Sim.bind (nodeType_sim he) fun t _ => Sim.step fun s x s' h => ?_
  split at h
  · cases h
    refine ⟨trivial, fun hf => hf.withEvents _, fun s1 ha => ⟨_, ?_, ha.withEvents _⟩⟩
    rw [ha.events, ‹s.events[m]? = _›]
  · cases h

theorem applyReplacement_sim (he : EnvSim K env1 env2) {m : Nat} {rp : Bool} :
    Sim strict pan passed b (applyReplacement env1 m rp) (applyReplacement env2 m rp) (fun _ => True) := by
  intro s2 hf x s2' h
  have hred : ∀ env s, applyReplacement env m rp s = (match rp, s.replacement with
      | true, some ty => (do
        P.modify fun s => { s with replacement := none }
        replace env m ty : P Unit)
      | _, _ => pure ()) s := fun env s => rfl
  rw [hred] at h
  cases rp with
  | false =>
    refine (Sim.pure trivial : Sim strict pan passed b (pure ()) (pure ()) (fun _ => True)) s2 hf x s2' ?_
    exact h
  | true =>
    cases hrep : s2.replacement with
    | none =>
      rw [hrep] at h
      obtain ⟨h1, h2, h3⟩ := (Sim.pure trivial : Sim strict pan passed b (pure ()) (pure ()) (fun _ => True)) s2 hf x s2' h
      refine ⟨h1, h2, fun s1 ha => ?_⟩
      rw [hred, ha.replacement, hrep]
      exact h3 s1 ha
    | some ty =>
      rw [hrep] at h
      obtain ⟨h1, h2, h3⟩ := (Sim.bind (setReplacement_sim (o := none) (fun _ => rfl)) fun _ _ =>
        replace_sim (m := m) (ty := ty) he) s2 hf x s2' h
      refine ⟨h1, h2, fun s1 ha => ?_⟩
      rw [hred, ha.replacement, hrep]
      exact h3 s1 ha

theorem parsePub_sim (he : EnvSim K env1 env2) (hr : RecSim strict pan passed A K rec1 rec2)
    {ty body : Nat} {rp : Bool} (hL : A (b || c) pos.isEmpty body) (hp : Within K c pos) :
    Sim strict pan passed b (parsePub env1 rec1 pos ty body rp) (parsePub env2 rec2 pos ty body rp)
      (After pos) := by
  unfold parsePub
  have h0 : Sim strict pan passed b
      (P.modify fun s => if rp = true then { s with replacement := none } else s)
      (P.modify fun s => if rp = true then { s with replacement := none } else s) (fun _ => True) := by
    cases rp
    · refine Sim.step fun s x s' h => ?_
      obtain rfl := P.modify_ok.1 h
      exact ⟨trivial, fun hf => hf, fun s1 ha => ⟨_, rfl, ha⟩⟩
    · exact setReplacement_sim fun _ => rfl
  refine Sim.bind h0 fun _ _ => Sim.bind (start_sim he) fun m _ => Sim.bind (hr b c _ _ hL hp) fun r hA => ?_
  cases r with
  | none => exact Sim.pure After.none
  | some q =>
    exact Sim.bind (applyReplacement_sim he) fun _ _ => Sim.bind event_sim fun _ _ =>
      Sim.bind (nodeType_sim he) fun _ _ => Sim.bind setPrev_sim fun _ _ => Sim.pure hA

theorem parsePubReplace_sim (hs : strict = true) (hr : RecSim strict pan passed A K rec1 rec2)
    {ty body : Nat} (hL : A (b || c) pos.isEmpty body) (hp : Within K c pos) :
    Sim strict pan passed b (parsePubReplace rec1 pos ty body) (parsePubReplace rec2 pos ty body)
      (After pos) := by
  unfold parsePubReplace
  refine Sim.bind (hr b c _ _ hL hp) fun r hA => ?_
  cases r with
  | none => exact Sim.pure After.none
  | some q =>
    exact Sim.bind (setReplacement_sim fun h => by rw [hs] at h; cases h) fun _ _ => Sim.pure hA

theorem parseOr_sim (hr : RecSim strict pan passed A K rec1 rec2) {ps : List Nat}
    (hL : ∀ p ∈ ps, A (b || c) pos.isEmpty p) (hp : Within K c pos) :
    Sim strict pan passed b (parseOr rec1 pos ps) (parseOr rec2 pos ps) (After pos) := by
  induction ps with
  | nil => exact Sim.pure After.none
  | cons p ps ih =>
    refine Sim.bind (hr b c _ _ (hL p (by simp)) hp) fun r hA => ?_
    cases r with
    | none => exact ih fun p hp => hL p (by simp [hp])
    | some q => exact Sim.pure hA

theorem andLoop_sim (hr : RecSim strict pan passed A K rec1 rec2) {ps : List Nat} {k : Nat}
    (hL : (∀ p ∈ ps.head?, A (b || c) pos.isEmpty p) ∧ ∀ p ∈ ps.tail, ∀ z, A (b || c) z p) (hp : Within K c pos) :
    Sim strict pan passed b (andLoop rec1 ps k pos) (andLoop rec2 ps k pos)
      (fun x => After pos (some x.2)) := by
  induction ps generalizing k pos with
  | nil => exact Sim.pure (After.self hp)
  | cons p ps ih =>
    refine Sim.bind (hr b c _ _ (hL.1 p rfl) hp) fun r hA => ?_
    cases r with
    | none => exact Sim.pure (After.self hp)
    | some q =>
      exact (ih ⟨fun p hp => hL.2 p (List.mem_of_mem_head? hp) _, fun p hp => hL.2 p (List.mem_of_mem_tail hp)⟩
        (hA.within rfl hp)).weaken fun _ h => hA.trans h

theorem parseAnd_sim (hr : RecSim strict pan passed A K rec1 rec2) {ps : List Nat} {cm : Option Nat}
    (hL : (∀ p ∈ ps.head?, A (b || c) pos.isEmpty p) ∧ ∀ p ∈ ps.tail, ∀ z, A (b || c) z p) (hp : Within K c pos) :
    Sim strict pan passed b (parseAnd rec1 pos ps cm) (parseAnd rec2 pos ps cm) (After pos) := by
  unfold parseAnd
  refine Sim.bind (andLoop_sim hr hL hp) fun x hx => ?_
  obtain ⟨k, q⟩ := x
  dsimp only
  split
  · exact Sim.pure After.none
  · exact Sim.bind (Sim.cond (Sim.bind startError_sim fun _ _ => event_sim)) fun _ _ => Sim.pure hx

theorem parseToken_sim (he : EnvSim K env1 env2) (hp : Within K c pos) {ty : Nat} :
    Sim strict pan passed b (parseToken env1 pos ty) (parseToken env2 pos ty) (After pos) := by
  unfold parseToken
  refine Sim.bind (bump_sim he hp) fun r hA => ?_
  rcases r with _ | ⟨t, q⟩
  · exact Sim.pure After.none
  · refine Sim.bind (nodeType_sim he) fun t' _ => ?_
    split
    · exact Sim.pure After.none
    · rcases hA with h | ⟨h, hlt⟩
      · cases h
      · cases h
        exact Sim.pure (After.next hlt)

theorem any_sim (he : EnvSim K env1 env2) (hp : Within K c pos) :
    Sim strict pan passed b (do match ← bump env1 pos with
        | some (_, ts) => pure (some ts)
        | none => pure none : P (Option Pos))
      (do match ← bump env2 pos with
        | some (_, ts) => pure (some ts)
        | none => pure none : P (Option Pos)) (After pos) := by
  refine Sim.bind (bump_sim he hp) fun r hA => ?_
  rcases r with _ | ⟨t, q⟩
  · exact Sim.pure After.none
  · rcases hA with h | ⟨h, hlt⟩
    · cases h
    · cases h
      exact Sim.pure (After.next hlt)

theorem parseOpt_sim (hr : RecSim strict pan passed A K rec1 rec2) {body : Nat} (hL : A (b || c) pos.isEmpty body)
    (hp : Within K c pos) :
    Sim strict pan passed b (parseOpt rec1 pos body) (parseOpt rec2 pos body) (After pos) := by
  unfold parseOpt
  refine Sim.bind (hr b c _ _ hL hp) fun r hA => ?_
  cases r with
  | none => exact Sim.pure (After.self hp)
  | some q => exact Sim.pure hA

theorem parseNot_sim (hr : RecSim strict pan passed A K rec1 rec2) {e : Nat} (hL : ∀ z, A true z e)
    (hp : Within K c pos) :
    Sim strict pan passed b (parseNot rec1 pos e) (parseNot rec2 pos e) (After pos) := by
  unfold parseNot
  refine Sim.bind (pred_sim hr hL hp) fun r hA => ?_
  cases r with
  | none => exact Sim.pure (After.self hp)
  | some q => exact Sim.pure After.none

theorem parseLayer_sim (he : EnvSim K env1 env2) (hr : RecSim strict pan passed A K rec1 rec2)
    {l e : Nat} (hl : ∀ z, A true z l) (hL : ∀ z, A true z e) (hp : Within K c pos) :
    Sim strict pan passed b (parseLayer env1 rec1 pos l e) (parseLayer env2 rec2 pos l e) (After pos) := by
  unfold parseLayer
  refine Sim.bind (pred_sim hr hl hp) fun r hA => ?_
  cases r with
  | none => exact Sim.pure After.none
  | some rest =>
    obtain ⟨h1, h2, h3⟩ := hA rest rfl
    have hcut : Within K true (cutSuffix pos rest) :=
      ⟨h2, by have := hp.2.1; simp only [cutSuffix]; omega, by simp⟩
    refine Sim.bind (hr b true _ _ (by rw [Bool.or_true]; exact hL _) hcut) fun rb hB => ?_
    have hlo : Within K true (rb.getD (cutSuffix pos rest)) := by
      cases rb with
      | none => exact hcut
      | some q => exact hB.within rfl hcut
    refine Sim.bind (Q := fun _ => True) ?_ fun _ _ => Sim.pure hA
    unfold P.cond
    split
    · rename_i hc
      exact Sim.bind startError_sim fun _ _ =>
        Sim.bind (bumpAll_sim he hlo (by simpa using hc)) fun _ _ => event_sim
    · exact Sim.pure trivial

theorem repLoop_sim (hr : RecSim strict pan passed A K rec1 rec2) {body n : Nat} (hL : ∀ z, A (b || c) z body)
    (hp : Within K c pos) :
    Sim strict pan passed b (repLoop rec1 body n pos) (repLoop rec2 body n pos) (After pos) := by
  induction n generalizing pos with
  | zero => exact Sim.timeout
  | succ n ih =>
    refine Sim.bind (hr b c _ _ (hL _) hp) fun r hA => ?_
    cases r with
    | none => exact Sim.pure (After.self hp)
    | some q => exact (ih (hA.within rfl hp)).weaken fun _ h => hA.trans h

theorem withSkipTry_sim (hr : RecSim strict pan passed A K rec1 rec2) {first body : Nat}
    (hl : ∀ z, A true z first) (hL : A (b || c) false body)
    (hE : A (b || c) true body ∨ ∀ q s r s', q.isEmpty = true → rec2 first q s = .ok r s' → r = none)
    (hp : Within K c pos) :
    Sim strict pan passed b (withSkipTry rec1 pos first body) (withSkipTry rec2 pos first body)
      (After pos) := by
  unfold withSkipTry
  have hpred : Sim strict pan passed b (parseExprPred rec1 first pos) (parseExprPred rec2 first pos)
      (fun r => r ≠ none → A (b || c) pos.isEmpty body) := by
    intro s2 hf r s2' h
    obtain ⟨_, h2, h3⟩ := pred_sim hr hl hp s2 hf r s2' h
    refine ⟨fun hne => ?_, h2, h3⟩
    obtain ⟨s3, h4, _⟩ := pred_ok.1 h
    cases hz : pos.isEmpty with
    | false => exact hL
    | true => exact hE.resolve_right fun hE => hne (hE pos _ _ _ hz h4)
  refine Sim.bind hpred fun r hA => ?_
  cases r with
  | none => exact Sim.pure After.none
  | some q => exact hr b c _ _ (hA (by simp)) hp

theorem withSkipLoop_sim (he : EnvSim K env1 env2) (hr : RecSim strict pan passed A K rec1 rec2)
    {first body n : Nat} {sk : Bool} (hl : ∀ z, A true z first) (hL : A (b || c) false body)
    (hE : A (b || c) true body ∨ ∀ q s r s', q.isEmpty = true → rec2 first q s = .ok r s' → r = none)
    (hp : Within K c pos) :
    Sim strict pan passed b (withSkipLoop env1 rec1 first body n sk pos)
      (withSkipLoop env2 rec2 first body n sk pos) (After pos) := by
  induction n generalizing pos sk with
  | zero => exact Sim.timeout
  | succ n ih =>
    refine Sim.bind (Sim.cond event_sim) fun _ _ => Sim.bind (withSkipTry_sim hr hl hL hE hp) fun r hA => ?_
    cases r with
    | some q => exact Sim.pure hA
    | none =>
      refine Sim.bind (Q := fun _ => True) ?_ fun _ _ => Sim.bind (bump_sim he hp) fun r hB => ?_
      · unfold skipOpen
        split
        · exact reopen_sim
        · exact startError_sim
      · rcases r with _ | ⟨t, q⟩
        · exact Sim.pure After.none
        · rcases hB with h | ⟨h, hlt⟩
          · cases h
          · cases h
            have := After.next hlt
            exact (ih (this.within rfl hp)).weaken fun _ h => this.trans h

theorem Fine.withContexts {s : PState} (h : Fine strict passed b s) (cs : List Bool) :
    Fine strict passed b { s with contexts := cs } := ⟨h.mode, h.passed, h.plain⟩

theorem parseWithContext_sim (hr : RecSim strict pan passed A K rec1 rec2) {ctx e : Nat} {v : Bool}
    (hL : A (b || c) pos.isEmpty e) (hp : Within K c pos) :
    Sim strict pan passed b (parseWithContext rec1 pos ctx e v) (parseWithContext rec2 pos ctx e v)
      (After pos) := by
  intro s2 hf r s2' h
  have hred : ∀ rec s, parseWithContext rec pos ctx e v s = (do
      let old ← P.lift s.contexts[ctx]?
      P.modify fun s => { s with contexts := s.contexts.set ctx v }
      let result ← rec e pos
      P.modify fun s => { s with contexts := s.contexts.set ctx old }
      pure result : P (Option Pos)) s := fun _ _ => rfl
  have hset : ∀ v, Sim strict pan passed b (P.modify fun s => { s with contexts := s.contexts.set ctx v })
      (P.modify fun s => { s with contexts := s.contexts.set ctx v }) (fun _ => True) := by
    intro v
    refine Sim.step fun s x s' h => ?_
    obtain rfl := P.modify_ok.1 h
    refine ⟨trivial, fun hf => hf.withContexts _, fun s1 ha => ⟨_, rfl, ?_⟩⟩
    exact ⟨ha.events, ha.predicate, by dsimp only; rw [ha.contexts], ha.args, ha.replacement, ha.same⟩
  rw [hred] at h
  obtain ⟨h1, h2, h3⟩ := (Sim.bind (Sim.lift (Q := fun _ => True) fun _ _ => trivial) fun old _ =>
    Sim.bind (hset v) fun _ _ => Sim.bind (hr b c _ _ hL hp) fun r hA =>
      Sim.bind (hset old) fun _ _ => Sim.pure hA) s2 hf r s2' h
  refine ⟨h1, h2, fun s1 ha => ?_⟩
  rw [hred, ha.contexts]
  exact h3 s1 ha

theorem parseIsIn_sim (hp : Within K c pos) {ctx : Nat} :
    Sim strict pan passed b (parseIsIn pos ctx) (parseIsIn pos ctx) (After pos) := by
  refine Sim.step fun s r s' h => ?_
  have hred : ∀ s, parseIsIn pos ctx s = (do
      let b ← P.lift s.contexts[ctx]?
      if b then pure (some pos) else pure none : P (Option Pos)) s := fun _ => rfl
  rw [hred] at h
  obtain ⟨c, s1, h1, h⟩ := P.bind_ok.1 h
  obtain ⟨hc, rfl⟩ := P.lift_ok.1 h1
  refine ⟨?_, ?_, fun s2 ha => ⟨s2, ?_, ?_⟩⟩
  · cases c
    · obtain ⟨rfl, _⟩ := P.pure_ok.1 h; exact After.none
    · obtain ⟨rfl, _⟩ := P.pure_ok.1 h; exact After.self hp
  · cases c
    · obtain ⟨_, rfl⟩ := P.pure_ok.1 h; exact id
    · obtain ⟨_, rfl⟩ := P.pure_ok.1 h; exact id
  · rw [hred, ha.contexts]
    refine P.bind_ok.2 ⟨c, s2, P.lift_ok.2 ⟨hc, rfl⟩, ?_⟩
    cases c
    · obtain ⟨rfl, _⟩ := P.pure_ok.1 h; rfl
    · obtain ⟨rfl, _⟩ := P.pure_ok.1 h; rfl
  · cases c
    · obtain ⟨_, rfl⟩ := P.pure_ok.1 h; exact ha
    · obtain ⟨_, rfl⟩ := P.pure_ok.1 h; exact ha

theorem resolveArg_sim (he : EnvSim K env1 env2) {a : Nat}
    (hpass : ∀ rule, env2.grammar.rules[a]? = some rule → (∀ i, rule ≠ .var i) → passed a) :
    Sim strict pan passed b (resolveArg env1 a) (resolveArg env2 a) passed := by
  have hred : ∀ env s, resolveArg env a s = (do
      match ← P.lift env.grammar.rules[a]? with
      | .var i => P.lift s.args[i]?.join
      | _ => pure a : P Nat) s := fun _ _ => rfl
  intro s2 hf x s2' h
  have hsame : ∀ s1, Alike strict s1 s2 → resolveArg env1 a s1 = (do
      match ← P.lift env2.grammar.rules[a]? with
      | .var i => P.lift s2.args[i]?.join
      | _ => pure a : P Nat) s1 := by
    intro s1 ha
    rw [hred, he.grammar, ha.args]
  rw [hred] at h
  suffices hsim : Sim strict pan passed b (do
      match ← P.lift env2.grammar.rules[a]? with
      | .var i => P.lift s2.args[i]?.join
      | _ => pure a : P Nat) (do
      match ← P.lift env2.grammar.rules[a]? with
      | .var i => P.lift s2.args[i]?.join
      | _ => pure a : P Nat) passed by
    obtain ⟨h1, h2, h3⟩ := hsim s2 hf x s2' h
    refine ⟨h1, h2, fun s1 ha => ?_⟩
    rw [hsame s1 ha]
    exact h3 s1 ha
  refine Sim.bind (Sim.lift (Q := fun rule => env2.grammar.rules[a]? = some rule) fun _ h => h)
    fun rule hrule => ?_
  split
  · rename_i i
    exact Sim.lift fun y hy => hf.passed i y (Option.join_eq_some_iff.1 hy)
  · rename_i hne
    exact Sim.pure (hpass rule hrule fun i hi => hne i hi)

theorem setArgs_sim (he : EnvSim K env1 env2) {as : List (Nat × Nat)}
    (hpass : ∀ x ∈ as, ∀ rule, env2.grammar.rules[x.2]? = some rule → (∀ i, rule ≠ .var i) →
      passed x.2) :
    Sim strict pan passed b (setArgs env1 as) (setArgs env2 as) (fun _ => True) := by
  induction as with
  | nil => exact Sim.pure trivial
  | cons x as ih =>
    obtain ⟨i, a⟩ := x
    unfold setArgs
    refine Sim.bind (resolveArg_sim he (hpass (i, a) (by simp))) fun a ha => ?_
    have ih := ih fun x hx => hpass x (by simp [hx])
    intro s2 hf x s2' h
    have hred : ∀ env s, (do
        if i < (← P.get).args.length then do
          P.modify fun s => { s with args := s.args.set i (some a) }
          setArgs env as
        else P.panic : P Unit) s = (if i < s.args.length then do
          P.modify fun s => { s with args := s.args.set i (some a) }
          setArgs env as
        else P.panic : P Unit) s := fun _ _ => rfl
    rw [hred] at h
    split at h
    · rename_i hi
      have hset : Sim strict pan passed b (P.modify fun s => { s with args := s.args.set i (some a) })
          (P.modify fun s => { s with args := s.args.set i (some a) }) (fun _ => True) := by
        refine Sim.step fun s x s' h => ?_
        obtain rfl := P.modify_ok.1 h
        refine ⟨trivial, fun hf => ⟨hf.mode, ?_, hf.plain⟩, fun s1 ha => ⟨_, rfl, ?_⟩⟩
        · intro j c hj
          dsimp only at hj
          rw [List.getElem?_set] at hj
          split at hj
          · split at hj
            · simp only [Option.some.injEq] at hj
              exact hj ▸ ha
            · cases hj
          · exact hf.passed _ _ hj
        · exact ⟨ha.events, ha.predicate, ha.contexts, by dsimp only; rw [ha.args], ha.replacement, ha.same⟩
      obtain ⟨h1, h2, h3⟩ := (Sim.bind hset fun _ _ => ih) s2 hf x s2' h
      refine ⟨h1, h2, fun s1 ha => ?_⟩
      rw [hred, ha.args, if_pos hi]
      exact h3 s1 ha
    · exact (P.panic_ok.1 h).elim

theorem parseCall_sim (he : EnvSim K env1 env2) (hr : RecSim strict pan passed A K rec1 rec2)
    {body : Nat} {as : List (Nat × Nat)} (hL : A (b || c) pos.isEmpty body)
    (hpass : ∀ x ∈ as, ∀ rule, env2.grammar.rules[x.2]? = some rule → (∀ i, rule ≠ .var i) →
      passed x.2) (hp : Within K c pos) :
    Sim strict pan passed b (parseCall env1 rec1 pos body as) (parseCall env2 rec2 pos body as)
      (After pos) := by
  intro s2 hf r s2' h
  have hred : ∀ env rec s, parseCall env rec pos body as s = (do
      setArgs env as
      let result ← rec body pos
      P.modify fun s' => { s' with args := s.args }
      pure result : P (Option Pos)) s := fun _ _ _ => rfl
  have hset : Sim strict pan passed b (P.modify fun s' => { s' with args := s2.args })
      (P.modify fun s' => { s' with args := s2.args }) (fun _ => True) := by
    refine Sim.step fun s x s' h => ?_
    obtain rfl := P.modify_ok.1 h
    refine ⟨trivial, fun hf' => ⟨hf'.mode, hf.passed, hf'.plain⟩, fun s1 ha => ⟨_, rfl, ?_⟩⟩
    exact ⟨ha.events, ha.predicate, ha.contexts, rfl, ha.replacement, ha.same⟩
  rw [hred] at h
  obtain ⟨h1, h2, h3⟩ := (Sim.bind (setArgs_sim he hpass) fun _ _ => Sim.bind (hr b c _ _ hL hp) fun r hA =>
      Sim.bind hset fun _ _ => Sim.pure hA) s2 hf r s2' h
  refine ⟨h1, h2, fun s1 ha => ?_⟩
  rw [hred, ha.args]
  exact h3 s1 ha

theorem parseVar_sim (hr : RecSim strict pan passed A K rec1 rec2) {i : Nat}
    (hL : ∀ a, passed a → A (b || c) pos.isEmpty a) (hp : Within K c pos) :
    Sim strict pan passed b (parseVar rec1 pos i) (parseVar rec2 pos i) (After pos) := by
  intro s2 hf r s2' h
  have hred : ∀ rec s, parseVar rec pos i s = (do
      let e ← P.lift s.args[i]?.join
      rec e pos : P (Option Pos)) s := fun _ _ => rfl
  rw [hred] at h
  obtain ⟨h1, h2, h3⟩ := (Sim.bind (Sim.lift (Q := passed) fun y hy =>
    hf.passed i y (Option.join_eq_some_iff.1 hy)) fun e he => hr b c e pos (hL e he) hp) s2 hf r s2' h
  refine ⟨h1, h2, fun s1 ha => ?_⟩
  rw [hred, ha.args]
  exact h3 s1 ha

theorem prevIsLoop_sim (he : EnvSim K env1 env2) {t : NodeType} {tys : List Nat} (hp : Within K c pos) :
    Sim strict pan passed b (prevIsLoop env1 t pos tys) (prevIsLoop env2 t pos tys) (After pos) := by
  induction tys with
  | nil => exact Sim.pure After.none
  | cons ty tys ih =>
    unfold prevIsLoop
    refine Sim.bind (nodeType_sim he) fun t' _ => ?_
    split
    · exact Sim.pure (After.self hp)
    · exact ih

theorem parsePrevIs_sim (hs : strict = true) (he : EnvSim K env1 env2) {tys : List Nat}
    (hp : Within K c pos) :
    Sim strict pan passed b (parsePrevIs env1 pos tys) (parsePrevIs env2 pos tys) (After pos) := by
  intro s2 hf r s2' h
  have hred : ∀ env s, parsePrevIs env pos tys s = (match s.prev with
      | some prev => prevIsLoop env prev pos tys
      | none => pure none : P (Option Pos)) s := fun _ _ => rfl
  rw [hred] at h
  cases hprev : s2.prev with
  | none =>
    rw [hprev] at h
    obtain ⟨h1, h2, h3⟩ := (Sim.pure After.none : Sim strict pan passed b (pure none) (pure none) (After pos))
      s2 hf r s2' h
    refine ⟨h1, h2, fun s1 ha => ?_⟩
    rw [hred, (ha.same hs).2, hprev]
    exact h3 s1 ha
  | some t =>
    rw [hprev] at h
    obtain ⟨h1, h2, h3⟩ := prevIsLoop_sim he hp s2 hf r s2' h
    refine ⟨h1, h2, fun s1 ha => ?_⟩
    rw [hred, (ha.same hs).2, hprev]
    exact h3 s1 ha

theorem parseInject_sim (hr : RecSim strict pan passed A K rec1 rec2) {pre body : Nat}
    (hL1 : A (b || c) pos.isEmpty pre) (hL2 : ∀ z, A (b || c) z body) (hp : Within K c pos) :
    Sim strict pan passed b (parseInject rec1 pos pre body) (parseInject rec2 pos pre body)
      (After pos) := by
  unfold parseInject
  refine Sim.bind mark_sim fun m _ => Sim.bind (hr b c _ _ hL1 hp) fun r hA => ?_
  cases r with
  | none => exact Sim.pure After.none
  | some q =>
    refine Sim.bind mark_sim fun m' _ => Sim.bind (hr b c _ _ (hL2 _) (hA.within rfl hp)) fun r hB => ?_
    cases r with
    | none => exact Sim.pure After.none
    | some q' =>
      exact Sim.bind (Sim.cond forwardParent_sim) fun _ _ => Sim.pure (hA.trans hB)

variable {go1 go2 : Pos → Nat → P (Option Pos)}

/-- `pratt_go` in both environments. -/
def GoSim (strict : Bool) (pan : Prop) (passed : Nat → Prop) (K : Nat) (b c : Bool)
    (go1 go2 : Pos → Nat → P (Option Pos)) : Prop :=
  ∀ pos p, Within K c pos → Sim strict pan passed b (go1 pos p) (go2 pos p) (After pos)

theorem prattRhs_sim (hg : GoSim strict pan passed K b c go1 go2) {ix : Infix} (hp : Within K c pos) :
    Sim strict pan passed b (prattRhs go1 ix pos) (prattRhs go2 ix pos) (fun q => After pos (some q)) := by
  unfold prattRhs
  split
  · refine Sim.bind (hg _ _ hp) fun r hA => ?_
    cases r with
    | none =>
      exact Sim.bind startError_sim fun _ _ => Sim.bind event_sim fun _ _ => Sim.pure (After.self hp)
    | some q => exact Sim.pure hA
  · exact Sim.pure (After.self hp)

theorem prattInfixes_sim (he : EnvSim K env1 env2) (hr : RecSim strict pan passed A K rec1 rec2)
    (hg : GoSim strict pan passed K b c go1 go2) {lhs : Nat} {ixs : List Infix}
    (hL : ∀ i ∈ ixs, ∀ z, A (b || c) z i.op) (hp : Within K c pos) :
    Sim strict pan passed b (prattInfixes env1 rec1 go1 lhs pos ixs) (prattInfixes env2 rec2 go2 lhs pos ixs)
      (fun r => After pos (r.map (·.2))) := by
  induction ixs with
  | nil => exact Sim.pure After.none
  | cons ix ixs ih =>
    unfold prattInfixes
    refine Sim.bind mark_sim fun m _ => Sim.bind (start_sim he) fun m' _ =>
      Sim.bind (hr b c _ _ (hL ix (by simp) _) hp) fun r hA => ?_
    cases r with
    | none => exact Sim.bind rollback_sim fun _ _ => ih fun i hi => hL i (by simp [hi])
    | some q =>
      refine Sim.bind forwardParent_sim fun _ _ => Sim.bind (prattRhs_sim hg (hA.within rfl hp)) fun q' hB => ?_
      exact Sim.bind (nodeType_sim he) fun _ _ => Sim.bind setPrev_sim fun _ _ =>
        Sim.bind event_sim fun _ _ => Sim.pure (hA.trans hB)

theorem prattLoop_sim (he : EnvSim K env1 env2) (hr : RecSim strict pan passed A K rec1 rec2)
    (hg : GoSim strict pan passed K b c go1 go2) {table : PrattTable} {mp n lhs : Nat}
    (hL : ∀ i ∈ table.infixes, ∀ z, A (b || c) z i.op) (hp : Within K c pos) :
    Sim strict pan passed b (prattLoop env1 rec1 go1 table mp n lhs pos)
      (prattLoop env2 rec2 go2 table mp n lhs pos) (After pos) := by
  induction n generalizing pos lhs with
  | zero => exact Sim.timeout
  | succ n ih =>
    unfold prattLoop
    refine Sim.bind (prattInfixes_sim he hr hg (fun i hi => hL i ?_) hp) fun r hA => ?_
    · exact (List.mem_filter.1 hi).1
    · rcases r with _ | ⟨lhs', q⟩
      · exact Sim.pure (After.self hp)
      · exact (ih (hA.within rfl hp)).weaken fun _ h => hA.trans h

theorem prattOperand_sim (hr : RecSim strict pan passed A K rec1 rec2)
    (hg : GoSim strict pan passed K b c go1 go2) {pf : Prefix} (hL : ∀ z, A (b || c) z pf.op)
    (hp : Within K c pos) :
    Sim strict pan passed b (prattOperand rec1 go1 pf pos) (prattOperand rec2 go2 pf pos) (After pos) := by
  unfold prattOperand
  refine Sim.bind (hr b c _ _ (hL _) hp) fun r hA => ?_
  cases r with
  | none => exact Sim.pure After.none
  | some q => exact (hg _ _ (hA.within rfl hp)).weaken fun _ h => hA.trans h

theorem prattPrefixes_sim (he : EnvSim K env1 env2) (hr : RecSim strict pan passed A K rec1 rec2)
    (hg : GoSim strict pan passed K b c go1 go2) {pfs : List Prefix} (hL : ∀ p ∈ pfs, ∀ z, A (b || c) z p.op)
    (hp : Within K c pos) :
    Sim strict pan passed b (prattPrefixes env1 rec1 go1 pos pfs) (prattPrefixes env2 rec2 go2 pos pfs)
      (After pos) := by
  induction pfs with
  | nil => exact Sim.pure After.none
  | cons pf pfs ih =>
    unfold prattPrefixes
    refine Sim.bind (start_sim he) fun m _ =>
      Sim.bind (prattOperand_sim hr hg (hL pf (by simp)) hp) fun r hA => ?_
    cases r with
    | none => exact Sim.bind rollback_sim fun _ _ => ih fun i hi => hL i (by simp [hi])
    | some q =>
      exact Sim.bind (nodeType_sim he) fun _ _ => Sim.bind setPrev_sim fun _ _ =>
        Sim.bind event_sim fun _ _ => Sim.pure hA

theorem prattGo_sim (he : EnvSim K env1 env2) (hr : RecSim strict pan passed A K rec1 rec2)
    {table : PrattTable} {n : Nat}
    (hL : (∀ a ∈ table.atoms, ∀ z, A (b || c) z a) ∧ (∀ p ∈ table.prefixes, ∀ z, A (b || c) z p.op) ∧
      ∀ i ∈ table.infixes, ∀ z, A (b || c) z i.op) :
    GoSim strict pan passed K b c (prattGo env1 rec1 table n) (prattGo env2 rec2 table n) := by
  induction n with
  | zero => exact fun _ _ _ => Sim.timeout
  | succ n ih =>
    intro pos p hp
    unfold prattGo
    refine Sim.bind mark_sim fun m _ => Sim.bind (Q := After pos) ?_ fun r hA => ?_
    · unfold prattPrefix
      refine Sim.bind (parseOr_sim hr (fun a ha => hL.1 a ha _) hp) fun r hA => ?_
      cases r with
      | none => exact prattPrefixes_sim he hr ih hL.2.1 hp
      | some q => exact Sim.pure hA
    · cases r with
      | none => exact Sim.pure After.none
      | some q =>
        exact (prattLoop_sim he hr ih hL.2.2 (hA.within rfl hp)).weaken
          fun _ h => hA.trans h

theorem startCached_sim {e : Nat} :
    Sim strict pan passed b (startCached e) (startCached e) (fun _ => True) :=
  Sim.bind mark_sim fun _ _ => Sim.bind event_sim fun _ _ => Sim.pure trivial

theorem getFromCache_none {env : Env} (h : env.cache = none) {e : Nat} :
    getFromCache env e pos = pure none := by
  unfold getFromCache
  rw [h]

theorem cachedOrParse_none {env : Env} (h : env.cache = none) {rec : Rec} {e : Nat} :
    cachedOrParse env rec pos e = rec e pos := by
  unfold cachedOrParse
  rw [getFromCache_none h]
  rfl

theorem cachedOrParse_panic {env : Env} {cache : List ((Nat × Nat) × (Nat × Nat × Nat))}
    {evs : List Event} (hc : env.cache = some (cache, evs)) (hn : env.nonWs[pos.cur]? = none)
    {rec : Rec} {e : Nat} {s : PState} : cachedOrParse env rec pos e s = .panic := by
  show P.bind (getFromCache env e pos) _ s = _
  unfold getFromCache
  rw [hc]
  dsimp only
  rw [hn]
  rfl

theorem cachedOrParse_miss {env : Env} {cache : List ((Nat × Nat) × (Nat × Nat × Nat))}
    {evs : List Event} (hc : env.cache = some (cache, evs)) {off k e : Nat}
    (hn : env.nonWs[pos.cur]? = some (off, k)) (hl : cache.lookup (off, e) = none)
    {rec : Rec} {s : PState} : cachedOrParse env rec pos e s = rec e pos s := by
  have : getFromCache env e pos s = .ok none s := by
    unfold getFromCache
    rw [hc]
    dsimp only
    refine P.bind_ok.2 ⟨(off, k), s, P.lift_ok.2 ⟨hn, rfl⟩, ?_⟩
    dsimp only
    rw [hl]
    rfl
  show P.bind (getFromCache env e pos) _ s = _
  unfold P.bind
  rw [this]

theorem cachedOrParse_hit {env : Env} {cache : List ((Nat × Nat) × (Nat × Nat × Nat))}
    {evs : List Event} (hc : env.cache = some (cache, evs)) {off k e a nE nT : Nat}
    (hn : env.nonWs[pos.cur]? = some (off, k)) (hl : cache.lookup (off, e) = some (a, nE, nT))
    (hle : a + nE ≤ evs.length) {rec : Rec} {s : PState} :
    cachedOrParse env rec pos e s = .ok (some ⟨pos.cur + nT, pos.stop⟩)
      { s with events := s.events ++ (evs.drop a).take nE } := by
  refine P.bind_ok.2 ⟨some ⟨pos.cur + nT, pos.stop⟩, _, ?_, rfl⟩
  unfold getFromCache
  rw [hc]
  dsimp only
  refine P.bind_ok.2 ⟨(off, k), s, P.lift_ok.2 ⟨hn, rfl⟩, ?_⟩
  dsimp only
  rw [hl]
  dsimp only
  rw [if_pos hle]
  rfl

/-- Without hits, a cache only leads to a panic at the end of the input. -/
theorem cachedOrParse_noHits {env : Env} (h : NoHits env) {rec : Rec} {e : Nat} {s : PState} :
    (env.cache ≠ none ∧ env.nonWs[pos.cur]? = none ∧ cachedOrParse env rec pos e s = .panic) ∨
      ((env.cache ≠ none → env.nonWs[pos.cur]? ≠ none) ∧
        cachedOrParse env rec pos e s = rec e pos s) := by
  cases hc : env.cache with
  | none => exact Or.inr ⟨fun h => absurd rfl h, by rw [cachedOrParse_none hc]⟩
  | some ce =>
    obtain ⟨cache, evs⟩ := ce
    obtain rfl := h cache evs hc
    cases hn : env.nonWs[pos.cur]? with
    | none => exact Or.inl ⟨by simp, rfl, cachedOrParse_panic hc hn⟩
    | some ok =>
      obtain ⟨off, k⟩ := ok
      exact Or.inr ⟨by simp, cachedOrParse_miss hc hn rfl⟩

theorem cachedOrParse_sim (hc : NoHits env2) {n : Nat}
    (hr : RecSim strict pan passed A K (parseExpr env1 n) (parseExpr env2 n)) {e : Nat}
    (hpn : env1.cache = none ∨ pan ∨ (env2.cache ≠ none ∧ env1.nonWs = env2.nonWs) ∨ pos.isEmpty = false)
    (hlen : K ≤ env1.nonWs.length) (hL : A (b || c) pos.isEmpty e)
    (hS : NoHits env1 ∨ (strict = false ∧ (b || c) = false ∧ CacheSound K env1 env2 e)) (hp : Within K c pos) :
    Sim strict pan passed b (cachedOrParse env1 (parseExpr env1 n) pos e)
      (cachedOrParse env2 (parseExpr env2 n) pos e) (After pos) := by
  intro s2 hf r s2' h
  have key : (env2.cache ≠ none → env2.nonWs[pos.cur]? ≠ none) ∧
      parseExpr env2 n e pos s2 = .ok r s2' := by
    rcases cachedOrParse_noHits (pos := pos) (rec := parseExpr env2 n) (e := e) (s := s2) hc with
      ⟨_, _, h1⟩ | ⟨h1, h2⟩
    · rw [h1] at h; cases h
    · exact ⟨h1, h2 ▸ h⟩
  obtain ⟨hn2, h⟩ := key
  have hpan : env1.cache ≠ none → env1.nonWs[pos.cur]? = none → pan := by
    intro h1 h2
    rcases hpn with h3 | h3 | ⟨h3, h4⟩ | h3
    · exact absurd h3 h1
    · exact h3
    · exact absurd (h4 ▸ h2) (hn2 h3)
    · have h4 : pos.cur ≠ pos.stop := by simpa [Pos.isEmpty] using h3
      have h5 := List.getElem?_eq_none_iff.1 h2
      have h6 := hp.1
      have h7 := hp.2.1
      omega
  obtain ⟨h1, h2, h3⟩ := hr b c e pos hL hp s2 hf r s2' h
  refine ⟨h1, h2, fun s1 ha => ?_⟩
  rcases hS with hno | ⟨hst, hbc, hsound⟩
  · rcases cachedOrParse_noHits (pos := pos) (rec := parseExpr env1 n) (e := e) (s := s1) hno with
      ⟨h4, h5, h6⟩ | ⟨_, h4⟩
    · exact Or.inl ⟨hpan h4 h5, h6⟩
    · rw [h4]
      exact h3 s1 ha
  · have hbc' : b = false ∧ c = false := by simpa using hbc
    cases hc1 : env1.cache with
    | none =>
      rw [cachedOrParse_none hc1]
      exact h3 s1 ha
    | some ce =>
      obtain ⟨cache, evs⟩ := ce
      cases hn : env1.nonWs[pos.cur]? with
      | none => exact Or.inl ⟨hpan (by simp [hc1]) hn, cachedOrParse_panic hc1 hn⟩
      | some ok =>
        obtain ⟨off, k⟩ := ok
        cases hl : cache.lookup (off, e) with
        | none =>
          rw [cachedOrParse_miss hc1 hn hl]
          exact h3 s1 ha
        | some entry =>
          obtain ⟨a, nE, nT⟩ := entry
          obtain ⟨hle, rfl, hev⟩ := hsound cache evs hc1 pos off k a nE nT (hbc'.2 ▸ hp) hn hl n s2 r s2'
            (hbc'.1 ▸ hf.mode) h
          refine Or.inr ⟨_, cachedOrParse_hit hc1 hn hl hle, ?_⟩
          obtain ⟨⟨hk1, hk2, hk3⟩, _⟩ := parseExpr_keeps (env := env2) (n := n) 0 e pos s2 _ s2' (Nat.zero_le _) h
          refine ⟨?_, ?_, ?_, ?_, ?_, ?_⟩
          · dsimp only; rw [hev, ha.events]
          · dsimp only; rw [hk3, ha.predicate]
          · dsimp only; rw [hk1, ha.contexts]
          · dsimp only; rw [hk2, ha.args]
          · dsimp only; rw [ha.replacement, hf.plain hst, h2.plain hst]
          · intro h; rw [hst] at h; cases h

theorem parseCached_sim (hc : NoHits env2) {n : Nat}
    (hr : RecSim strict pan passed A K (parseExpr env1 n) (parseExpr env2 n)) {e : Nat}
    (hpn : env1.cache = none ∨ pan ∨ (env2.cache ≠ none ∧ env1.nonWs = env2.nonWs) ∨ pos.isEmpty = false)
    (hlen : K ≤ env1.nonWs.length) (hL : A (b || c) pos.isEmpty e)
    (hS : NoHits env1 ∨ (strict = false ∧ (b || c) = false ∧ CacheSound K env1 env2 e)) (hp : Within K c pos) :
    Sim strict pan passed b (parseCached env1 (parseExpr env1 n) pos e)
      (parseCached env2 (parseExpr env2 n) pos e) (After pos) := by
  unfold parseCached
  refine Sim.bind startCached_sim fun m _ => Sim.bind (cachedOrParse_sim hc hr hpn hlen hL hS hp) fun r hA => ?_
  cases r with
  | none => exact Sim.pure After.none
  | some q => exact Sim.bind finishCached_sim fun _ _ => Sim.pure hA

/-- Condition on the grammar. -/
def SimGrammar (strict : Bool) (passed : Nat → Prop) (A : Bool → Bool → Nat → Prop) (K : Nat) (env1 env2 : Env) :
    Prop :=
  ∀ e rule, env2.grammar.rules[e]? = some rule → SimRule strict passed A K env1 env2 e rule

theorem parseExprInner_sim (he : EnvSim K env1 env2) (hc : Caches pan A env1 env2)
    (hG : SimGrammar strict passed A K env1 env2)
    {n : Nat} (hr : RecSim strict pan passed A K (parseExpr env1 n) (parseExpr env2 n)) {e : Nat}
    (hL : A (b || c) pos.isEmpty e) (hp : Within K c pos) :
    Sim strict pan passed b (parseExprInner env1 (parseExpr env1 n) n e pos)
      (parseExprInner env2 (parseExpr env2 n) n e pos) (After pos) := by
  unfold parseExprInner
  rw [he.grammar]
  refine Sim.bind (Sim.lift (Q := fun rule => env2.grammar.rules[e]? = some rule) fun _ h => h)
    fun rule hrule => ?_
  have hR := hG e rule hrule
  cases rule with
  | pub ty body rp => exact parsePub_sim he hr (hR _ _ hL) hp
  | pubReplace ty body => exact parsePubReplace_sim hR.1 hr (hR.2 _ _ hL) hp
  | or parts => exact parseOr_sim hr (hR _ _ hL) hp
  | and parts c => exact parseAnd_sim hr (hR _ _ hL) hp
  | token ty => exact parseToken_sim he hp
  | contextualToken ty w => exact byText_sim he hp
  | rep body => exact repLoop_sim hr (hR _ _ hL) hp
  | withSkip first body =>
    exact withSkipLoop_sim he hr hR.1 (hR.2 _ _ hL).1 ((hR.2 _ _ hL).2.imp_right fun h => h n) hp
  | opt body => exact parseOpt_sim hr (hR _ _ hL) hp
  | not l => exact parseNot_sim hr hR hp
  | eof =>
    refine Sim.pure ?_
    split
    · exact After.self hp
    · exact After.none
  | any => exact any_sim he hp
  | layer l body => exact parseLayer_sim he hr hR.1 hR.2 hp
  | pratt table => exact prattGo_sim he hr (hR _ _ hL) _ _ hp
  | enter ctx body => exact parseWithContext_sim hr (hR _ _ hL) hp
  | exit ctx body => exact parseWithContext_sim hr (hR _ _ hL) hp
  | isIn ctx => exact parseIsIn_sim hp
  | call body as => exact parseCall_sim he hr (hR.1 _ _ hL) hR.2 hp
  | var i => exact parseVar_sim hr (hR _ _ hL) hp
  | prevIs tys => exact parsePrevIs_sim hR he hp
  | inject pre body => exact parseInject_sim hr (hR _ _ hL).1 (hR _ _ hL).2 hp
  | cached body =>
    refine parseCached_sim hc.noHits hr (hc.panics.imp_right fun h => h.imp_right fun h => h.imp_right fun h => ?_)
      he.len1 (hR.1 _ _ hL) (hR.2.imp_right fun h => ⟨h.1, ?_, h.2.2⟩) hp
    · cases hbc : b || c with
      | false => rfl
      | true => exact absurd (hbc ▸ hL) (h.2.1 _)
    · cases hz : pos.isEmpty with
      | false => rfl
      | true => exact absurd (hz ▸ hL) (h e body _ hrule)

theorem parseExpr_sim (he : EnvSim K env1 env2) (hc : Caches pan A env1 env2)
    (hG : SimGrammar strict passed A K env1 env2) (n : Nat) :
    RecSim strict pan passed A K (parseExpr env1 n) (parseExpr env2 n) := by
  induction n with
  | zero => exact fun _ _ _ _ _ _ => Sim.timeout
  | succ n ih =>
    intro b c e pos hL hp
    unfold parseExpr
    refine Sim.bind tick_sim fun _ _ => Sim.bind mark_sim fun m _ =>
      Sim.bind (parseExprInner_sim he hc hG ih hL hp) fun r hA => ?_
    exact Sim.bind (Sim.cond rollback_sim) fun _ _ => Sim.pure hA

end Parser

end Fall
