import Verif.Lemmas.StaticCheck

/-!
A check of `Safe` and `Linked` that can be evaluated.
-/

namespace Fall

open Spec

namespace Check

/-- Results of further analyses. Bit `e` of `loose` is set if what `e` reads may begin with something other than a node,
of `fails` if `e` may fail. For some sets of known values, `reach` has the expressions that may be run then: outside of
lookahead, and in lookahead. -/
structure SafeCert where
  loose : Nat
  fails : Nat
  reach : List (Known × Nat × Nat)

/-- Whether what a rule reads may begin with something other than a node. -/
def SafeCert.looseRule (s : SafeCert) (c : Cert) : Expr → Bool
  | .token _ => true
  | .contextualToken _ _ => true
  | .any => true
  | .cached _ => true
  | .pub _ _ _ => false
  | .pubReplace _ body => s.loose.testBit body
  | .or ps => ps.any s.loose.testBit
  | .and ps _ => (c.front ps).any s.loose.testBit
  | .opt body => s.loose.testBit body
  | .rep body => s.loose.testBit body
  | .layer _ body => s.loose.testBit body
  | .withSkip _ body => s.loose.testBit body
  | .pratt t => t.atoms.any s.loose.testBit
  | .enter _ body => s.loose.testBit body
  | .exit _ body => s.loose.testBit body
  | .call body _ => s.loose.testBit body
  | .var i => (c.values i).any s.loose.testBit
  | .inject pre body => s.loose.testBit pre || c.isNull pre && s.loose.testBit body
  | .eof | .not _ | .isIn _ | .prevIs _ => false

/-- Whether a rule may fail. -/
def SafeCert.failsRule (s : SafeCert) (c : Cert) : Expr → Bool
  | .token _ | .contextualToken _ _ | .any | .eof | .not _ | .isIn _ | .prevIs _ | .withSkip _ _ | .pratt _ => true
  | .opt _ | .rep _ => false
  | .pub _ body _ => s.fails.testBit body
  | .pubReplace _ body => s.fails.testBit body
  | .or ps => ps.all s.fails.testBit
  | .and ps none => ps.any s.fails.testBit
  | .and ps (some k) => ps.length < k || (ps.take k).any s.fails.testBit
  | .layer l _ => s.fails.testBit l
  | .enter _ body => s.fails.testBit body
  | .exit _ body => s.fails.testBit body
  | .call body _ => s.fails.testBit body
  | .var i => (c.values i).any s.fails.testBit
  | .inject pre body => s.fails.testBit pre || s.fails.testBit body
  | .cached body => s.fails.testBit body

/-- Where nodes are moved into a node that follows, there is such a node. -/
def SafeCert.linkRule (s : SafeCert) (c : Cert) : Expr → Bool
  | .inject _ body => !s.loose.testBit body && !c.isNull body
  | .pratt t => t.infixes.isEmpty || t.atoms.all fun a => !c.isNull a
  | _ => true

/-- All of the known values `l'` are known in `l`. -/
def sub (l' l : Known) : Bool := l'.all fun (i, a) => l.lookup i == some a

/-- One of two. -/
def pick (la : Bool) (m mla : Nat) : Nat := bif la then mla else m

/-- `e` is among the expressions that may be run when at least the values of `l` are known. -/
def SafeCert.runs (s : SafeCert) (l : Known) (la : Bool) (e : Nat) : Bool :=
  s.reach.any fun (l', m, mla) => (pick la m mla).testBit e && sub l' l

/-- Arguments can be bound. -/
def canBind (g : Grammar) : Known → List (Nat × Nat) → Bool
  | _, [] => true
  | l, (i, a) :: args => i < 16 && a < g.rules.length && match g.rules[a]? with
    | some (.var j) => match l.lookup j with
      | some b => canBind g (put i b l) args
      | none => false
    | _ => canBind g (put i a l) args

/-- The condition on a rule that may be run. -/
def SafeCert.safeRule (s : SafeCert) (g : Grammar) (l : Known) (la : Bool) : Expr → Bool
  | .pub ty _ r => ty < g.nodeTypes.length && !(la && r)
  | .pubReplace ty _ => ty < g.nodeTypes.length
  | .token ty => ty < g.nodeTypes.length
  | .contextualToken ty _ => ty < g.nodeTypes.length
  | .prevIs tys => tys.all fun ty => ty < g.nodeTypes.length
  | .pratt t => (t.prefixes.all fun p => p.ty < g.nodeTypes.length) &&
    (t.infixes.all fun p => p.ty < g.nodeTypes.length && !la) &&
    (t.infixes.isEmpty || t.atoms.all fun a => !s.loose.testBit a)
  | .enter k _ => k < 16
  | .exit k _ => k < 16
  | .isIn k => k < 16
  | .call body args => canBind g l args && s.runs (binds g l args) la body
  | .var i => match l.lookup i with
    | some a => s.runs l la a
    | none => false
  | .inject pre _ => !la && !s.loose.testBit pre
  | .or _ | .and _ _ | .opt _ | .not _ | .eof | .any | .rep _ | .layer _ _ | .withSkip _ _ | .cached _ => true

/-- What a rule that may be run runs in turn is known to be run. -/
def SafeCert.partsRule (s : SafeCert) (l : Known) (m mla : Nat) (la : Bool) (rule : Expr) : Bool :=
  (tries rule).all fun (e, la') => (pick (la || la') m mla).testBit e || s.runs l (la || la') e

/-- The check of one rule with some known values. -/
def SafeCert.reachRule (s : SafeCert) (g : Grammar) (l : Known) (m mla : Nat) (la : Bool) (e : Nat) (rule : Expr) :
    Bool :=
  !(pick la m mla).testBit e || s.safeRule g l la rule && s.partsRule l m mla la rule

/-- The check, but for the start rule, which may fail. -/
def SafeCert.tame (s : SafeCert) (c : Cert) (g : Grammar) : Bool :=
  (g.rules.zipIdx.all fun (rule, e) => !s.looseRule c rule || s.loose.testBit e) &&
  g.rules.all (s.linkRule c) &&
  (s.reach.all fun (l, m, mla) => m >>> g.rules.length == 0 && mla >>> g.rules.length == 0 &&
    g.rules.zipIdx.all fun (rule, e) => s.reachRule g l m mla false e rule && s.reachRule g l m mla true e rule) &&
  s.runs [] false g.startRule &&
  match g.rules[g.startRule]? with
  | some (.pub _ _ _) => true
  | _ => false

/-- The whole check. -/
def SafeCert.ok (s : SafeCert) (c : Cert) (g : Grammar) : Bool :=
  s.tame c g && (g.rules.zipIdx.all fun (rule, e) => !s.failsRule c rule || s.fails.testBit e) &&
  !s.fails.testBit g.startRule

/-! Soundness. -/

variable {s : SafeCert} {c : Cert} {g : Grammar} {R : Nat}

theorem front_of_mem {p : Nat} {before after : List Nat} (hn : ∀ e, Nullable g e → c.isNull e = true)
    (h : ∀ q, q ∈ before → Nullable g q) : p ∈ c.front (before ++ p :: after) :=
  front_sound fun q hq => hn q (h q hq)

theorem loose_sound (hp : g.rules.all (c.passedRule g) = true) (hn : ∀ e, Nullable g e → c.isNull e = true)
    (h : (g.rules.zipIdx.all fun (rule, e) => !s.looseRule c rule || s.loose.testBit e) = true) {e : Nat}
    (hl : Loose g e) : s.loose.testBit e = true := by
  have key : ∀ {e : Nat} {rule : Expr}, g.rules[e]? = some rule → s.looseRule c rule = true →
      s.loose.testBit e = true := by
    intro e rule he hr
    have := zipIdx_all h he
    simpa [hr] using this
  induction hl with
  | token he | contextual he | any he | cached he => exact key he rfl
  | pubReplace he _ ih | opt he _ ih | rep he _ ih | layer he _ ih | withSkip he _ ih | enter he _ ih | exit he _ ih
  | call he _ ih => exact key he ih
  | or he hm _ ih | atom he hm _ ih => exact key he (List.any_eq_true.2 ⟨_, hm, ih⟩)
  | and he hb _ ih => exact key he (List.any_eq_true.2 ⟨_, front_of_mem hn hb, ih⟩)
  | var he ha _ ih => exact key he (List.any_eq_true.2 ⟨_, passed_sound hp ha, ih⟩)
  | injected he _ ih => exact key he (by simp [SafeCert.looseRule, ih])
  | inject he hb _ ih => exact key he (by simp [SafeCert.looseRule, ih, hn _ hb])

theorem fails_sound (hp : g.rules.all (c.passedRule g) = true)
    (h : (g.rules.zipIdx.all fun (rule, e) => !s.failsRule c rule || s.fails.testBit e) = true) {e : Nat}
    (hf : MayFail g e) : s.fails.testBit e = true := by
  have key : ∀ {e : Nat} {rule : Expr}, g.rules[e]? = some rule → s.failsRule c rule = true →
      s.fails.testBit e = true := by
    intro e rule he hr
    have := zipIdx_all h he
    simpa [hr] using this
  induction hf with
  | token he | contextual he | any he | eof he | not he | isIn he | prevIs he | withSkip he | pratt he =>
    exact key he rfl
  | pub he _ ih | pubReplace he _ ih | layer he _ ih | enter he _ ih | exit he _ ih | call he _ ih | cached he _ ih =>
    exact key he ih
  | or he _ ih => exact key he (List.all_eq_true.2 ih)
  | @and e p ps k he hm _ ih =>
    cases k with
    | none => exact key he (List.any_eq_true.2 ⟨_, by simpa using hm, ih⟩)
    | some k =>
      refine key he ?_
      simp only [SafeCert.failsRule, Bool.or_eq_true]
      exact Or.inr (List.any_eq_true.2 ⟨_, hm, ih⟩)
  | commit he hlt => exact key he (by simp [SafeCert.failsRule, hlt])
  | var he ha _ ih => exact key he (List.any_eq_true.2 ⟨_, passed_sound hp ha, ih⟩)
  | injected he _ ih => exact key he (by simp [SafeCert.failsRule, ih])
  | inject he _ ih => exact key he (by simp [SafeCert.failsRule, ih])

theorem knows_sub {l l' : Known} {A : Args} (h : sub l' l = true) (hk : Knows l A) : Knows l' A := by
  intro i a hi
  have hm : (i, a) ∈ l' := by
    clear h
    induction l' with
    | nil => simp at hi
    | cons x l' ih =>
      obtain ⟨j, b⟩ := x
      simp only [List.lookup_cons] at hi
      split at hi
      · rename_i hb
        cases hi
        simp only [beq_iff_eq] at hb
        simp [hb]
      · exact List.mem_cons_of_mem _ (ih hi)
  have := List.all_eq_true.1 h _ hm
  exact hk i a (by simpa using this)

theorem canBind_sound {l : Known} {A : Args} {args : List (Nat × Nat)} (h : canBind g l args = true) (hk : Knows l A)
    (hA : A.length = 16) : (∀ x, x ∈ args → x.2 < g.rules.length) ∧ ∃ A', Binds g A args A' := by
  induction args generalizing l A with
  | nil => exact ⟨by simp, _, .nil⟩
  | cons x args ih =>
    obtain ⟨i, a⟩ := x
    simp only [canBind, Bool.and_eq_true, decide_eq_true_eq] at h
    obtain ⟨⟨hi, ha⟩, h⟩ := h
    split at h
    · rename_i j hj
      split at h
      · rename_i b hb
        have := ih h (knows_put hk (by omega)) (by simp [hA])
        obtain ⟨h1, A', h2⟩ := this
        exact ⟨fun x hx => (List.mem_cons.1 hx).elim (fun h => h ▸ ha) (h1 x), A', .passOn (by omega) hj (hk _ _ hb) h2⟩
      · cases h
    · rename_i hv
      have := ih h (knows_put hk (by omega)) (by simp [hA])
      obtain ⟨h1, A', h2⟩ := this
      exact ⟨fun x hx => (List.mem_cons.1 hx).elim (fun h => h ▸ ha) (h1 x), A', .value (by omega) (fun j hj => hv j hj) h2⟩

theorem binds_length {A A' : Args} {args : List (Nat × Nat)} (h : Binds g A args A') : A'.length = A.length := by
  induction h with
  | nil => rfl
  | value _ _ _ ih => simpa using ih
  | passOn _ _ _ _ ih => simpa using ih

/-- A set of the certificate has `e` and is about values that `A` has. -/
def Has (s : SafeCert) (e : Nat) (A : Args) (la : Bool) : Prop :=
  ∃ l m mla, (l, m, mla) ∈ s.reach ∧ Knows l A ∧ (pick la m mla).testBit e = true

theorem has_runs {l : Known} {la : Bool} {e : Nat} {A : Args} (h : s.runs l la e = true) (hk : Knows l A) :
    Has s e A la := by
  obtain ⟨⟨l', m, mla⟩, hm, h⟩ := List.any_eq_true.1 h
  simp only [Bool.and_eq_true] at h
  exact ⟨l', m, mla, hm, knows_sub h.2 hk, h.1⟩

/-- The check of the rules is sound. -/
theorem tame_sound (hc : c.ok g R = true) (h : s.tame c g = true) :
    ((∀ e A la, Reached g e A la → ∃ rule, g.rules[e]? = some rule ∧ RuleSafe g A la rule) ∧
      ∃ ty body b, g.rules[g.startRule]? = some (.pub ty body b)) ∧ Linked g := by
  unfold Cert.ok at hc
  simp only [Bool.and_eq_true] at hc
  obtain ⟨⟨⟨⟨hp, hnull⟩, _⟩, _⟩, _⟩ := hc
  have hn : ∀ e, Nullable g e → c.isNull e = true := fun e => null_sound hp hnull
  unfold SafeCert.tame at h
  simp only [Bool.and_eq_true] at h
  obtain ⟨⟨⟨⟨hloose, hlinks⟩, hreach⟩, hroot⟩, hstart⟩ := h
  have hl : ∀ e, Loose g e → s.loose.testBit e = true := fun e => loose_sound hp hn hloose
  -- what holds of a state of the certificate
  have group : ∀ {l m mla}, (l, m, mla) ∈ s.reach → ∀ {e : Nat} {la : Bool}, (pick la m mla).testBit e = true →
      ∃ rule, g.rules[e]? = some rule ∧ s.safeRule g l la rule = true ∧ s.partsRule l m mla la rule = true := by
    intro l m mla hm e la hb
    have := List.all_eq_true.1 hreach _ hm
    simp only [Bool.and_eq_true, beq_iff_eq] at this
    obtain ⟨⟨h1, h2⟩, h3⟩ := this
    have hlt : e < g.rules.length := by
      refine Nat.lt_of_not_le fun hle => ?_
      have h0 : (pick la m mla) >>> g.rules.length = 0 := by cases la <;> assumption
      have h4 : ((pick la m mla) >>> g.rules.length).testBit (e - g.rules.length) = true := by
        rw [Nat.testBit_shiftRight, Nat.add_sub_cancel' hle, hb]
      rw [h0] at h4
      simp at h4
    obtain ⟨rule, he⟩ : ∃ rule, g.rules[e]? = some rule := ⟨_, List.getElem?_eq_getElem hlt⟩
    have h4 := zipIdx_all h3 he
    simp only [SafeCert.reachRule, Bool.and_eq_true] at h4
    have h5 : (!(pick la m mla).testBit e || s.safeRule g l la rule && s.partsRule l m mla la rule) = true := by
      cases la
      · exact h4.1
      · exact h4.2
    rw [hb] at h5
    simp only [Bool.not_true, Bool.false_or, Bool.and_eq_true] at h5
    exact ⟨rule, he, h5⟩
  have reached : ∀ {e A la}, Reached g e A la → A.length = 16 ∧ Has s e A la := by
    intro e A la h
    induction h with
    | start => exact ⟨by simp, has_runs hroot (by intro i a h; simp at h)⟩
    | part _ he hm ih =>
      obtain ⟨hA, l, m, mla, hg, hk, hb⟩ := ih
      obtain ⟨rule, he', _, hparts⟩ := group hg hb
      rw [he] at he'; cases he'
      have := List.all_eq_true.1 hparts _ hm
      simp only [Bool.or_eq_true (Nat.testBit _ _)] at this
      rcases this with h | h
      · exact ⟨hA, l, m, mla, hg, hk, h⟩
      · exact ⟨hA, has_runs h hk⟩
    | call _ he hbind ih =>
      obtain ⟨hA, l, m, mla, hg, hk, hb⟩ := ih
      obtain ⟨rule, he', hsafe, _⟩ := group hg hb
      rw [he] at he'; cases he'
      simp only [SafeCert.safeRule, Bool.and_eq_true] at hsafe
      exact ⟨by rw [binds_length hbind, hA], has_runs hsafe.2 (knows_binds hk hbind)⟩
    | var _ he ha ih =>
      obtain ⟨hA, l, m, mla, hg, hk, hb⟩ := ih
      obtain ⟨rule, he', hsafe, _⟩ := group hg hb
      rw [he] at he'; cases he'
      simp only [SafeCert.safeRule] at hsafe
      split at hsafe
      · rename_i a' hl
        have := hk _ _ hl
        rw [ha] at this
        cases this
        exact ⟨hA, has_runs hsafe hk⟩
      · cases hsafe
  refine ⟨⟨fun e A la h => ?_, ?_⟩, ⟨fun e pre body he => ?_, fun e a t he hne ha hnul => ?_⟩⟩
  · obtain ⟨hA, l, m, mla, hg, hk, hb⟩ := reached h
    obtain ⟨rule, he, hsafe, _⟩ := group hg hb
    refine ⟨rule, he, ?_⟩
    cases rule with
    | pub ty body r =>
      simp only [SafeCert.safeRule, Bool.and_eq_true, decide_eq_true_eq] at hsafe
      refine ⟨hsafe.1, fun hla => ?_⟩
      simpa [hla] using hsafe.2
    | pubReplace | token | contextualToken | enter | exit | isIn => simpa [SafeCert.safeRule, RuleSafe] using hsafe
    | prevIs tys => simpa [SafeCert.safeRule, RuleSafe] using hsafe
    | pratt t =>
      simp only [SafeCert.safeRule, Bool.and_eq_true, List.all_eq_true, decide_eq_true_eq, Bool.or_eq_true,
        List.isEmpty_iff, Bool.not_eq_true'] at hsafe
      refine ⟨hsafe.1.1, hsafe.1.2, fun hne a ha hL => ?_⟩
      have := hsafe.2.resolve_left hne a ha
      rw [hl a hL] at this
      cases this
    | call body args =>
      simp only [SafeCert.safeRule, Bool.and_eq_true] at hsafe
      exact canBind_sound hsafe.1 hk hA
    | var i =>
      simp only [SafeCert.safeRule] at hsafe
      split at hsafe
      · rename_i a ha
        exact ⟨a, hk _ _ ha⟩
      · cases hsafe
    | inject pre body =>
      simp only [SafeCert.safeRule, Bool.and_eq_true, Bool.not_eq_true'] at hsafe
      refine ⟨hsafe.1, fun hL => ?_⟩
      rw [hl _ hL] at hsafe
      cases hsafe.2
    | _ => trivial
  · split at hstart
    · rename_i ty body b he
      exact ⟨ty, body, b, he⟩
    · cases hstart
  · have := rules_all hlinks he
    simp only [SafeCert.linkRule, Bool.and_eq_true, Bool.not_eq_true'] at this
    refine ⟨fun h => ?_, fun h => ?_⟩
    · rw [hl _ h] at this; cases this.1
    · rw [hn _ h] at this; cases this.2
  · have := rules_all hlinks he
    simp only [SafeCert.linkRule, Bool.or_eq_true, List.isEmpty_iff, List.all_eq_true, Bool.not_eq_true'] at this
    have := this.resolve_left hne a ha
    rw [hn _ hnul] at this
    cases this

/-- The check is sound. -/
theorem safe_sound (hc : c.ok g R = true) (h : s.ok c g = true) : Safe g ∧ Linked g := by
  have hp := hc
  unfold Cert.ok at hp
  simp only [Bool.and_eq_true] at hp
  unfold SafeCert.ok at h
  simp only [Bool.and_eq_true] at h
  obtain ⟨⟨ht, hfails⟩, hroot⟩ := h
  obtain ⟨⟨h1, h2⟩, h3⟩ := tame_sound hc ht
  refine ⟨⟨h1, h2, fun h => ?_⟩, h3⟩
  rw [fails_sound hp.1.1.1.1 hfails h] at hroot
  cases hroot

end Check

end Fall
