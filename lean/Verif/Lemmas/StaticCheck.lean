import Verif.Lemmas.Terminates

/-!
A check of `Terminating` that can be evaluated. It is given the results of the analyses and verifies that they are
closed under the rules.
-/

namespace Fall

open Spec

namespace Check

/-- Known values of parameters. -/
abbrev Known := List (Nat × Nat)

/-- Results of the analyses. `passed` has the values of each parameter. Bit `e` of `null` is set if `e` may match
nothing. For some sets of known values, `groups` has the ranks of the expressions, 6 bits for each; 0 stands for
no rank. -/
structure Cert where
  passed : List (List Nat)
  null : Nat
  groups : List (Known × Nat)

/-- Whether `e` is marked as one that may match nothing. -/
def Cert.isNull (c : Cert) (e : Nat) : Bool := c.null.testBit e

/-- The possible values of a parameter. -/
def Cert.values (c : Cert) (i : Nat) : List Nat := c.passed.getD i []

/-- The rank of an expression in a table. -/
def rank (table e : Nat) : Nat := (table >>> (6 * e)) % 64

/-- Values of parameters are closed under the rule. -/
def Cert.passedRule (c : Cert) (g : Grammar) : Expr → Bool
  | .call _ args => args.all fun (i, a) =>
    match g.rules[a]? with
    | some (.var j) => (c.values j).all fun b => (c.values i).contains b
    | _ => (c.values i).contains a
  | _ => true

/-- Whether a rule may match nothing. -/
def Cert.nullRule (c : Cert) : Expr → Bool
  | .pub _ body _ => c.isNull body
  | .pubReplace _ body => c.isNull body
  | .or ps => ps.any c.isNull
  | .and ps k => (ps.take (k.getD ps.length)).all c.isNull
  | .token _ => false
  | .contextualToken _ text => text.isEmpty
  | .rep _ => true
  | .withSkip _ body => c.isNull body
  | .opt _ => true
  | .not _ => true
  | .eof => true
  | .any => false
  | .layer l _ => c.isNull l
  | .pratt table => table.atoms.any c.isNull
  | .enter _ body => c.isNull body
  | .exit _ body => c.isNull body
  | .isIn _ => true
  | .call body _ => c.isNull body
  | .var i => (c.values i).any c.isNull
  | .prevIs _ => true
  | .inject pre body => c.isNull pre && c.isNull body
  | .cached body => c.isNull body

/-- The parts of a sequence up to the first one that may not match nothing. -/
def Cert.front (c : Cert) : List Nat → List Nat
  | [] => []
  | p :: ps => p :: if c.isNull p then c.front ps else []

/-- The parts of a rule that may be run at the same position. -/
def Cert.parts (c : Cert) (e : Nat) : Expr → List Nat
  | .pub _ body _ => [body]
  | .pubReplace _ body => [body]
  | .or ps => ps
  | .and ps _ => c.front ps
  | .rep body => [body]
  | .withSkip l body => [l, body]
  | .opt body => [body]
  | .not body => [body]
  | .layer l body => [l, body]
  | .pratt table => table.atoms ++ table.prefixes.map (·.op) ++ if c.isNull e then table.infixes.map (·.op) else []
  | .enter _ body => [body]
  | .exit _ body => [body]
  | .inject pre body => if c.isNull pre then [pre, body] else [pre]
  | .cached body => [body]
  | _ => []

/-- What is repeated may not match nothing. -/
def Cert.roundsRule (c : Cert) : Expr → Bool
  | .rep body => !c.isNull body
  | .pratt table => table.prefixes.all (fun p => !c.isNull p.op) && table.infixes.all fun p => !c.isNull p.op
  | _ => true

/-- Sets a known value. -/
def put (i a : Nat) : Known → Known
  | [] => [(i, a)]
  | (k, b) :: l => if k = i then (i, a) :: l else if i < k then (i, a) :: (k, b) :: l else (k, b) :: put i a l

/-- Forgets a value. -/
def forget (i : Nat) (l : Known) : Known := l.filter fun p => p.1 != i

/-- What is known about the values of the parameters after a call. -/
def binds (g : Grammar) : Known → List (Nat × Nat) → Known
  | l, [] => l
  | l, (i, a) :: args => binds g (match g.rules[a]? with
    | some (.var j) => match l.lookup j with
      | some b => put i b l
      | none => forget i l
    | _ => put i a l) args

/-- There is a rank lower than `r`. -/
def below (table r e : Nat) : Bool := 0 < rank table e && rank table e < r

/-- Ranks decrease from a rule to what it may run at the same position. -/
def Cert.rankRule (c : Cert) (g : Grammar) (l : Known) (table : Nat) (e : Nat) (rule : Expr) : Bool :=
  let r := rank table e
  r == 0 || match rule with
    | .call body args =>
      let l' := binds g l args
      c.groups.any fun (l1, table') => l1 == l' && below table' r body
    | .var i => match l.lookup i with
      | some a => below table r a
      | none => (c.values i).all (below table r)
    | rule => (c.parts e rule).all (below table r)

/-- The whole check. -/
def Cert.ok (c : Cert) (g : Grammar) (R : Nat) : Bool :=
  g.rules.all (c.passedRule g) &&
  (g.rules.zipIdx.all fun (rule, e) => !c.nullRule rule || c.isNull e) &&
  g.rules.all c.roundsRule &&
  (c.groups.all fun (l, table) => g.rules.zipIdx.all fun (rule, e) => c.rankRule g l table e rule) &&
  c.groups.any fun (l, table) => l == [] && (List.range g.rules.length).all fun e => below table (R + 2) e

/-! Soundness. -/

variable {c : Cert} {g : Grammar} {R : Nat}

theorem rules_all {f : Expr → Bool} (h : g.rules.all f = true) {e : Nat} {rule : Expr}
    (he : g.rules[e]? = some rule) : f rule = true :=
  List.all_eq_true.1 h rule (List.mem_of_getElem? he)

theorem zipIdx_all {f : Expr × Nat → Bool} (h : g.rules.zipIdx.all f = true) {e : Nat} {rule : Expr}
    (he : g.rules[e]? = some rule) : f (rule, e) = true :=
  List.all_eq_true.1 h (rule, e) (List.mk_mem_zipIdx_iff_getElem?.2 he)

theorem passed_sound (h : g.rules.all (c.passedRule g) = true) {i a : Nat} (hp : PassedAs g i a) :
    a ∈ c.values i := by
  induction hp with
  | direct he hm hv =>
    have := rules_all h he
    simp only [Cert.passedRule, List.all_eq_true] at this
    have := this _ hm
    dsimp only at this
    split at this
    · rename_i hj
      exact absurd hj (hv _)
    · exact List.contains_iff_mem.1 this
  | indirect he hm hj _ ih =>
    have := rules_all h he
    simp only [Cert.passedRule, List.all_eq_true] at this
    have := this _ hm
    simp only [hj, List.all_eq_true] at this
    exact List.contains_iff_mem.1 (this _ ih)

theorem null_sound (hp : g.rules.all (c.passedRule g) = true)
    (h : (g.rules.zipIdx.all fun (rule, e) => !c.nullRule rule || c.isNull e) = true) {e : Nat}
    (hn : Nullable g e) : c.isNull e = true := by
  have key : ∀ {e : Nat} {rule : Expr}, g.rules[e]? = some rule → c.nullRule rule = true → c.isNull e = true := by
    intro e rule he hr
    have := zipIdx_all h he
    simpa [hr] using this
  induction hn with
  | pub he _ ih | pubReplace he _ ih | layer he _ ih | withSkip he _ ih | enter he _ ih | exit he _ ih | call he _ ih
  | cached he _ ih => exact key he ih
  | or he hm _ ih | atom he hm _ ih => exact key he (List.any_eq_true.2 ⟨_, hm, ih⟩)
  | and he _ ih => exact key he (List.all_eq_true.2 ih)
  | contextual he | eof he | opt he | not he | rep he | isIn he | prevIs he => exact key he rfl
  | var he ha _ ih => exact key he (List.any_eq_true.2 ⟨_, passed_sound hp ha, ih⟩)
  | inject he _ _ ih1 ih2 => exact key he (by simp [Cert.nullRule, ih1, ih2])

theorem front_sound {before after : List Nat} {p : Nat} (h : ∀ q, q ∈ before → c.isNull q = true) :
    p ∈ c.front (before ++ p :: after) := by
  induction before with
  | nil => simp [Cert.front]
  | cons q before ih =>
    have := ih fun q hq => h q (by simp [hq])
    simp [Cert.front, h q (by simp), this]

theorem parts_sound (hn : ∀ e, Nullable g e → c.isNull e = true) {e e' : Nat} {rule : Expr}
    (he : g.rules[e]? = some rule) (h : LeftPart g e e') : e' ∈ c.parts e rule := by
  cases h with
  | or h hm => rw [h] at he; cases he; exact hm
  | and h hb => rw [h] at he; cases he; exact front_sound fun q hq => hn q (hb q hq)
  | atom h hm => rw [h] at he; cases he; simp [Cert.parts, hm]
  | pre h hm => rw [h] at he; cases he; simp only [Cert.parts, List.mem_append, List.mem_map]; exact Or.inl (Or.inr ⟨_, hm, rfl⟩)
  | op h hnul hm =>
    rw [h] at he; cases he
    simp only [Cert.parts, hn _ hnul, if_true, List.mem_append, List.mem_map]
    exact Or.inr ⟨_, hm, rfl⟩
  | injected h =>
    rw [h] at he; cases he
    simp only [Cert.parts]
    split <;> simp
  | inject h hnul => rw [h] at he; cases he; simp [Cert.parts, hn _ hnul]
  | pub h | pubReplace h | opt h | not h | rep h | bound h | layer h | first h | withSkip h | enter h | exit h | cached h =>
    rw [h] at he; cases he; simp [Cert.parts]

/-- The known values are the values. -/
def Knows (l : Known) (A : Args) : Prop := ∀ i a : Nat, l.lookup i = some a → A[i]? = some (some a)

theorem lookup_put (i a j : Nat) (l : Known) : (put i a l).lookup j = if j = i then some a else l.lookup j := by
  induction l with
  | nil =>
    unfold put
    by_cases h : j = i
    · simp [h]
    · simp [List.lookup, h, beq_eq_false_iff_ne.2 h]
  | cons x l ih =>
    obtain ⟨k, b⟩ := x
    unfold put
    by_cases hk : k = i
    · subst hk
      by_cases h : j = k
      · simp [h]
      · simp [List.lookup, h, beq_eq_false_iff_ne.2 h]
    · rw [if_neg hk]
      split
      · by_cases h : j = i
        · simp [h]
        · simp [List.lookup, h, beq_eq_false_iff_ne.2 h]
      · by_cases h : j = k
        · subst h
          simp [hk]
        · simp only [List.lookup, beq_eq_false_iff_ne.2 h]
          exact ih

theorem lookup_forget (i j : Nat) (l : Known) : (forget i l).lookup j = if j = i then none else l.lookup j := by
  unfold forget
  induction l with
  | nil => simp
  | cons x l ih =>
    obtain ⟨k, b⟩ := x
    by_cases hk : k = i
    · subst hk
      simp only [List.filter_cons, bne_self_eq_false, Bool.false_eq_true, if_false, ih]
      by_cases h : j = k
      · simp [h]
      · simp [List.lookup, h, beq_eq_false_iff_ne.2 h]
    · have : (k != i) = true := bne_iff_ne.2 hk
      simp only [List.filter_cons, this, if_true]
      by_cases h : j = k
      · subst h
        simp [hk]
      · simp only [List.lookup, beq_eq_false_iff_ne.2 h]
        exact ih

theorem knows_put {l : Known} {A : Args} {i a : Nat} (h : Knows l A) (hi : i < A.length) :
    Knows (put i a l) (A.set i (some a)) := by
  intro j b hj
  rw [lookup_put] at hj
  split at hj
  · rename_i h
    cases hj
    subst h
    simp [hi]
  · rename_i hne
    rw [List.getElem?_set_ne (fun h => hne h.symm)]
    exact h j b hj

theorem knows_forget {l : Known} {A : Args} {i : Nat} {x : Option Nat} (h : Knows l A) :
    Knows (forget i l) (A.set i x) := by
  intro j b hj
  rw [lookup_forget] at hj
  split at hj
  · cases hj
  · rename_i hne
    rw [List.getElem?_set_ne (fun h => hne h.symm)]
    exact h j b hj

theorem knows_binds {l : Known} {A A' : Args} {args : List (Nat × Nat)} (h : Knows l A) (hb : Binds g A args A') :
    Knows (binds g l args) A' := by
  induction hb generalizing l with
  | nil => exact h
  | value hi hv _ ih =>
    unfold binds
    refine ih ?_
    split
    · rename_i hj
      exact absurd hj (hv _)
    · exact knows_put h hi
  | passOn hi hj hval _ ih =>
    unfold binds
    refine ih ?_
    simp only [hj]
    split
    · rename_i b' hl
      have := h _ _ hl
      rw [hval] at this
      cases this
      exact knows_put h hi
    · exact knows_forget h

theorem rank_sound (hp : g.rules.all (c.passedRule g) = true) (hn : ∀ e, Nullable g e → c.isNull e = true)
    (hr : (c.groups.all fun (l, table) => g.rules.zipIdx.all fun (rule, e) => c.rankRule g l table e rule) = true)
    {n e : Nat} {A : Args} (hc : LeftChain g n e A) (hA : A.Passed g) {l : Known} {table : Nat}
    (hg : (l, table) ∈ c.groups) (hk : Knows l A) (h0 : rank table e ≠ 0) : n < rank table e := by
  induction hc generalizing l table with
  | nil => omega
  | cons hcall _ ih =>
    rename_i n e e' A A' _
    have hlt := hcall.range
    obtain ⟨rule, he⟩ : ∃ rule, g.rules[e]? = some rule := ⟨_, List.getElem?_eq_getElem hlt⟩
    have hrule := zipIdx_all (List.all_eq_true.1 hr _ hg) he
    simp only [Cert.rankRule, Bool.or_eq_true, beq_iff_eq, h0, false_or] at hrule
    have fin : ∀ (l' : Known) (table' : Nat), (l', table') ∈ c.groups → Knows l' A' →
        below table' (rank table e) e' = true → n + 1 < rank table e := by
      intro l' table' hg' hk' hb
      simp only [below, Bool.and_eq_true, decide_eq_true_eq] at hb
      have := ih (hcall.passed hA) hg' hk' (by omega)
      omega
    cases hcall with
    | part h =>
      have hm := parts_sound hn he h
      refine fin l table hg hk ?_
      cases rule <;> first | exact List.all_eq_true.1 hrule _ hm | simp [Cert.parts] at hm
    | call h hb =>
      rw [h] at he; cases he
      obtain ⟨⟨l1, table'⟩, hm, h1⟩ := List.any_eq_true.1 hrule
      simp only [Bool.and_eq_true, beq_iff_eq] at h1
      exact fin l1 table' hm (h1.1 ▸ knows_binds hk hb) h1.2
    | var h ha =>
      rw [h] at he; cases he
      refine fin l table hg hk ?_
      dsimp only at hrule
      split at hrule
      · rename_i a' hl
        have := hk _ _ hl
        rw [ha] at this
        cases this
        exact hrule
      · exact List.all_eq_true.1 hrule _ (passed_sound hp (hA _ _ ha))

/-- The check is sound. -/
theorem ok_sound (h : c.ok g R = true) : Terminating g R := by
  unfold Cert.ok at h
  simp only [Bool.and_eq_true] at h
  obtain ⟨⟨⟨⟨hp, hnull⟩, hrounds⟩, hrank⟩, hroot⟩ := h
  have hn : ∀ e, Nullable g e → c.isNull e = true := fun e => null_sound hp hnull
  refine ⟨fun n e A hA hc => ?_, ⟨fun e body he hnul => ?_, fun e table p he hm hnul => ?_,
    fun e table p he hm hnul => ?_⟩⟩
  · obtain ⟨⟨l, table⟩, hm, h1⟩ := List.any_eq_true.1 hroot
    simp only [Bool.and_eq_true, beq_iff_eq, List.all_eq_true] at h1
    obtain ⟨rfl, h1⟩ := h1
    by_cases he : e < g.rules.length
    · have hb := h1 e (List.mem_range.2 he)
      simp only [below, Bool.and_eq_true, decide_eq_true_eq] at hb
      have := rank_sound hp hn hrank hc hA hm (by intro i a h; simp at h) (by omega)
      omega
    · cases hc with
      | nil => omega
      | cons h _ => exact absurd h.range he
  · have := rules_all hrounds he
    simp [Cert.roundsRule, hn _ hnul] at this
  · have := rules_all hrounds he
    simp only [Cert.roundsRule, Bool.and_eq_true, List.all_eq_true] at this
    have := this.1 p hm
    simp [hn _ hnul] at this
  · have := rules_all hrounds he
    simp only [Cert.roundsRule, Bool.and_eq_true, List.all_eq_true] at this
    have := this.2 p hm
    simp [hn _ hnul] at this

end Check

end Fall
