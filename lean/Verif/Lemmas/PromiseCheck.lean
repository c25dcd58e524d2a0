import Verif.Spec.Promise
import Verif.Lemmas.SafeCheck

/-!
Checks of `Promises` and `Outside` that can be evaluated, for sets of expressions given as bits of a number.
-/

namespace Fall.Check

open Spec

/-- The type is none of `S`. -/
def notIn (g : Grammar) (S : List NodeType) (ty : Nat) : Bool :=
  match g.nodeTypes[ty]? with
  | some t => !S.contains t
  | none => true

/-- The types that nodes are changed to. -/
def replaced (g : Grammar) : List Nat := g.rules.filterMap fun
  | .pubReplace ty _ => some ty
  | _ => none

theorem mem_replaced {g : Grammar} {ty : Nat} (h : Replaces g ty) : ty ∈ replaced g := by
  obtain ⟨e, body, h⟩ := h
  exact List.mem_filterMap.2 ⟨_, List.mem_of_getElem? h, rfl⟩

/-- A rule may be read without one of the types, given which expressions may be. -/
def Cert.lacksRule (c : Cert) (g : Grammar) (S : List NodeType) (bits : Nat) : Expr → Bool
  | .pub ty _ b => b && (replaced g).any (notIn g S) || notIn g S ty
  | .pubReplace _ body => bits.testBit body
  | .or ps => ps.any bits.testBit
  | .and ps k => (ps.take (k.getD ps.length)).all bits.testBit
  | .token ty => notIn g S ty
  | .contextualToken ty _ => notIn g S ty
  | .withSkip _ body => bits.testBit body
  | .pratt t => t.atoms.any bits.testBit || t.prefixes.any (fun p => notIn g S p.ty) ||
    t.infixes.any fun p => notIn g S p.ty
  | .enter _ body => bits.testBit body
  | .exit _ body => bits.testBit body
  | .call body _ => bits.testBit body
  | .var i => (c.values i).any bits.testBit
  | .inject _ body => bits.testBit body
  | .cached body => bits.testBit body
  | .rep _ | .opt _ | .not _ | .eof | .any | .layer _ _ | .isIn _ | .prevIs _ => true

/-- Whether it is a public rule. -/
def isPub : Option Expr → Bool
  | some (.pub _ _ _) => true
  | _ => false

/-- A rule keeps the promise, given which expressions may be read without one of the types. -/
def keepsRule (g : Grammar) (T : NodeType) (m : Bool) (bits e : Nat) : Expr → Bool
  | .pub ty body b => !(g.nodeTypes[ty]? == some T || b && (replaced g).any fun ty' => g.nodeTypes[ty']? == some T) ||
    !bits.testBit body
  | .contextualToken ty _ => g.nodeTypes[ty]? != some T
  | .pratt t => t.prefixes.all (fun p => g.nodeTypes[p.ty]? != some T || !bits.testBit p.op || !bits.testBit e) &&
    t.infixes.all (fun p => g.nodeTypes[p.ty]? != some T || !bits.testBit p.op || m && !bits.testBit e) &&
    (!m || t.atoms.all fun a => isPub g.rules[a]?)
  | .inject _ _ => !m
  | _ => true

/-- The check of a promise. -/
def Cert.promises (c : Cert) (g : Grammar) (T : NodeType) (S : List NodeType) (m : Bool) (bits : Nat) : Bool :=
  T != ERROR && g.rules.all (c.passedRule g) &&
  (g.rules.zipIdx.all fun (rule, e) => !c.lacksRule g S bits rule || bits.testBit e) &&
  g.rules.zipIdx.all fun (rule, e) => keepsRule g T m bits e rule

variable {c : Cert} {g : Grammar} {R : Nat}

theorem notIn_iff {S : List NodeType} {ty : Nat} : notIn g S ty = true ↔ ∀ t, g.nodeTypes[ty]? = some t → t ∉ S := by
  unfold notIn
  split
  · rename_i t h
    simp [h]
  · rename_i h
    simp [h]

theorem lacks_sound {S : List NodeType} {bits : Nat} (hp : g.rules.all (c.passedRule g) = true)
    (h : (g.rules.zipIdx.all fun (rule, e) => !c.lacksRule g S bits rule || bits.testBit e) = true) {e : Nat}
    (hn : Lacks g S e) : bits.testBit e = true := by
  have key : ∀ {e : Nat} {rule : Expr}, g.rules[e]? = some rule → c.lacksRule g S bits rule = true →
      bits.testBit e = true := by
    intro e rule he hr
    have := zipIdx_all h he
    simpa [hr] using this
  induction hn with
  | pub he hs => exact key he (by simp [Cert.lacksRule, notIn_iff.2 hs])
  | pubReplaced he hr hs =>
    refine key he ?_
    simp only [Cert.lacksRule, Bool.true_and, Bool.or_eq_true]
    exact Or.inl (List.any_eq_true.2 ⟨_, mem_replaced hr, notIn_iff.2 hs⟩)
  | pubReplace he _ ih | withSkip he _ ih | enter he _ ih | exit he _ ih | call he _ ih | inject he _ ih
  | cached he _ ih => exact key he ih
  | or he hm _ ih => exact key he (List.any_eq_true.2 ⟨_, hm, ih⟩)
  | and he _ ih => exact key he (List.all_eq_true.2 ih)
  | token he hs => exact key he (notIn_iff.2 hs)
  | contextual he hs => exact key he (notIn_iff.2 hs)
  | any he | eof he | opt he | not he | rep he | isIn he | prevIs he | layer he => exact key he rfl
  | atom he hm _ ih =>
    exact key he (by simp only [Cert.lacksRule, Bool.or_eq_true]; exact Or.inl (Or.inl (List.any_eq_true.2 ⟨_, hm, ih⟩)))
  | pre he hm hs =>
    refine key he ?_
    simp only [Cert.lacksRule, Bool.or_eq_true]
    exact Or.inl (Or.inr (List.any_eq_true.2 ⟨_, hm, notIn_iff.2 hs⟩))
  | op he hm hs =>
    refine key he ?_
    simp only [Cert.lacksRule, Bool.or_eq_true]
    exact Or.inr (List.any_eq_true.2 ⟨_, hm, notIn_iff.2 hs⟩)
  | var he ha _ ih => exact key he (List.any_eq_true.2 ⟨_, passed_sound hp ha, ih⟩)

theorem promises_sound {T : NodeType} {S : List NodeType} {m : Bool} {bits : Nat}
    (h : c.promises g T S m bits = true) : Promises g T S m := by
  simp only [Cert.promises, Bool.and_eq_true] at h
  obtain ⟨⟨⟨h1, h2⟩, h3⟩, h4⟩ := h
  have lacks : ∀ {e : Nat}, Lacks g S e → bits.testBit e = true := fun h => lacks_sound h2 h3 h
  have keep : ∀ {e : Nat} {rule : Expr}, g.rules[e]? = some rule → keepsRule g T m bits e rule = true :=
    fun he => zipIdx_all h4 he
  refine ⟨by simpa using h1, ?_, ?_, ?_, ?_, ?_, ?_⟩
  · intro e ty body b he hT hl
    have := keep he
    simp only [keepsRule, lacks hl, Bool.not_true, Bool.or_false, Bool.not_eq_true', Bool.or_eq_false_iff] at this
    rcases hT with hT | ⟨rfl, ty', hr, hT⟩
    · simp [hT] at this
    · have := this.2
      rw [Bool.true_and, List.any_eq_false] at this
      exact this ty' (mem_replaced hr) (by simp [hT])
  · intro e ty w he hT
    have := keep he
    simp [keepsRule, hT] at this
  · intro e t p he hm hT hl hl'
    have := keep he
    simp only [keepsRule, Bool.and_eq_true, List.all_eq_true] at this
    have := this.1.1 p hm
    simp [hT, lacks hl, lacks hl'] at this
  · intro e t p he hm hT hl
    have := keep he
    simp only [keepsRule, Bool.and_eq_true, List.all_eq_true] at this
    have := this.1.2 p hm
    simp only [hT, lacks hl, bne_self_eq_false, Bool.not_true, Bool.or_false, Bool.false_or, Bool.and_eq_true,
      Bool.not_eq_true'] at this
    refine ⟨this.1, fun hl' => ?_⟩
    rw [lacks hl'] at this
    exact absurd this.2 (by simp)
  · rintro rfl e t a he ha
    have := keep he
    simp only [keepsRule, Bool.and_eq_true, Bool.not_true, Bool.false_or, List.all_eq_true] at this
    have := this.2 a ha
    unfold isPub at this
    split at this
    · rename_i h
      exact ⟨_, _, _, h⟩
    · cases this
  · rintro rfl e pre body he
    have := keep he
    simp [keepsRule] at this

/-- For some sets of known values, which expressions may have a node of type `T` outside of nodes of type `A`. -/
abbrev Groups := List (Known × Nat)

/-- All that is known by `l'` is known by `l`. -/
def fewer (l' l : Known) : Bool := l'.all fun (i, a) => l.lookup i == some a

/-- A rule may have a node of type `T` that is not inside of one of type `A`, given which expressions may. -/
def Cert.outsideRule (c : Cert) (g : Grammar) (T A : NodeType) (gs : Groups) (l : Known) (bits : Nat) : Expr → Bool
  | .pub ty body b => g.nodeTypes[ty]? == some T || b && (replaced g).any (fun ty' => g.nodeTypes[ty']? == some T) ||
    (g.nodeTypes[ty]? != some A || b && (replaced g).any fun ty' => g.nodeTypes[ty']? != some A) && bits.testBit body
  | .contextualToken ty _ => g.nodeTypes[ty]? == some T
  | .pratt t => t.prefixes.any (fun p => g.nodeTypes[p.ty]? == some T) ||
    t.infixes.any (fun p => g.nodeTypes[p.ty]? == some T) || (tries (.pratt t)).any fun (p, la) => !la && bits.testBit p
  | .call body args => gs.all fun (l', bits') => !fewer l' (binds g l args) || bits'.testBit body
  | .var i => match l.lookup i with
    | some a => bits.testBit a
    | none => (c.values i).any bits.testBit
  | rule => (tries rule).any fun (p, la) => !la && bits.testBit p

/-- The check that nodes of type `T` are inside of nodes of type `A`. -/
def Cert.within (c : Cert) (g : Grammar) (T A : NodeType) (gs : Groups) : Bool :=
  g.rules.all (c.passedRule g) &&
  (gs.all fun (l, bits) => g.rules.zipIdx.all fun (rule, e) => !c.outsideRule g T A gs l bits rule || bits.testBit e) &&
  gs.any fun (l, bits) => l == [] && !bits.testBit 0

theorem knows_fewer {l' l : Known} {V : Args} (h : fewer l' l = true) (hk : Knows l V) : Knows l' V := by
  have mem : ∀ {l' : Known} {i a : Nat}, l'.lookup i = some a → (i, a) ∈ l' := by
    intro l' i a h
    induction l' with
    | nil => cases h
    | cons x l' ih =>
      obtain ⟨k, b⟩ := x
      rw [List.lookup] at h
      split at h
      · rename_i he
        rw [beq_iff_eq] at he
        cases h
        simp [he]
      · exact List.mem_cons_of_mem _ (ih h)
  intro i a hi
  exact hk i a (by simpa using List.all_eq_true.1 h _ (mem hi))

theorem within_sound {T A : NodeType} {gs : Groups} (h : c.within g T A gs = true) :
    ¬ Outside g T A 0 (List.replicate 16 none) := by
  simp only [Cert.within, Bool.and_eq_true] at h
  obtain ⟨⟨hp, h⟩, h0⟩ := h
  have key : ∀ {l : Known} {bits e : Nat} {rule : Expr}, (l, bits) ∈ gs → g.rules[e]? = some rule →
      c.outsideRule g T A gs l bits rule = true → bits.testBit e = true := by
    intro l bits e rule hg he hr
    have := zipIdx_all (List.all_eq_true.1 h _ hg) he
    simpa [hr] using this
  have main : ∀ {e : Nat} {V : Args}, Outside g T A e V → V.Passed g → ∀ {l : Known} {bits : Nat}, (l, bits) ∈ gs →
      Knows l V → bits.testBit e = true := by
    intro e V ho
    induction ho with
    | pub he hT => exact fun _ _ _ hg _ => key hg he (by simp [Cert.outsideRule, hT])
    | pubBody he hA _ ih =>
      intro hV l bits hg hk
      refine key hg he ?_
      simp only [Cert.outsideRule, ih hV hg hk, Bool.and_true, Bool.or_eq_true]
      rcases hA with hA | ⟨rfl, ty', hr, hA⟩
      · exact Or.inr (Or.inl (by simpa using hA))
      · exact Or.inr (Or.inr (by rw [Bool.true_and]; exact List.any_eq_true.2 ⟨ty', mem_replaced hr, by simpa using hA⟩))
    | pubReplaced he hr hT =>
      intro _ _ _ hg _
      refine key hg he ?_
      simp only [Cert.outsideRule, Bool.true_and, Bool.or_eq_true]
      exact Or.inl (Or.inr (List.any_eq_true.2 ⟨_, mem_replaced hr, by simpa using hT⟩))
    | contextual he hT => exact fun _ _ _ hg _ => key hg he (by simp [Cert.outsideRule, hT])
    | @part e p rule V he hnp hm _ ih =>
      intro hV l bits hg hk
      refine key hg he ?_
      have any : ((tries rule).any fun (p, la) => !la && bits.testBit p) = true :=
        List.any_eq_true.2 ⟨_, hm, by simpa using ih hV hg hk⟩
      cases rule with
      | pub ty body b => exact absurd rfl (hnp ty body b)
      | contextualToken => simp [tries] at hm
      | call => simp [tries] at hm
      | var => simp [tries] at hm
      | pratt t => simp only [Cert.outsideRule, any, Bool.or_true]
      | _ => exact any
    | pre he hm hT =>
      intro hV l bits hg hk
      refine key hg he ?_
      simp only [Cert.outsideRule, Bool.or_eq_true]
      exact Or.inl (Or.inl (List.any_eq_true.2 ⟨_, hm, by simpa using hT⟩))
    | op he hm hT =>
      intro hV l bits hg hk
      refine key hg he ?_
      simp only [Cert.outsideRule, Bool.or_eq_true]
      exact Or.inl (Or.inr (List.any_eq_true.2 ⟨_, hm, by simpa using hT⟩))
    | @call _ _ as _ _ he hb _ ih =>
      intro hV l bits hg hk
      refine key hg he ?_
      refine List.all_eq_true.2 fun (l', bits') hg' => ?_
      rw [Bool.or_eq_true, Bool.not_eq_true', ← Bool.not_eq_true]
      by_cases hf : fewer l' (binds g l as) = true
      · exact Or.inr (ih (hb.passed he (fun _ h => h) hV) hg' (knows_fewer hf (knows_binds hk hb)))
      · exact Or.inl hf
    | var he ha _ ih =>
      intro hV l bits hg hk
      refine key hg he ?_
      simp only [Cert.outsideRule]
      split
      · rename_i hl
        have := hk _ _ hl
        rw [ha] at this
        cases this
        exact ih hV hg hk
      · exact List.any_eq_true.2 ⟨_, passed_sound hp (hV _ _ ha), ih hV hg hk⟩
  intro ho
  obtain ⟨⟨l, bits⟩, hg, h1⟩ := List.any_eq_true.1 h0
  simp only [Bool.and_eq_true, beq_iff_eq, Bool.not_eq_true'] at h1
  obtain ⟨rfl, h1⟩ := h1
  have := main ho (Parser.passed_new g) hg (fun i a h => by cases h)
  rw [h1] at this
  cases this

end Fall.Check
