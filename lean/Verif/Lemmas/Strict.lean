import Verif.Spec.Strict
import Verif.Lemmas.Promise
import Verif.Lemmas.JsonFile

/-!
Readings without errors are readings by the strict grammar.
-/

namespace Fall

open Spec

namespace Spec.Items

/-- There is no ERROR node. -/
def Whole : Items → Prop
  | nil => True
  | tok _ _ rest => rest.Whole
  | cached _ body rest => body.Whole ∧ rest.Whole
  | node ty body rest => ty ≠ ERROR ∧ body.Whole ∧ rest.Whole
  | link ty body mids rest => ty ≠ ERROR ∧ body.Whole ∧ mids.Whole ∧ rest.Whole
  | loop ty body rest => ty ≠ ERROR ∧ body.Whole ∧ rest.Whole

theorem whole_append {I J : Items} : (I.append J).Whole ↔ I.Whole ∧ J.Whole := by
  induction I with
  | nil => simp [append, Whole]
  | _ => simp_all [append, Whole, and_assoc]

theorem whole_under {I J : Items} : (I.under J).Whole ↔ I.Whole ∧ J.Whole := by
  cases I <;> simp [under, Whole, whole_append, append, and_assoc]

theorem whole_of_encode {I : Items} (h : ∀ fp, .start ERROR fp ∉ I.encode) : I.Whole := by
  induction I with
  | nil => trivial
  | tok ty n rest ih =>
    exact ih fun fp hm => h fp (by simp [encode, hm])
  | cached key body rest ih1 ih2 =>
    exact ⟨ih1 fun fp hm => h fp (by simp [encode, hm]), ih2 fun fp hm => h fp (by simp [encode, hm])⟩
  | node ty body rest ih1 ih2 =>
    exact ⟨fun he => h none (by simp [encode, he]), ih1 fun fp hm => h fp (by simp [encode, hm]),
      ih2 fun fp hm => h fp (by simp [encode, hm])⟩
  | link ty body mids rest ih1 ih2 ih3 =>
    exact ⟨fun he => h _ (by simp only [encode, he]; exact List.mem_cons_self),
      ih1 fun fp hm => h fp (by simp [encode, hm]), ih2 fun fp hm => h fp (by simp [encode, hm]),
      ih3 fun fp hm => h fp (by simp [encode, hm])⟩
  | loop ty body rest ih1 ih2 =>
    exact ⟨fun he => h _ (by simp only [encode, he]; exact List.mem_cons_self),
      ih1 fun fp hm => h fp (by simp [encode, hm]), ih2 fun fp hm => h fp (by simp [encode, hm])⟩

end Spec.Items

theorem strict_rule {N : Nat → Bool} {g : Grammar} {e : Nat} {x : Expr} (h : g.rules[e]? = some x) :
    (strict N g).rules[e]? = some (strictRule N x) := by
  simp [strict, h]

theorem strict_replaces {N : Nat → Bool} {g : Grammar} {ty : Nat} (h : Replaces g ty) : Replaces (strict N g) ty := by
  obtain ⟨e, body, h⟩ := h
  exact ⟨e, body, strict_rule h⟩

theorem strict_bindArgs {N : Nat → Bool} {g : Grammar} {as : List (Nat × Nat)} {args : Args} :
    bindArgs (strict N g) args as = bindArgs g args as := by
  induction as generalizing args with
  | nil => rfl
  | cons a as ih =>
    obtain ⟨i, a⟩ := a
    simp only [bindArgs]
    cases h : g.rules[a]? with
    | none => simp [strict, h]
    | some x =>
      rw [strict_rule h]
      cases x <;> simp only [strictRule, ih]
      rename_i l body
      cases N l <;> rfl

theorem strict_sigLen {env : Env} {g : Grammar} (i n : Nat) : sigLen { env with grammar := g } i n = sigLen env i n := by
  induction n generalizing i with
  | zero => rfl
  | succ n ih => simp only [sigLen, ih]; rfl

theorem Spec.Derives.whole_lhs {env : Env} {args : Args} {table : PrattTable} {p i j : Nat} {lhs J : Items}
    (h : Derives env args (.chain table p lhs) i j J) (hc : J.Whole) : lhs.Whole := by
  cases h with
  | chainEnd => exact hc
  | chainOp => exact (Items.whole_under.1 hc).1
  | chainLoop => trivial

/-- A reading without errors is a reading by the strict grammar. -/
theorem Spec.Derives.strict {env : Env} {N : Nat → Bool} (hN : ∀ l, Nullable env.grammar l → N l = true)
    {args : Args} {goal : Goal} {i j : Nat} {I : Items} (h : Derives env args goal i j I)
    (hA : Args.Passed env.grammar args) (hc : I.Whole) :
    Derives { env with grammar := Spec.strict N env.grammar } args goal i j I := by
  induction h with
  | pub he ht _ ih => exact .pub (strict_rule he) ht (ih hA hc.2.1)
  | pubReplaced he hr ht _ ih => exact .pubReplaced (strict_rule he) (strict_replaces hr) ht (ih hA hc.2.1)
  | pubReplace he _ ih => exact .pubReplace (strict_rule he) (ih hA hc)
  | or he hp _ ih => exact .or (strict_rule he) hp (ih hA hc)
  | and he _ ih => exact .and (strict_rule he) (ih hA hc)
  | andCommit => exact absurd rfl (Items.whole_append.1 hc).2.1
  | token he ht hs => exact .token (strict_rule he) ht hs
  | contextual he ht hs => exact .contextual (strict_rule he) ht ⟨hs.1, by rw [strict_sigLen]; exact hs.2⟩
  | rep he _ ih => exact .rep (strict_rule he) (ih hA hc)
  | withSkip he _ ih => exact .withSkip (strict_rule he) (ih hA hc)
  | withSkipSkipped => exact absurd rfl hc.1
  | opt he _ ih => exact .opt (strict_rule he) (ih hA hc)
  | optNone he => exact .optNone (strict_rule he)
  | not he => exact .not (strict_rule he)
  | eof he => exact .eof (strict_rule he)
  | any he hs => exact .any (strict_rule he) hs
  | layer he _ _ _ ih =>
    have := strict_rule (N := N) he
    simp only [strictRule] at this
    split at this
    · exact .opt this (ih hA hc)
    · exact .withSkip this (ih hA hc)
  | layerLeftover => exact absurd rfl (Items.whole_append.1 hc).2.1
  | layerNone he hl ih =>
    have := strict_rule (N := N) he
    rw [strictRule, if_pos (hN _ (hl.nullable hA rfl))] at this
    exact .optNone this
  | layerSkipped => exact absurd rfl hc.1
  | pratt he _ ih => exact .pratt (strict_rule he) (ih hA hc)
  | enter he _ ih => exact .enter (strict_rule he) (ih hA hc)
  | exit he _ ih => exact .exit (strict_rule he) (ih hA hc)
  | isIn he => exact .isIn (strict_rule he)
  | call he hb _ ih => exact .call (strict_rule he) (by rw [strict_bindArgs]; exact hb) (ih (bindArgs_passed he hb hA) hc)
  | var he ha _ ih => exact .var (strict_rule he) ha (ih hA hc)
  | prevIs he => exact .prevIs (strict_rule he)
  | inject he _ _ ih1 ih2 =>
    exact .inject (strict_rule he) (ih1 hA (Items.whole_append.1 hc).1) (ih2 hA (Items.whole_append.1 hc).2)
  | injectLinked he hk _ ho _ ih1 ih2 =>
    exact .injectLinked (strict_rule he) hk (ih1 hA (Items.whole_under.1 hc).1) ho (ih2 hA (Items.whole_under.1 hc).2)
  | cached he _ ih => exact .cached (strict_rule he) (ih hA hc.1)
  | allNil => exact .allNil
  | allCons _ _ ih1 ih2 => exact .allCons (ih1 hA (Items.whole_append.1 hc).1) (ih2 hA (Items.whole_append.1 hc).2)
  | manyNil => exact .manyNil
  | manyCons _ _ ih1 ih2 => exact .manyCons (ih1 hA (Items.whole_append.1 hc).1) (ih2 hA (Items.whole_append.1 hc).2)
  | skippedNil => exact .skippedNil
  | skippedCons hs _ ih => exact .skippedCons hs (ih hA hc)
  | prattChain _ h2 ih1 ih2 => exact .prattChain (ih1 hA (h2.whole_lhs hc)) (ih2 hA hc)
  | atom ha _ ih => exact .atom ha (ih hA hc)
  | prefixOp hp ht _ _ ih1 ih2 =>
    exact .prefixOp hp ht (ih1 hA (Items.whole_append.1 hc.2.1).1) (ih2 hA (Items.whole_append.1 hc.2.1).2)
  | chainEnd => exact .chainEnd
  | chainOp hx hp ht _ _ ho h3 ih1 ih2 ih3 =>
    have hJ := (Items.whole_under.1 hc).2
    have hAB := Items.whole_append.1 (h3.whole_lhs hJ).2.1
    exact .chainOp hx hp ht (ih1 hA hAB.1) (ih2 hA hAB.2) ho (ih3 hA hJ)
  | chainLoop hx hp ht _ _ h3 ih1 ih2 ih3 =>
    have hAB := Items.whole_append.1 (h3.whole_lhs hc).2.1
    exact .chainLoop hx hp ht (ih1 hA hAB.1) (ih2 hA hAB.2) (ih3 hA hc)
  | rhsNone h => exact .rhsNone h
  | rhsSome h _ ih => exact .rhsSome h (ih hA hc)
  | rhsMissing => exact absurd rfl hc.1

theorem repr_starts {f : Forest} {N : List NodeData} {p : Option Nat} {id pos : Nat} (h : Repr N p id pos f)
    {T : NodeType} (hs : .start T ∈ f.ops) : ∃ (m : Nat) (x : NodeData), N[m]? = some x ∧ x.ty = T := by
  induction f generalizing p id pos with
  | nil => cases hs
  | leaf ty len rest ih => exact ih h.2 (by simpa [Forest.ops] using hs)
  | node ty kids rest ih1 ih2 =>
    simp only [Forest.ops, List.mem_cons, List.mem_append, BuilderOp.start.injEq, reduceCtorEq, false_or] at hs
    rcases hs with rfl | hs | hs
    · exact ⟨id, _, h.1, rfl⟩
    · exact ih1 h.2.1 hs
    · exact ih2 h.2.2 hs

/-- The reading of a file without errors. -/
theorem parse_strict {d : Definition} {ty body : Nat} (hp : Progress d.lexer)
    (hstart : d.rules[0]? = some (.pub ty body false)) (hb : BoundedBinder d.binder) (hs : SpacelessStrings d)
    (hl : Linked d.grammar) {N : Nat → Bool} (hN : ∀ l, Nullable d.grammar l → N l = true) {n : Nat} {text : List Nat}
    {file : File Nat} {data : Definition.IncrementalData}
    (h : d.parse n text = .ok (file, data)) (he : Errorless file) :
    ∃ (t : NodeType) (kids : Forest) (I : Items) (tokens : List Token), IsLexing d.lexer text tokens ∧
      Repr file.nodes none 0 0 (.node t kids .nil) ∧ file.nodes.length = (Forest.node t kids .nil).size ∧
      Places d.isWs (Items.node t I .nil).resolve tokens (Forest.node t kids .nil).ops ∧
      d.nodeTypes[ty]? = some t ∧ I.Whole ∧
      Derives { Env.new none d.grammar d.isWs text tokens with grammar := Spec.strict N d.grammar } PState.new.args
        (.expr body) 0 (Env.new none d.grammar d.isWs text tokens).nonWs.length I := by
  obtain ⟨t, kids, I, tokens, h1, h2, h3, h4, h5, h5', h6, J, k, h7, h8⟩ := parse_reading_all hp hstart hb hs hl h
  have hc : (Items.node t I .nil).Whole := by
    refine Items.whole_of_encode fun fp hm => ?_
    have := h5.starts (Items.resolve_starts (first := []) (Or.inl ⟨fp, hm⟩))
    obtain ⟨m, x, hx, hty⟩ := repr_starts h2 this
    exact he m (by simp [File.ty, File.data, hx, hty])
  rcases h8 with ⟨rfl, rfl⟩ | ⟨S, j, _, rfl⟩
  · refine ⟨t, kids, I, tokens, h1, h2, h3, h5, h6, hc.2.1, ?_⟩
    exact h7.strict hN (Parser.passed_new d.grammar) hc.2.1
  · exact absurd rfl (Items.whole_append.1 hc.2.1).2.1

end Fall
