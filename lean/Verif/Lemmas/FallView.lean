import Verif.Spec.FallView
import Verif.Lemmas.FallEditor
import Verif.Lemmas.Codegen

/-! Facts about the outline and the colours of grammars. -/

namespace Fall
open Spec AProg

theorem hlMap_colour (ty : NodeType) : (hlMap.find? fun e => e.2.contains ty).map (·.1) = typeColour ty := by
  by_cases h : ty < 145
  · revert ty
    exact (by decide : ∀ ty, ty < 145 → (hlMap.find? fun e => e.2.contains ty).map (·.1) = typeColour ty)
  · have key : ∀ n : Nat, ¬ n < 145 → ∀ m, m ∈ [101, 129, 128, 106, 107, 105, 108, 102, 103, 109, 110, 104, 134, 144] → n ≠ m := by
      intro n hn m hm
      simp only [List.mem_cons, List.not_mem_nil, or_false] at hm
      omega
    have h1 : (hlMap.find? fun e => e.2.contains ty) = none := by
      rw [List.find?_eq_none]
      intro e he
      simp only [hlMap, List.mem_cons, List.not_mem_nil, or_false] at he
      have := key ty h
      simp only [List.mem_cons, List.not_mem_nil, or_false] at this
      rcases he with rfl | rfl | rfl | rfl | rfl <;>
        simp only [List.contains_iff_mem, List.mem_cons, List.not_mem_nil, or_false] <;> grind
    have h2 : typeColour ty = none := by
      have key : ∀ n : Nat, ¬ n < 145 → ¬ n = 101 ∧ ¬ (n = 128 ∨ n = 129) ∧ ¬ (102 ≤ n ∧ n ≤ 110) ∧ ¬ n = 134 ∧ ¬ n = 144 := by
        intro n hn
        omega
      obtain ⟨h1, h2, h3, h4, h5⟩ := key ty h
      simp only [typeColour, if_neg h1, if_neg h2, if_neg h3, if_neg h4, if_neg h5]
    rw [h1, h2]
    rfl

section
variable {f : File UInt8} (hf : ConsistentFile f)
include hf

omit hf in
theorem hlVisit_mem {n : Nat} (hn : IsNode f n) : ∃ l, hlVisit f n = some l ∧ ∀ r t, (r, t) ∈ l ↔
    (OfType f ERROR n ∧ t = .error ∧ ((f.range n = some r ∧ r.start ≠ r.stop) ∨
      ∃ a, f.range n = some ⟨a, a⟩ ∧ r = ⟨a, a + 1⟩)) ∨
    (∃ ty, OfType f ty n ∧ typeColour ty = some t ∧ f.range n = some r) := by
  unfold hlVisit
  simp only [ty_dat hn, range_rng hn, Option.bind_eq_bind, Option.bind_some, OfType, Option.some.injEq]
  by_cases he : (dat f n).ty == ERROR
  · rw [if_pos he]
    rw [beq_iff_eq] at he
    have hno : typeColour (dat f n).ty = none := by rw [he]; decide
    by_cases hem : (rng f n).isEmpty = true
    · have hem' := hem
      simp only [TextRange.isEmpty, beq_iff_eq] at hem'
      refine ⟨[(⟨(rng f n).start, (rng f n).start + 1⟩, .error)], by simp [hem, TextRange.fromLen, TextRange.fromTo], ?_⟩
      intro r t
      simp only [List.mem_singleton, Prod.mk.injEq]
      constructor
      · rintro ⟨rfl, rfl⟩
        refine .inl ⟨he, rfl, .inr ⟨(rng f n).start, ?_, rfl⟩⟩
        cases h : rng f n
        rw [h] at hem'
        simp only at hem'
        simp [hem']
      · rintro (⟨-, rfl, ⟨rfl, h⟩ | ⟨a, h, rfl⟩⟩ | ⟨ty, rfl, h, -⟩)
        · exact absurd hem' h
        · rw [h]
          simp
        · rw [hno] at h
          cases h
    · have hem' := hem
      simp only [TextRange.isEmpty, beq_iff_eq] at hem'
      refine ⟨[(rng f n, .error)], by simp [hem], ?_⟩
      intro r t
      simp only [List.mem_singleton, Prod.mk.injEq]
      constructor
      · rintro ⟨rfl, rfl⟩
        exact .inl ⟨he, rfl, .inl ⟨rfl, hem'⟩⟩
      · rintro (⟨-, rfl, ⟨rfl, h⟩ | ⟨a, h, rfl⟩⟩ | ⟨ty, rfl, h, -⟩)
        · exact ⟨rfl, rfl⟩
        · rw [h] at hem'
          exact absurd rfl hem'
        · rw [hno] at h
          cases h
  · rw [if_neg he]
    rw [beq_iff_eq] at he
    have hm := hlMap_colour (dat f n).ty
    cases hfind : hlMap.find? fun e => e.2.contains (dat f n).ty with
    | none =>
      rw [hfind] at hm
      refine ⟨[], rfl, ?_⟩
      intro r t
      simp only [List.not_mem_nil, false_iff]
      rintro (⟨h, -⟩ | ⟨ty, rfl, h, -⟩)
      · exact he h
      · rw [← hm] at h
        cases h
    | some e =>
      rw [hfind] at hm
      refine ⟨[(rng f n, e.1)], rfl, ?_⟩
      intro r t
      simp only [List.mem_singleton, Prod.mk.injEq]
      constructor
      · rintro ⟨rfl, rfl⟩
        exact .inr ⟨_, rfl, hm.symm, rfl⟩
      · rintro (⟨h, -⟩ | ⟨ty, rfl, h, rfl⟩)
        · exact absurd h he
        · rw [← hm] at h
          cases h
          exact ⟨rfl, rfl⟩

theorem colorizeChild_mem {n : Nat} (hn : IsNode f n) (ty : NodeType) (tag : HlTag) :
    ∃ l, colorizeChild f n ty tag = some l ∧ ∀ r t, (r, t) ∈ l ↔
      t = tag ∧ ∃ c, FirstChild f n (OfType f ty) c ∧ f.range c = some r := by
  unfold colorizeChild
  cases hc : f.childOfType n ty with
  | none =>
    rw [childOfType_eq hf hn] at hc
    cases hc
  | some o =>
    have := (childOfType_some hf hn ty).1 hc
    cases o with
    | none =>
      refine ⟨[], rfl, fun r t => ?_⟩
      simp only [List.not_mem_nil, false_iff]
      rintro ⟨-, c, h, -⟩
      exact this c h
    | some c =>
      have hcn := first_isNode hf this
      refine ⟨[(rng f c, tag)], by simp [range_rng hcn], fun r t => ?_⟩
      simp only [List.mem_singleton, Prod.mk.injEq]
      constructor
      · rintro ⟨rfl, rfl⟩
        exact ⟨rfl, c, this, range_rng hcn⟩
      · rintro ⟨rfl, c', h, hr⟩
        cases firstChild_unique h this
        rw [range_rng hcn, Option.some.injEq] at hr
        exact ⟨hr.symm, rfl⟩

omit hf in
/-- A call means something else than the call of a rule exactly if the name is built in. -/
theorem callMeans_builtin {call : Nat} {args : List Nat} {name : List UInt8} {k : Option CallKind} {ds : List Diagnostic}
    (h : CallMeans f call args name k ds) :
    (callTag k = .builtin ∧ name ∈ builtInNames ∧ k ≠ none) ∨ (callTag k = .function ∧ (name ∉ builtInNames ∨ k = none)) := by
  cases h with
  | rule h => exact .inr ⟨rfl, .inl h⟩
  | noArgument => exact .inr ⟨rfl, .inr rfl⟩
  | tooFew => exact .inr ⟨rfl, .inr rfl⟩
  | noContext => exact .inr ⟨rfl, .inr rfl⟩
  | unresolved => exact .inr ⟨rfl, .inr rfl⟩
  | any => exact .inl ⟨rfl, by decide, by simp⟩
  | commit => exact .inl ⟨rfl, by decide, by simp⟩
  | eof => exact .inl ⟨rfl, by decide, by simp⟩
  | not => exact .inl ⟨rfl, by decide, by simp⟩
  | layer => exact .inl ⟨rfl, by decide, by simp⟩
  | withSkip => exact .inl ⟨rfl, by decide, by simp⟩
  | inject => exact .inl ⟨rfl, by decide, by simp⟩
  | isIn => exact .inl ⟨rfl, by decide, by simp⟩
  | enter => exact .inl ⟨rfl, by decide, by simp⟩
  | exit => exact .inl ⟨rfl, by decide, by simp⟩
  | prevIs => exact .inl ⟨rfl, by decide, by simp⟩

/-- The colours of a node by its meaning. -/
theorem hlSemantic_mem {n : Nat} (hn : IsNode f n) {l : List (TextRange × HlTag)} {ds : List Diagnostic}
    (h : Eval (analysisBody f) (hlSemantic f n) (some l) ds) (r : TextRange) (t : HlTag) : (r, t) ∈ l ↔
    (OfType f 142 n ∧ t = .literal ∧ ∃ c, FirstChild f n (OfType f 130) c ∧ f.range c = some r) ∨
    ((∃ ty, OfType f ty n ∧ ty ∈ [132, 150, 151, 152]) ∧ t = .function ∧
      ∃ c, FirstChild f n (OfType f 130) c ∧ f.range c = some r) ∨
    (OfType f 135 n ∧ f.range n = some r ∧ ∃ k, RefersTo f n (some k) ∧ t = refColour k) ∨
    (OfType f 153 n ∧ ∃ k sel c, MethodMeans f n (some k) ∧ methodTag (some k) = some t ∧
      FirstChild f n (OfType f 154) sel ∧ FirstChild f sel (OfType f 130) c ∧ f.range c = some r) ∨
    (OfType f 140 n ∧ ∃ name args k ds ty c, Ident f n name ∧ ChildrenWith f n (IsExpr f) args ∧
      CallMeans f n args name k ds ∧ t = callTag k ∧ ty ∈ [130, 123, 124] ∧ FirstChild f n (OfType f ty) c ∧
      f.range c = some r) := by
  unfold hlSemantic at h
  rw [eval_bind_some] at h
  obtain ⟨ty, _, _, h1, h, -⟩ := h
  obtain ⟨h1, -⟩ := eval_lift.1 h1
  have hty : ∀ t', OfType f t' n ↔ t' = ty := fun t' => by rw [OfType, h1, Option.some.injEq, eq_comm]
  simp only [hty]
  by_cases e1 : ty = 142
  · subst e1
    rw [if_pos (show (142 == Ty.lexRule) = true from rfl)] at h
    obtain ⟨h2, -⟩ := eval_lift.1 h
    obtain ⟨l', h3, h4⟩ := colorizeChild_mem hf hn Ty.ident .literal
    rw [h2, Option.some.injEq] at h3
    subst h3
    rw [h4]
    simp [Ty.ident]
  rw [if_neg (fun h => e1 (eq_of_beq h) : ¬ (ty == Ty.lexRule) = true)] at h
  by_cases e2 : ty ∈ [132, 150, 151, 152]
  · have e2' : (ty == Ty.synRule || ty == Ty.astNodeDef || ty == Ty.astTraitDef || ty == Ty.astClassDef) = true := by
      simp only [List.mem_cons, List.not_mem_nil, or_false] at e2
      rcases e2 with rfl | rfl | rfl | rfl <;> rfl
    rw [if_pos e2'] at h
    obtain ⟨h2, -⟩ := eval_lift.1 h
    obtain ⟨l', h3, h4⟩ := colorizeChild_mem hf hn Ty.ident .function
    rw [h2, Option.some.injEq] at h3
    subst h3
    rw [h4]
    have : 135 ≠ ty ∧ 153 ≠ ty ∧ 140 ≠ ty ∧ 142 ≠ ty := by
      simp only [List.mem_cons, List.not_mem_nil, or_false] at e2
      rcases e2 with rfl | rfl | rfl | rfl <;> decide
    simp only [Ty.ident, this.1, this.2.1, this.2.2.1, this.2.2.2, false_and, false_or, or_false, exists_eq_left, e2, true_and]
  have e2' : ¬ (ty == Ty.synRule || ty == Ty.astNodeDef || ty == Ty.astTraitDef || ty == Ty.astClassDef) = true := by
    simp only [Bool.or_eq_true, beq_iff_eq]
    rintro (((rfl | rfl) | rfl) | rfl) <;> exact e2 (by decide)
  rw [if_neg e2'] at h
  have e1 : ¬ 142 = ty := fun h => e1 h.symm
  simp only [e1, false_and, false_or, exists_eq_left, e2]
  by_cases e3 : ty = 135
  · subst e3
    rw [if_pos (show (135 == Ty.refExpr) = true from rfl), eval_bind_some] at h
    obtain ⟨k, _, _, h2, h, -⟩ := h
    obtain ⟨⟨_, h2⟩, -⟩ := eval_get.1 h2
    obtain ⟨s, rule, g1, g2, g3, -⟩ := resolveRef_eval hf hn h2
    have hr : RefersTo f n k := ⟨s, rule, g1, g2, g3⟩
    have hu : ∀ k', RefersTo f n (some k') ↔ k = some k' := by
      intro k'
      exact ⟨fun h => refersTo_unique hf hr h, fun h => h ▸ hr⟩
    simp only [hu, show (153 : NodeType) ≠ 135 by decide, show (140 : NodeType) ≠ 135 by decide, false_and, or_false,
      true_and]
    have some_case : ∀ k', refTag (some k') = some (refColour k') := by intro k'; cases k' <;> rfl
    cases k with
    | none =>
      cases (eval_pure.1 h).1
      simp
    | some k =>
      rw [some_case] at h
      simp only [eval_bind_some] at h
      obtain ⟨r', _, _, h3, h, -⟩ := h
      obtain ⟨h3, -⟩ := eval_lift.1 h3
      cases (eval_pure.1 h).1
      simp only [List.mem_singleton, Prod.mk.injEq, h3, Option.some.injEq, eq_comm (a := r)]
      exact and_congr_right fun _ => ⟨fun h => ⟨k, rfl, h⟩, fun ⟨_, h, h'⟩ => Option.some.inj h ▸ h'⟩
  rw [if_neg (fun h => e3 (eq_of_beq h) : ¬ (ty == Ty.refExpr) = true)] at h
  have e3 : ¬ 135 = ty := fun h => e3 h.symm
  simp only [e3, false_and, false_or]
  by_cases e4 : ty = 153
  · subst e4
    rw [if_pos (show (153 == Ty.methodDef) = true from rfl), eval_bind_some] at h
    obtain ⟨k, _, _, h2, h, -⟩ := h
    obtain ⟨⟨_, h2⟩, -⟩ := eval_get.1 h2
    obtain ⟨hm, -⟩ := resolveMethod_eval hf hn h2
    have hu : ∀ k', MethodMeans f n (some k') ↔ k = some k' := by
      intro k'
      exact ⟨fun h => methodMeans_unique hm h, fun h => h ▸ hm⟩
    simp only [hu, show (140 : NodeType) ≠ 153 by decide, false_and, or_false, true_and]
    cases hk : methodTag k with
    | none =>
      rw [hk] at h
      cases (eval_pure.1 h).1
      simp only [List.not_mem_nil, false_iff]
      rintro ⟨k', sel, c, rfl, h3, -⟩
      rw [hk] at h3
      cases h3
    | some tag =>
      rw [hk] at h
      simp only [eval_bind_some] at h
      obtain ⟨o, _, _, h3, h, -⟩ := h
      obtain ⟨h3, -⟩ := eval_lift.1 h3
      have h3 := (firstChild_some hf hn 154).1 h3
      cases o with
      | none => cases h
      | some sel =>
        obtain ⟨h4, -⟩ := eval_lift.1 h
        obtain ⟨l', h5, h6⟩ := colorizeChild_mem hf (first_isNode hf h3) Ty.ident tag
        rw [h4, Option.some.injEq] at h5
        subst h5
        rw [h6]
        constructor
        · rintro ⟨rfl, c, h7, h8⟩
          cases k with
          | none => cases hk
          | some k => exact ⟨k, sel, c, rfl, hk, h3, h7, h8⟩
        · rintro ⟨k', sel', c, rfl, h7, h8, h9, h10⟩
          rw [hk, Option.some.injEq] at h7
          cases firstChild_unique h8 h3
          exact ⟨h7.symm, c, h9, h10⟩
  rw [if_neg (fun h => e4 (eq_of_beq h) : ¬ (ty == Ty.methodDef) = true)] at h
  have e4 : ¬ 153 = ty := fun h => e4 h.symm
  simp only [e4, false_and, false_or]
  by_cases e5 : ty = 140
  · subst e5
    rw [if_pos (show (140 == Ty.callExpr) = true from rfl), eval_bind_some] at h
    obtain ⟨(k : Option CallKind), _, _, h2, h, -⟩ := h
    obtain ⟨⟨_, h2⟩, -⟩ := eval_get.1 h2
    obtain ⟨name, args, g1, g2, g3⟩ := resolveCall_eval hf ((hty 140).2 rfl) h2
    rw [eval_bind_some] at h
    obtain ⟨a, _, _, k1, h, -⟩ := h
    rw [eval_bind_some] at h
    obtain ⟨b, _, _, k2, h, -⟩ := h
    rw [eval_bind_some] at h
    obtain ⟨c, _, _, k3, h, -⟩ := h
    obtain ⟨k1, -⟩ := eval_lift.1 k1
    obtain ⟨k2, -⟩ := eval_lift.1 k2
    obtain ⟨k3, -⟩ := eval_lift.1 k3
    cases (eval_pure.1 h).1
    obtain ⟨_, q1, m1⟩ := colorizeChild_mem hf hn Ty.ident (callTag k)
    obtain ⟨_, q2, m2⟩ := colorizeChild_mem hf hn Ty.lAngle (callTag k)
    obtain ⟨_, q3, m3⟩ := colorizeChild_mem hf hn Ty.rAngle (callTag k)
    rw [k1, Option.some.injEq] at q1
    rw [k2, Option.some.injEq] at q2
    rw [k3, Option.some.injEq] at q3
    subst q1 q2 q3
    rw [List.mem_append, List.mem_append, m1, m2, m3]
    simp only [true_and]
    constructor
    · rintro ((⟨rfl, c, p1, p2⟩ | ⟨rfl, c, p1, p2⟩) | ⟨rfl, c, p1, p2⟩)
      · exact ⟨name, args, k, _, 130, c, g1, g2, g3, rfl, by simp, p1, p2⟩
      · exact ⟨name, args, k, _, 123, c, g1, g2, g3, rfl, by simp, p1, p2⟩
      · exact ⟨name, args, k, _, 124, c, g1, g2, g3, rfl, by simp, p1, p2⟩
    · rintro ⟨name', args', k', ds', ty', c, p1, p2, p3, rfl, p4, p5, p6⟩
      cases childrenWith_unique hf hn p2 g2
      obtain ⟨rfl, -⟩ := callMeans_unique hf p3 g3 (labelled_unique p1 g1)
      simp only [List.mem_cons, List.not_mem_nil, or_false] at p4
      rcases p4 with rfl | rfl | rfl
      · exact .inl (.inl ⟨rfl, c, p5, p6⟩)
      · exact .inl (.inr ⟨rfl, c, p5, p6⟩)
      · exact .inr ⟨rfl, c, p5, p6⟩
  rw [if_neg (fun h => e5 (eq_of_beq h) : ¬ (ty == Ty.callExpr) = true)] at h
  have e5 : ¬ 140 = ty := fun h => e5 h.symm
  cases (eval_pure.1 h).1
  simp [e5]

/-- The spans of a node. -/
theorem coloured_mem {n : Nat} (hn : IsNode f n) {a b : List (TextRange × HlTag)} {ds : List Diagnostic}
    (ha : hlVisit f n = some a) (hb : Eval (analysisBody f) (hlSemantic f n) (some b) ds) (r : TextRange) (t : HlTag) :
    (r, t) ∈ a ++ b ↔ Coloured f n r t := by
  obtain ⟨a', ha', hm⟩ := hlVisit_mem hn
  rw [ha, Option.some.injEq] at ha'
  subst ha'
  rw [List.mem_append, hm, hlSemantic_mem hf hn hb]
  have hle := rng_valid hf.nodes hn
  constructor
  · rintro ((⟨h1, rfl, ⟨h2, h3⟩ | ⟨a, h2, rfl⟩⟩ | ⟨ty, h1, h2, h3⟩) | ⟨h1, rfl, c, h2, h3⟩ |
      ⟨⟨ty, h1, h2⟩, rfl, c, h3, h4⟩ | ⟨h1, h2, k, h3, rfl⟩ | ⟨h1, k, sel, c, h2, h3, h4, h5, h6⟩ |
      ⟨h1, name, args, k, ds, ty, c, h2, h3, h4, rfl, h5, h6, h7⟩)
    · refine .error h1 h2 ?_
      rw [range_rng hn, Option.some.injEq] at h2
      subst h2
      omega
    · exact .nothing h1 h2
    · exact .type h1 h2 h3
    · exact .token h1 h2 h3
    · exact .named h1 h2 h3 h4
    · exact .ref h1 h3 h2
    · cases k with
      | token => cases h3; exact .accessor h1 h2 h4 h5 h6
      | astNode => cases h3; exact .child h1 (.inl h2) h4 h5 h6
      | astClass => cases h3; exact .child h1 (.inr h2) h4 h5 h6
      | text => cases h3
    · rcases callMeans_builtin h4 with ⟨g1, g2, g3⟩ | ⟨g1, g2⟩
      · rw [g1]
        cases k with
        | none => exact absurd rfl g3
        | some k => exact .builtin h1 h2 h3 h4 g2 h5 h6 h7
      · rw [g1]
        exact .call h1 h2 h3 h4 g2 h5 h6 h7
  · intro h
    cases h with
    | error h1 h2 h3 => exact .inl (.inl ⟨h1, rfl, .inl ⟨h2, Nat.ne_of_lt h3⟩⟩)
    | nothing h1 h2 => exact .inl (.inl ⟨h1, rfl, .inr ⟨_, h2, rfl⟩⟩)
    | type h1 h2 h3 => exact .inl (.inr ⟨_, h1, h2, h3⟩)
    | token h1 h2 h3 => exact .inr (.inl ⟨h1, rfl, _, h2, h3⟩)
    | named h1 h2 h3 h4 => exact .inr (.inr (.inl ⟨⟨_, h1, h2⟩, rfl, _, h3, h4⟩))
    | ref h1 h2 h3 => exact .inr (.inr (.inr (.inl ⟨h1, h3, _, h2, rfl⟩)))
    | accessor h1 h2 h3 h4 h5 => exact .inr (.inr (.inr (.inr (.inl ⟨h1, _, _, _, h2, rfl, h3, h4, h5⟩))))
    | child h1 h2 h3 h4 h5 =>
      rcases h2 with h2 | h2
      · exact .inr (.inr (.inr (.inr (.inl ⟨h1, _, _, _, h2, rfl, h3, h4, h5⟩))))
      · exact .inr (.inr (.inr (.inr (.inl ⟨h1, _, _, _, h2, rfl, h3, h4, h5⟩))))
    | builtin h1 h2 h3 h4 h5 h6 h7 h8 =>
      refine .inr (.inr (.inr (.inr (.inr ⟨h1, _, _, _, _, _, _, h2, h3, h4, ?_, h6, h7, h8⟩))))
      rcases callMeans_builtin h4 with ⟨g1, -⟩ | ⟨-, g2 | g2⟩
      · exact g1.symm
      · exact absurd h5 g2
      · cases g2
    | call h1 h2 h3 h4 h5 h6 h7 h8 =>
      refine .inr (.inr (.inr (.inr (.inr ⟨h1, _, _, _, _, _, _, h2, h3, h4, ?_, h6, h7, h8⟩))))
      rcases callMeans_builtin h4 with ⟨-, g1, g2⟩ | ⟨g1, -⟩
      · rcases h5 with h5 | h5
        · exact absurd g1 h5
        · exact absurd h5 g2
      · exact g1.symm

theorem hlNodes_mem {ns : List Nat} (hns : ∀ n, n ∈ ns → IsNode f n) {l : List (TextRange × HlTag)}
    {ds : List Diagnostic} (h : Eval (analysisBody f) (hlNodes f ns) (some l) ds) (r : TextRange) (t : HlTag) :
    (r, t) ∈ l ↔ ∃ n, n ∈ ns ∧ Coloured f n r t := by
  induction ns generalizing l ds with
  | nil =>
    cases (eval_pure.1 h).1
    simp
  | cons n ns ih =>
    unfold hlNodes at h
    rw [eval_bind_some] at h
    obtain ⟨a, _, _, h1, h, -⟩ := h
    obtain ⟨h1, -⟩ := eval_lift.1 h1
    rw [eval_bind_some] at h
    obtain ⟨b, _, _, h2, h, -⟩ := h
    rw [eval_bind_some] at h
    obtain ⟨c, _, _, h3, h, -⟩ := h
    cases (eval_pure.1 h).1
    rw [List.mem_append, coloured_mem hf (hns n (by simp)) h1 h2, ih (fun m hm => hns m (by simp [hm])) h3]
    simp

variable (hs : Shaped f)
include hs

theorem hlSemantic_safe {n : Nat} (hn : IsNode f n) (hp : ¬ (OfType f 153 n ∧ NamelessItem f n)) :
    Safe (analysisBody f) (hlSemantic f n) := by
  have child : ∀ {n : Nat} (hn : IsNode f n) (ty : NodeType) (tag : HlTag),
      Safe (analysisBody f) (lift (colorizeChild f n ty tag)) := by
    intro n hn ty tag
    obtain ⟨l, h, -⟩ := colorizeChild_mem hf hn ty tag
    exact safe_lift (by simp [h])
  unfold hlSemantic
  refine safe_bind (safe_lift (by simp [ty_dat hn])) fun ty _ hty => ?_
  obtain ⟨hty, -⟩ := eval_lift.1 hty
  split
  · exact child hn _ _
  split
  · exact child hn _ _
  split
  · rename_i e
    have ht : OfType f 135 n := hty.trans (congrArg some (eq_of_beq e))
    refine safe_bind (safe_get (safe_resolveRef hf hs ht)) fun k _ hk => ?_
    split
    · exact safe_pure _
    · exact safe_bind (safe_lift (by simp [range_rng hn])) fun _ _ _ => safe_pure _
  split
  · rename_i e
    have ht : OfType f 153 n := hty.trans (congrArg some (eq_of_beq e))
    have hm : Safe (analysisBody f) (resolveMethod f n) :=
      fun ds h => hp ⟨ht, (resolveMethod_none hf hs ht).1 ⟨ds, h⟩⟩
    refine safe_bind (safe_get hm) fun k _ hk => ?_
    split
    · exact safe_pure _
    · obtain ⟨sel, s, h1, -⟩ := hs.method n ht
      have hsel := (firstChild_some hf hn 154 (o := some sel)).2 h1
      refine safe_bind (safe_lift (by rw [show f.firstChild (· == Ty.astSelector) n = some (some sel) from hsel]; simp))
        fun o _ ho => ?_
      obtain ⟨ho, -⟩ := eval_lift.1 ho
      rw [show f.firstChild (· == Ty.astSelector) n = some (some sel) from hsel, Option.some.injEq] at ho
      subst ho
      exact child (first_isNode hf h1) _ _
  split
  · rename_i e
    have ht : OfType f 140 n := hty.trans (congrArg some (eq_of_beq e))
    exact safe_bind (safe_get (safe_resolveCall hf hs ht)) fun _ _ _ => safe_bind (child hn _ _) fun _ _ _ =>
      safe_bind (child hn _ _) fun _ _ _ => safe_bind (child hn _ _) fun _ _ _ => safe_pure _
  · exact safe_pure _

theorem hlSemantic_panic {n : Nat} :
    OfType f 153 n → NamelessItem f n → ∃ ds, Eval (analysisBody f) (hlSemantic f n) none ds := by
  intro ht hp
  obtain ⟨ds, h⟩ := (resolveMethod_none hf hs ht).2 hp
  unfold hlSemantic
  refine ⟨[], eval_bind_any.2 (.inl ⟨153, [], [], eval_lift.2 ⟨ht, rfl⟩, ?_, rfl⟩)⟩
  exact eval_bind_any.2 (.inr ⟨rfl, eval_get.2 ⟨⟨ds, h⟩, rfl⟩⟩)

theorem hlNodes_panic {ns : List Nat} (hns : ∀ n, n ∈ ns → IsNode f n) :
    (∃ ds, Eval (analysisBody f) (hlNodes f ns) none ds) ↔ ∃ n, n ∈ ns ∧ OfType f 153 n ∧ NamelessItem f n := by
  induction ns with
  | nil =>
    constructor
    · rintro ⟨ds, h⟩
      cases (eval_pure.1 h).1
    · simp
  | cons n ns ih =>
    obtain ⟨a, ha, -⟩ := hlVisit_mem (f := f) (hns n (by simp))
    have ih := ih fun m hm => hns m (by simp [hm])
    unfold hlNodes
    constructor
    · rintro ⟨ds, h⟩
      rw [eval_bind_any] at h
      rcases h with ⟨_, _, _, -, h, -⟩ | ⟨-, h⟩
      · rw [eval_bind_any] at h
        rcases h with ⟨_, _, _, -, h, -⟩ | ⟨-, h⟩
        · rw [eval_bind_any] at h
          rcases h with ⟨_, _, _, -, h, -⟩ | ⟨-, h⟩
          · cases (eval_pure.1 h).1
          · obtain ⟨m, hm, h2⟩ := ih.1 ⟨_, h⟩
            exact ⟨m, by simp [hm], h2⟩
        · refine ⟨n, by simp, ?_⟩
          refine Classical.byContradiction fun hno => ?_
          exact hlSemantic_safe hf hs (hns n (by simp)) hno _ h
      · rw [(eval_lift.1 h).1] at ha
        cases ha
    · rintro ⟨m, hm, h1, h2⟩
      by_cases hp : OfType f 153 n ∧ NamelessItem f n
      · obtain ⟨ds, h⟩ := hlSemantic_panic hf hs hp.1 hp.2
        exact ⟨ds, eval_bind_any.2 (.inl ⟨a, [], ds, eval_lift.2 ⟨ha, rfl⟩, eval_bind_any.2 (.inr ⟨rfl, h⟩), rfl⟩)⟩
      · have hm : m ∈ ns := by
          rcases List.mem_cons.1 hm with rfl | hm
          · exact absurd ⟨h1, h2⟩ hp
          · exact hm
        obtain ⟨ds, h⟩ := ih.2 ⟨m, hm, h1, h2⟩
        obtain ⟨o, ds', hb⟩ := ends_all (f := f) (hlSemantic f n)
        cases o with
        | none => exact absurd hb (hlSemantic_safe hf hs (hns n (by simp)) hp ds')
        | some b =>
          exact ⟨ds' ++ ds, eval_bind_any.2 (.inl ⟨a, [], ds' ++ ds, eval_lift.2 ⟨ha, rfl⟩,
            eval_bind_any.2 (.inl ⟨b, ds', ds, hb, eval_bind_any.2 (.inr ⟨rfl, h⟩), rfl⟩), rfl⟩)⟩

end

end Fall
