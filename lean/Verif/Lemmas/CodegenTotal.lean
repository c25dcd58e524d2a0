import Verif.Lemmas.CodegenUnique
import Verif.Lemmas.AnalysisSafe

/-! When the parser generator succeeds. -/

namespace Fall

open Spec AProg

/-- The generator succeeds from all expressions, pushes, and its result has the property. -/
def Works (f : File UInt8) (m : Gen α) (P : α → Prop) : Prop :=
  ∀ es, ∃ a es', Gives f m es a es' ∧ es.length ≤ es'.length ∧ P a

section
variable {f : File UInt8}

theorem works_bind {m : Gen α} {k : α → Gen β} {P : α → Prop} {Q : β → Prop} (h : Works f m P)
    (hk : ∀ a, P a → Works f (k a) Q) : Works f (m >>= k) Q := by
  intro es
  obtain ⟨a, es1, h1, l1, p⟩ := h es
  obtain ⟨b, es2, h2, l2, q⟩ := hk a p es1
  exact ⟨b, es2, gives_bind.2 ⟨a, es1, h1, h2⟩, Nat.le_trans l1 l2, q⟩

theorem works_pure {a : α} {P : α → Prop} (h : P a) : Works f (pure a) P :=
  fun es => ⟨a, es, gives_pure.2 ⟨rfl, rfl⟩, Nat.le_refl _, h⟩

theorem works_lift {x : Option α} {a : α} {P : α → Prop} (hx : x = some a) (h : P a) : Works f (Gen.lift x) P :=
  fun es => ⟨a, es, gives_lift.2 ⟨hx, rfl⟩, Nat.le_refl _, h⟩

theorem works_okOr {x : Option α} {a : α} {P : α → Prop} (hx : x = some a) (h : P a) : Works f (Gen.okOr x) P :=
  fun es => ⟨a, es, gives_okOr.2 ⟨hx, rfl⟩, Nat.le_refl _, h⟩

theorem works_get {q : Query} {v : Value q} {P : Value q → Prop} {ds : List Diagnostic}
    (h : Eval (analysisBody f) (analysisBody f q) (some v) ds) (hv : P v) : Works f (Gen.get q) P :=
  fun es => ⟨v, es, gives_get.2 ⟨⟨_, h⟩, rfl⟩, Nat.le_refl _, hv⟩

theorem works_push {e : Expr} : Works f (Gen.push e) fun _ => True :=
  fun es => ⟨_, _, gives_push.2 ⟨rfl, rfl⟩, by simp, trivial⟩

theorem works_each {g : α → Gen β} {xs : List α} (h : ∀ x ∈ xs, Works f (g x) fun _ => True) :
    Works f (Gen.each g xs) fun _ => True := by
  induction xs with
  | nil => exact works_pure trivial
  | cons x xs ih =>
    exact works_bind (h x (by simp)) fun _ _ => works_bind (ih fun y hy => h y (by simp [hy])) fun _ _ =>
      works_pure trivial

theorem Works.imp {m : Gen α} {P Q : α → Prop} (h : Works f m P) (hi : ∀ a, P a → Q a) : Works f m Q := by
  intro es
  obtain ⟨a, es', h1, h2, h3⟩ := h es
  exact ⟨a, es', h1, h2, hi a h3⟩

theorem filterOpt_total {p : α → Option Bool} {xs : List α} (h : ∀ x ∈ xs, ∃ b, p x = some b) :
    ∃ ys, filterOpt p xs = some ys := by
  induction xs with
  | nil => exact ⟨_, rfl⟩
  | cons x xs ih =>
    obtain ⟨b, hb⟩ := h x (by simp)
    obtain ⟨ys, hy⟩ := ih fun y hy => h y (by simp [hy])
    simp [filterOpt, hb, hy]

theorem positionOpt_total {p : α → Option Bool} {xs : List α} (h : ∀ x ∈ xs, ∃ b, p x = some b) :
    ∃ o, positionOpt p xs = some o := by
  induction xs with
  | nil => exact ⟨_, rfl⟩
  | cons x xs ih =>
    obtain ⟨b, hb⟩ := h x (by simp)
    obtain ⟨o, ho⟩ := ih fun y hy => h y (by simp [hy])
    cases b <;> simp [positionOpt, hb, ho]

theorem mapM_some_total {g : α → Option β} {xs : List α} (h : ∀ x ∈ xs, ∃ b, g x = some b) : ∃ ys, xs.mapM g = some ys := by
  induction xs with
  | nil => exact ⟨_, rfl⟩
  | cons x xs ih =>
    obtain ⟨b, hb⟩ := h x (by simp)
    obtain ⟨ys, hy⟩ := ih fun y hy => h y (by simp [hy])
    simp [List.mapM_cons, hb, hy]

/-- What stands for the expression has a meaning. -/
def Stood (f : File UInt8) (n : Nat) : Prop := ∃ m, Target f n m ∧ (OfType f 132 m ∨ Meaningful f m)

theorem Spec.Meaningful.parts {n : Nat} (h : Meaningful f n) :
    ∃ e, Says f n e ∧ ∀ m ∈ references e, OfType f 132 m ∨ Meaningful f m := by
  obtain ⟨h1, h2⟩ := h
  exact ⟨_, h1, fun m hm => (Classical.em _).imp id (h2 m hm)⟩

variable (hf : ConsistentFile f) (hs : Shaped f)
include hf hs

theorem hasAttr_total {r : Nat} (hn : IsNode f r) (name : List UInt8) : ∃ b, f.hasAttr r name = some b := by
  obtain ⟨o, ho⟩ := attributesOf_total hf hn
  cases o with
  | none => exact ⟨false, by simp [File.hasAttr, ho]⟩
  | some l =>
    obtain ⟨o, h, -⟩ := findAttr_total hf hs (name := name) (attributesOf_typed hf hn ho)
    simp [File.hasAttr, ho, h]

theorem typeAttr_total {r : Nat} (hn : IsNode f r) : ∃ b, f.typeAttr r = some b := by
  obtain ⟨o, ho⟩ := attributesOf_total hf hn
  cases o with
  | none => exact ⟨none, by simp [File.typeAttr, ho]⟩
  | some l =>
    obtain ⟨o, h, -⟩ := findAttr_total hf hs (name := ascii "type") (attributesOf_typed hf hn ho)
    simp [File.typeAttr, ho, h]

theorem namesType_total {r : Nat} (hn : IsNode f r) : ∃ b, f.namesType r = some b := by
  obtain ⟨o, ho⟩ := childOfType_total hf hn Ty.pub
  obtain ⟨b, hb⟩ := typeAttr_total hf hs hn
  cases o with
  | none => exact ⟨false, by simp [File.namesType, ho]⟩
  | some _ => exact ⟨b.isNone, by simp [File.namesType, ho, hb]⟩

theorem genTypes_total : ∃ types, f.genTypes = some types := by
  obtain ⟨ls, h1, h1'⟩ := lexRules_total hf
  obtain ⟨rs, h2, h2'⟩ := synRules_total hf
  obtain ⟨tokens, h3⟩ := mapM_some_total (xs := ls)
    (g := fun r => do return ((← f.lexNodeType r), (← f.hasAttr r (ascii "skip")))) (by
      intro r hr
      obtain ⟨s, hi⟩ := hs.ident hf (by simp) (h1' r hr)
      obtain ⟨b, hb⟩ := hasAttr_total hf hs (ofType_isNode (h1' r hr)) (ascii "skip")
      exact ⟨(s, b), by simp [File.lexNodeType, hi, hb]⟩)
  obtain ⟨named, h4⟩ := filterOpt_total (xs := rs) (p := f.namesType) fun r hr => namesType_total hf hs (h2' r hr)
  obtain ⟨names, h5⟩ := mapM_some_total (xs := named) (g := f.ruleName) (by
    intro r hr
    obtain ⟨-, rfl⟩ := filterOpt_some h4
    exact ruleName_total hf (h2' r (List.mem_filter.1 hr).1))
  simp only [File.genTypes, h1, h2, Option.bind_eq_bind, Option.bind_some]
  simp only [Option.bind_eq_bind] at h3
  rw [h3]
  simp [h4, h5]

theorem resolveRef_total {n : Nat} (hn : OfType f 135 n) :
    ∃ v ds, Eval (analysisBody f) (analysisBody f (.resolveRef n)) (some v) ds ∧ RefersTo f n v := by
  obtain ⟨o, ds, h⟩ := ends_query (f := f) (.resolveRef n)
  cases o with
  | none => exact absurd h (safe_resolveRef hf hs hn ds)
  | some v =>
    obtain ⟨s, rule, r1, r2, r3, -⟩ := resolveRef_eval hf (ofType_isNode hn) h
    exact ⟨v, ds, h, s, rule, r1, r2, r3⟩

theorem resolveCall_total {n : Nat} (hn : OfType f 140 n) :
    ∃ v ds, Eval (analysisBody f) (analysisBody f (.resolveCall n)) (some v) ds ∧
      ∃ name args, Ident f n name ∧ ChildrenWith f n (IsExpr f) args ∧ CallMeans f n args name v ds := by
  obtain ⟨o, ds, h⟩ := ends_query (f := f) (.resolveCall n)
  cases o with
  | none => exact absurd h (safe_resolveCall hf hs hn ds)
  | some v => exact ⟨v, ds, h, resolveCall_eval hf hn h⟩

theorem prattVariant_total {r : Nat} (hr : OfType f 132 r) {k : PrattVariant} {ds : List Diagnostic}
    (h : OperatorMeans f r (some k) ds) : Eval (analysisBody f) (analysisBody f (.prattVariant r)) (some (some k)) ds := by
  have hn := ofType_isNode hr
  have hb : ¬ Bodyless f r := by
    rintro ⟨-, -, hno⟩
    cases h <;> exact hno _ ‹FirstChild f r (IsExpr f) _›
  obtain ⟨o, ds', h'⟩ := ends_query (f := f) (.prattVariant r)
  cases o with
  | none => exact absurd h' (safe_prattVariant hf hs hn hb ds')
  | some v =>
    have h1 : OperatorMeans f r v ds' := prattVariant_eval hf hn h'
    obtain ⟨rfl, rfl⟩ := operatorMeans_unique hf h1 h
    exact h'

omit hs in
theorem works_synRuleRef {r : Nat} (hc : Child f 0 r) (hr : OfType f 132 r) :
    Works f (synRuleRef f r) fun _ => True := by
  obtain ⟨rs, h, -⟩ := synRules_total hf
  obtain ⟨all, h1, h2, h3⟩ := synRules_children hf h
  obtain ⟨cs, h4, h5⟩ := hc
  rw [h1, Option.some.injEq] at h4
  subst h4
  have hm : r ∈ rs := (h3 r h5).2 hr
  cases hi : rs.findIdx? (· == r) with
  | none =>
    rw [List.findIdx?_eq_none_iff] at hi
    have := hi r hm
    simp at this
  | some i => exact works_lift (a := i) (by simp [h, hi]) trivial

theorem works_synRuleTy {types : List (List UInt8 × Bool)} (ht : f.genTypes = some types) {r : Nat} (hr : OfType f 132 r) :
    Works f (synRuleTy f types r) fun o => ∀ k, o = some k ↔ RuleType f r k := by
  intro es
  have hn := ofType_isNode hr
  obtain ⟨o, ho⟩ := tyName_total hf hs hn
  have h : Gives f (synRuleTy f types r) es (o.bind (typeNumber types)) es := by
    unfold synRuleTy
    rw [gives_bind]
    exact ⟨o, es, gives_lift.2 ⟨ho, rfl⟩, gives_pure.2 ⟨rfl, rfl⟩⟩
  exact ⟨_, es, h, Nat.le_refl _, (synRuleTy_gives hf ht hn h).2⟩

omit hs in
theorem works_paramRef {p i : Nat} (h : ParamNumber f p i) : Works f (paramRef f p) fun _ => True := by
  obtain ⟨rs, pss, h1, h2, h3⟩ := h
  obtain ⟨rs', h, hrs⟩ := synRules_total hf
  have e := childrenWith_unique hf (zero_isNode hf) h1 (synRules_children hf h)
  subst e
  obtain ⟨params, hp⟩ := mapM_some_total (xs := rs) (g := f.ruleParams) fun r hr => ruleParams_total hf (hrs r hr)
  have hflat : (params.filterMap id).flatten = pss.flatten := by
    clear h3 h1 h
    induction h2 generalizing params with
    | nil =>
      simp only [List.mapM_nil, Option.pure_def, Option.some.injEq] at hp
      subst hp
      rfl
    | @cons r ps rs pss h2 _ ih =>
      simp only [List.mapM_cons, Option.bind_eq_bind, Option.bind_eq_some_iff, Option.pure_def, Option.some.injEq]
        at hp
      obtain ⟨o, ho, os, hos, rfl⟩ := hp
      have e := paramsOf_unique hf (ruleParams_of hf (hrs r (by simp)) ho) h2
      have := ih (fun r hr => hrs r (by simp [hr])) os hos
      cases o with
      | none =>
        simp only [Option.getD_none] at e
        subst e
        simpa using this
      | some o =>
        simp only [Option.getD_some] at e
        subst e
        simpa using this
  have hm : p ∈ (params.filterMap id).flatten := by
    rw [hflat]
    exact List.mem_of_getElem? h3
  cases hi : (params.filterMap id).flatten.findIdx? (· == p) with
  | none =>
    rw [List.findIdx?_eq_none_iff] at hi
    have := hi p hm
    simp at this
  | some j => exact works_lift (a := j) (by simp [h, hp, hi]) trivial

omit hs in
theorem ruleNamed_child {s : List UInt8} {r : Nat} (h : RuleNamed f s r) : Child f 0 r ∧ OfType f 132 r :=
  ⟨(firstChild_child h).1, (firstChild_child h).2.1⟩

omit hs in
theorem refersTo_child {n r : Nat} (h : RefersTo f n (some (.rule r))) : Child f 0 r ∧ OfType f 132 r := by
  obtain ⟨s, rule, -, -, -, h⟩ := h
  exact ruleNamed_child hf h

omit hs in
theorem isCommit_total {p : Nat} (hn : IsNode f p) : ∃ b, f.isCommit p = some b := by
  obtain ⟨s, h⟩ := textOf_some hf hn
  simp [File.isCommit, h]

omit hs in
theorem childrenWith_astChildren {n : Nat} (hn : IsNode f n) {cs : List Nat} (h : ChildrenWith f n (IsExpr f) cs) :
    f.astChildren isFallExpr n = some cs := by
  have e := astChildren_eq hf hn isFallExpr
  rw [e, childrenWith_unique hf hn h (childrenWith_expr hf hn e)]

omit hf hs in
theorem pointwise_stood {xs ts : List Nat} (h : Pointwise (Target f) xs ts)
    (hm : ∀ m ∈ ts, OfType f 132 m ∨ Meaningful f m) : ∀ x ∈ xs, Stood f x := by
  induction h with
  | nil => simp
  | cons h1 _ ih =>
    intro x hx
    rcases List.mem_cons.1 hx with rfl | hx
    · exact ⟨_, h1, hm _ (by simp)⟩
    · exact ih (fun m h => hm m (by simp [h])) x hx

omit hs in
theorem ident_isNode {n : Nat} {s : List UInt8} (h : Ident f n s) : IsNode f n := by
  obtain ⟨c, hc, -⟩ := h
  exact (child_parent hf (firstChild_child hc).1).1

omit hf hs in
/-- The generator of expressions works for all expressions behind `lo`. -/
def RecWorks (f : File UInt8) (lo : Nat) (rec : Nat → Gen Nat) : Prop :=
  ∀ n, lo < n → IsExpr f n → Stood f n → Works f (rec n) fun _ => True

theorem works_genToken {types : List (List UInt8 × Bool)} (ht : f.genTypes = some types) {t : Nat} (htn : IsNode f t)
    {s : List UInt8} {k : Nat} (hi : Ident f t s) (hk : TypeNumber f s k)
    (h : (∀ a, ¬ Attribute f t "contextual" a) ∨
      ∃ lit text, Labelled f t 147 lit ∧ (∀ q, lit ≠ 114 :: q) ∧ Quoted lit text) :
    Works f (genToken f types t) fun _ => True := by
  unfold genToken
  have h1 := (ident_iff hf htn).2 hi
  have h2 := (typeNumber_iff hf ht).2 hk
  refine works_bind (works_lift (a := k) (P := fun _ => True) (by simp [File.lexNodeType, h1, h2]) trivial) fun _ _ => ?_
  obtain ⟨b, hb⟩ := hasAttr_total hf hs htn (ascii "contextual")
  refine works_bind (works_lift (P := fun b' => b' = b) hb rfl) fun b' e => ?_
  cases e
  have hb := hasAttr_eval hf htn hb
  cases b with
  | false => exact works_pure trivial
  | true =>
    rcases h with h | ⟨lit, text, ⟨c, hc, hc'⟩, hl, hq⟩
    · obtain ⟨a, ha⟩ := hb.1 rfl
      exact absurd ha (h a)
    · simp only [if_true]
      have hno : startsWithByte 114 lit = false := by
        cases lit with
        | nil => rfl
        | cons x lit =>
          have := hl lit
          simp only [ne_eq, List.cons.injEq, and_true] at this
          simp [startsWithByte, this]
      refine works_bind (works_lift (a := some text) (P := fun o => o = some text) ?_ rfl) ?_
      · have hc := (childOfType_some hf htn 147 (o := some c)).2 hc
        simp [File.tokenText, hc, hc', hno, litBody_iff.2 hq, Ty.string]
      · rintro _ rfl
        exact works_bind (works_okOr (P := fun _ => True) rfl trivial) fun _ _ => works_pure trivial

omit hf hs in
theorem zip_pointwise {args args' : List (Nat × Nat)}
    (h : Pointwise (fun pe it => ParamNumber f pe.1 it.1 ∧ Target f pe.2 it.2) args args')
    (hm : ∀ m ∈ args'.map (·.2), OfType f 132 m ∨ Meaningful f m) :
    ∀ pe ∈ args, (∃ i, ParamNumber f pe.1 i) ∧ Stood f pe.2 := by
  induction h with
  | nil => simp
  | cons h1 _ ih =>
    intro x hx
    rcases List.mem_cons.1 hx with rfl | hx
    · exact ⟨⟨_, h1.1⟩, _, h1.2, hm _ (by simp)⟩
    · exact ih (fun m h => hm m (List.mem_cons_of_mem _ h)) x hx

omit hf hs in
theorem prevIs_pointwise {rs ks : List Nat} (h : Pointwise (RuleType f) rs ks) : ∀ r ∈ rs, ∃ k, RuleType f r k := by
  induction h with
  | nil => simp
  | cons h1 _ ih =>
    intro x hx
    rcases List.mem_cons.1 hx with rfl | hx
    · exact ⟨_, h1⟩
    · exact ih x hx

theorem works_genCall {types : List (List UInt8 × Bool)} (ht : f.genTypes = some types) {rec : Nat → Gen Nat} {n : Nat}
    (hrec : RecWorks f n rec) {k : CallKind} {args : List Nat} {name : List UInt8} {ds : List Diagnostic}
    (hargs : ChildrenWith f n (IsExpr f) args) (hk : CallMeans f n args name (some k) ds) {e : Expr}
    (h : CallSays f k e) (hm : ∀ m ∈ references e, OfType f 132 m ∨ Meaningful f m) :
    Works f (genCall f types rec k) fun _ => True := by
  have hpart : ∀ x ∈ callParts k, n < x ∧ IsExpr f x := by
    intro x hx
    have h := childrenWith_mem hargs x (callMeans_parts hk x hx)
    exact ⟨(child_spec hf.nodes h.1).1, h.2⟩
  have one : ∀ {x t : Nat}, x ∈ callParts k → Target f x t → t ∈ references e → Works f (rec x) fun _ => True :=
    fun hx ht hr => hrec _ (hpart _ hx).1 (hpart _ hx).2 ⟨_, ht, hm _ hr⟩
  cases h with
  | eof => exact works_pure trivial
  | any => exact works_pure trivial
  | isIn => exact works_pure trivial
  | not h =>
    exact works_bind (one (by simp [callParts]) h (by simp [references])) fun _ _ => works_pure trivial
  | enter h =>
    exact works_bind (one (by simp [callParts]) h (by simp [references])) fun _ _ => works_pure trivial
  | exit h =>
    exact works_bind (one (by simp [callParts]) h (by simp [references])) fun _ _ => works_pure trivial
  | layer h h' =>
    exact works_bind (one (by simp [callParts]) h (by simp [references])) fun _ _ =>
      works_bind (one (by simp [callParts]) h' (by simp [references])) fun _ _ => works_pure trivial
  | withSkip h h' =>
    exact works_bind (one (by simp [callParts]) h (by simp [references])) fun _ _ =>
      works_bind (one (by simp [callParts]) h' (by simp [references])) fun _ _ => works_pure trivial
  | inject h h' =>
    exact works_bind (one (by simp [callParts]) h (by simp [references])) fun _ _ =>
      works_bind (one (by simp [callParts]) h' (by simp [references])) fun _ _ => works_pure trivial
  | @prevIs rs ks h =>
    have hp := prevIs_pointwise h
    have hr : ∀ r ∈ rs, OfType f 132 r := by
      cases hk with
      | prevIs h _ => exact publicRefs_rules h
    refine works_bind (works_each fun r hrm => ?_) fun _ _ => works_pure trivial
    refine works_bind (works_synRuleTy hf hs ht (hr r hrm)) fun o ho => ?_
    obtain ⟨k, hk⟩ := hp r hrm
    exact works_lift ((ho k).2 hk) trivial
  | @rule args args' r h =>
    have hz := zip_pointwise h fun m hm' => hm m (by simp only [references]; exact List.mem_cons_of_mem _ hm')
    have hr : Child f 0 r ∧ OfType f 132 r := by
      cases hk with
      | rule _ => exact ruleNamed_child hf ‹RuleNamed f _ _›
    refine works_bind (works_synRuleRef hf hr.1 hr.2) fun _ _ => ?_
    refine works_bind (works_each fun pe hpe => ?_) fun _ _ => works_pure trivial
    obtain ⟨⟨i, hi⟩, hst⟩ := hz pe hpe
    have hx := hpart pe.2 (by
      simp only [callParts, List.mem_map]
      exact ⟨pe, hpe, rfl⟩)
    exact works_bind (works_paramRef hf hi) fun _ _ => works_bind (hrec pe.2 hx.1 hx.2 hst) fun _ _ => works_pure trivial

theorem works_genExpr {types : List (List UInt8 × Bool)} (ht : f.genTypes = some types) (fuel : Nat) :
    ∀ n, f.nodes.length ≤ fuel + n → IsExpr f n → Stood f n →
      Works f (genExpr f types fuel n) fun _ => True := by
  induction fuel with
  | zero =>
    intro n hn he
    obtain ⟨ty, he, -⟩ := he
    have : n < f.nodes.length := ofType_isNode (show OfType f ty n from he)
    omega
  | succ fuel ih =>
    intro n hlen hexpr hst
    have hrec : RecWorks f n (genExpr f types fuel) := fun m hm he hs => ih m (by omega) he hs
    obtain ⟨ty, hty, hex⟩ := hexpr
    have hn : IsNode f n := ofType_isNode (show OfType f ty n from hty)
    unfold genExpr
    refine works_bind (works_lift (P := fun t => t = ty) hty rfl) ?_
    rintro _ rfl
    rename_i ty
    have hty : OfType f ty n := hty
    have hcases : ty = 135 ∨ ty = 136 ∨ ty = 137 ∨ ty = 138 ∨ ty = 139 ∨ ty = 140 := by
      have : 135 ≤ ty ∧ ty ≤ 140 := by simpa [FallExpr] using hex
      have h : ∀ t : Nat, 135 ≤ t ∧ t ≤ 140 → t = 135 ∨ t = 136 ∨ t = 137 ∨ t = 138 ∨ t = 139 ∨ t = 140 := by omega
      exact h ty this
    have self : ty ≠ 135 → Meaningful f n := by
      intro hne
      obtain ⟨m, h1, h2⟩ := hst
      rcases h1 with ⟨h1, -⟩ | ⟨-, rfl⟩
      · exact absurd h1 fun h => clash h hty (Ne.symm hne)
      · rcases h2 with h2 | h2
        · exfalso
          rcases hcases with rfl | rfl | rfl | rfl | rfl | rfl <;> exact clash h2 hty (by decide)
        · exact h2
    rcases hcases with rfl | rfl | rfl | rfl | rfl | rfl
    · -- ref
      simp only [show ((135 : NodeType) == Ty.blockExpr) = false by decide,
        show ((135 : NodeType) == Ty.seqExpr) = false by decide, show ((135 : NodeType) == Ty.refExpr) = true by decide,
        if_true, Bool.false_eq_true, if_false]
      obtain ⟨v, ds, h1, h2⟩ := resolveRef_total hf hs hty
      refine works_bind (works_get (P := fun v' => v' = v) h1 rfl) ?_
      rintro _ rfl
      obtain ⟨m, h3, h4⟩ := hst
      rcases h3 with ⟨-, h3⟩ | ⟨h3, rfl⟩
      · have e := refersTo_unique hf h2 h3
        subst e
        obtain ⟨c1, c2⟩ := refersTo_child hf h3
        exact works_synRuleRef hf c1 c2
      · have h4 : Meaningful f m := by
          rcases h4 with h4 | h4
          · exact (clash h4 hty (by decide)).elim
          · exact h4
        obtain ⟨_, hsay, -⟩ := h4.parts
        cases hsay with
        | token _ q1 q2 q3 q4 =>
          have e := refersTo_unique hf h2 q1
          subst e
          exact works_bind (works_genToken hf hs ht (ident_isNode hf q2) q2 q3 (.inl q4)) fun _ _ => works_push
        | contextual _ q1 q2 q3 q4 q5 q6 q7 =>
          have e := refersTo_unique hf h2 q1
          subst e
          exact works_bind (works_genToken hf hs ht (ident_isNode hf q2) q2 q3 (.inr ⟨_, _, q5, q6, q7⟩)) fun _ _ => works_push
        | param _ q1 q2 =>
          have e := refersTo_unique hf h2 q1
          subst e
          exact works_bind (works_paramRef hf q2) fun _ _ => works_push
        | _ => other_type hty
    · -- seq
      simp only [show ((136 : NodeType) == Ty.blockExpr) = false by decide,
        show ((136 : NodeType) == Ty.seqExpr) = true by decide, if_true, Bool.false_eq_true, if_false]
      obtain ⟨_, hsay, hrefs⟩ := (self (by decide)).parts
      obtain ⟨parts, c, kept, ts, p1, p2, p3, p4, rfl⟩ := says_seq hsay hty
      refine works_bind (works_lift (P := fun ps => ps = parts) (childrenWith_astChildren hf hn p1) rfl) ?_
      rintro _ rfl
      rename_i parts
      have hnode : ∀ p ∈ parts, ∃ b, f.isCommit p = some b := fun p hp =>
        isCommit_total hf (child_isNode hf (childrenWith_mem p1 p hp).1)
      obtain ⟨o, ho⟩ := positionOpt_total hnode
      obtain ⟨kept', hk⟩ := filterOpt_total (p := fun p => (f.isCommit p).map (!·)) (xs := parts) fun p hp => by
        obtain ⟨b, hb⟩ := hnode p hp
        exact ⟨!b, by simp [hb]⟩
      refine works_bind (works_lift (P := fun _ => True) ho trivial) fun _ _ => ?_
      refine works_bind (works_lift (P := fun k => k = kept') hk rfl) ?_
      rintro _ rfl
      have e := childrenWith_unique hf hn p3 (kept_parts p1 hk)
      subst e
      have hstood := pointwise_stood p4 fun m hm => hrefs m (by simpa [references] using hm)
      refine works_bind (works_each fun x hx => ?_) fun _ _ => works_push
      have hc := childrenWith_mem p3 x hx
      exact hrec x (child_spec hf.nodes hc.1).1 hc.2.1 (hstood x hx)
    · -- block
      simp only [show ((137 : NodeType) == Ty.blockExpr) = true by decide, if_true]
      obtain ⟨_, hsay, hrefs⟩ := (self (by decide)).parts
      obtain ⟨alts, ts, p1, p4, rfl⟩ := says_block hsay hty
      refine works_bind (works_lift (P := fun ps => ps = alts) (childrenWith_astChildren hf hn p1) rfl) ?_
      rintro _ rfl
      have hstood := pointwise_stood p4 fun m hm => hrefs m (by simpa [references] using hm)
      refine works_bind (works_each fun x hx => ?_) fun _ _ => works_push
      have hc := childrenWith_mem p1 x hx
      exact hrec x (child_spec hf.nodes hc.1).1 hc.2 (hstood x hx)
    · -- opt
      simp only [show ((138 : NodeType) == Ty.blockExpr) = false by decide,
        show ((138 : NodeType) == Ty.seqExpr) = false by decide, show ((138 : NodeType) == Ty.refExpr) = false by decide,
        show ((138 : NodeType) == Ty.callExpr) = false by decide, show ((138 : NodeType) == Ty.optExpr) = true by decide,
        if_true, Bool.false_eq_true, if_false]
      obtain ⟨_, hsay, hrefs⟩ := (self (by decide)).parts
      obtain ⟨b, t, p1, p2, rfl⟩ := says_opt hsay hty
      refine works_bind (works_lift (P := fun b' => b' = b) ((ruleBody_iff hf hn).2 p1) rfl) ?_
      rintro _ rfl
      have hc := firstChild_child p1
      exact works_bind (hrec _ (child_spec hf.nodes hc.1).1 hc.2 ⟨t, p2, hrefs t (by simp [references])⟩) fun _ _ =>
        works_push
    · -- rep
      simp only [show ((139 : NodeType) == Ty.blockExpr) = false by decide,
        show ((139 : NodeType) == Ty.seqExpr) = false by decide, show ((139 : NodeType) == Ty.refExpr) = false by decide,
        show ((139 : NodeType) == Ty.callExpr) = false by decide, show ((139 : NodeType) == Ty.optExpr) = false by decide,
        show ((139 : NodeType) == Ty.repExpr) = true by decide,
        if_true, Bool.false_eq_true, if_false]
      obtain ⟨_, hsay, hrefs⟩ := (self (by decide)).parts
      obtain ⟨b, t, p1, p2, rfl⟩ := says_rep hsay hty
      refine works_bind (works_lift (P := fun b' => b' = b) ((ruleBody_iff hf hn).2 p1) rfl) ?_
      rintro _ rfl
      have hc := firstChild_child p1
      exact works_bind (hrec _ (child_spec hf.nodes hc.1).1 hc.2 ⟨t, p2, hrefs t (by simp [references])⟩) fun _ _ =>
        works_push
    · -- call
      simp only [show ((140 : NodeType) == Ty.blockExpr) = false by decide,
        show ((140 : NodeType) == Ty.seqExpr) = false by decide, show ((140 : NodeType) == Ty.refExpr) = false by decide,
        show ((140 : NodeType) == Ty.callExpr) = true by decide, if_true, Bool.false_eq_true, if_false]
      obtain ⟨_, hsay, hrefs⟩ := (self (by decide)).parts
      obtain ⟨name, args, kind, ds, p1, p2, p3, p4⟩ := says_call hsay hty
      obtain ⟨v, ds', h1, name', args', r1, r2, r3⟩ := resolveCall_total hf hs hty
      have e := childrenWith_unique hf hn r2 p2
      subst e
      have en : name' = name := labelled_unique r1 p1
      obtain ⟨rfl, rfl⟩ := callMeans_unique hf r3 p3 en
      refine works_bind (works_get (q := .resolveCall n) (P := fun v' : Option CallKind => v' = some kind) h1 rfl) ?_
      rintro _ rfl
      refine works_bind (works_okOr (P := fun k => k = kind) rfl rfl) ?_
      rintro _ rfl
      exact works_bind (works_genCall hf hs ht hrec p2 p3 p4 hrefs) fun _ _ => works_push

end

end Fall
