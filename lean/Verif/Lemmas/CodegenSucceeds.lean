import Verif.Lemmas.CodegenTotal

/-! When the parser generator succeeds: rules. -/

namespace Fall

open Spec AProg

theorem references_rename (φ : Nat → Nat) (e : Expr) : references (rename φ e) = (references e).map φ := by
  cases e <;> simp [references, rename, renameTable, Function.comp_def]

section
variable {f : File UInt8} (hf : ConsistentFile f) (hs : Shaped f)
include hf hs

theorem works_altToRule {alt r : Nat} (h : AltRule f alt r) : Works f (altToRule f alt) fun r' => r' = r := by
  obtain ⟨h1, part, h2, h3, h4⟩ := h
  have hn := ofType_isNode h1
  unfold altToRule
  refine works_bind (works_lift (P := fun t => t = Ty.seqExpr) h1 rfl) ?_
  rintro _ rfl
  simp only [beq_self_eq_true, if_true]
  have h5 := (ruleBody_iff hf hn).2 h2
  have h6 := astChildren_eq hf hn isFallExpr
  refine works_bind (works_lift (P := fun ps => ∃ rest, ps = part :: rest) h6 ?_) ?_
  · simp only [File.ruleBody, firstChild_eq hf hn, ← List.head?_filter, Option.bind_eq_bind, Option.bind_some] at h5
    cases hl : (kids f alt).filter fun c => isFallExpr (dat f c).ty with
    | nil => simp [hl] at h5
    | cons p rest =>
      simp only [hl, List.head?_cons, Option.some.injEq] at h5
      exact ⟨rest, by rw [h5]⟩
  · rintro _ ⟨rest, rfl⟩
    simp only
    refine works_bind (works_lift (P := fun t => t = Ty.refExpr) h3 rfl) ?_
    rintro _ rfl
    simp only [beq_self_eq_true, if_true]
    obtain ⟨v, ds, q1, q2⟩ := resolveRef_total hf hs h3
    have e := refersTo_unique hf q2 h4
    subst e
    refine works_bind (works_get (q := .resolveRef part) (P := fun v : Option RefKind => v = some (.rule r)) q1 rfl) ?_
    rintro _ rfl
    exact works_pure rfl

theorem works_genPratt {types : List (List UInt8 × Bool)} (ht : f.genTypes = some types) {rec : Nat → Gen Nat}
    (hrec : ∀ n, IsExpr f n → Stood f n → Works f (rec n) fun _ => True) {alts : List Nat} {t : PrattTable}
    (h : TableSays f alts t) (hm : ∀ m ∈ references (.pratt t), OfType f 132 m ∨ Meaningful f m) (t0 : PrattTable) :
    Works f (genPratt f types rec alts t0) fun _ => True := by
  have alt : ∀ {alt r k : Nat} {v : PrattVariant} {ds : List Diagnostic} {rest : PrattVariant → Nat → Nat → Gen PrattTable},
      AltRule f alt r → RuleType f r k → OperatorMeans f r (some v) ds →
      (∀ ty, Works f (rest v r ty) fun _ => True) →
      Works f (do
        let rule ← altToRule f alt
        let ty ← Gen.okOr (← synRuleTy f types rule)
        let k ← Gen.get (.prattVariant rule)
        let k ← Gen.okOr (k : Option PrattVariant)
        rest k rule ty) fun _ => True := by
    intro alt r k v ds rest h1 h2 h3 h4
    have hr : OfType f 132 r := by
      obtain ⟨-, part, -, -, h⟩ := h1
      exact refersTo_rule h
    refine works_bind (works_altToRule hf hs h1) ?_
    rintro _ rfl
    refine works_bind (works_synRuleTy hf hs ht hr) fun o ho => ?_
    have := (ho k).2 h2
    refine works_bind (works_okOr (P := fun _ => True) this trivial) fun ty _ => ?_
    refine works_bind (works_get (q := .prattVariant _) (P := fun x : Option PrattVariant => x = some v)
      (prattVariant_total hf hs hr h3) rfl) ?_
    rintro _ rfl
    refine works_bind (works_okOr (P := fun x => x = v) rfl rfl) ?_
    rintro _ rfl
    exact h4 ty
  induction h generalizing t0 with
  | nil => exact works_pure trivial
  | atom h1 h2 h3 _ ih =>
    have ih := ih fun m h => hm m (by simp only [references, List.cons_append, List.mem_cons]; exact .inr h)
    refine alt (rest := fun k rule ty => match k with
      | .atom _ => do
        let r ← synRuleRef f rule
        genPratt f types rec _ { t0 with atoms := t0.atoms ++ [r] }
      | .postfix op priority => do
        let r ← rec op
        genPratt f types rec _ { t0 with infixes := t0.infixes ++ [⟨ty, r, priority, false⟩] }
      | .prefix op priority => do
        let r ← rec op
        genPratt f types rec _ { t0 with prefixes := t0.prefixes ++ [⟨ty, r, priority⟩] }
      | .bin op priority => do
        let r ← rec op
        genPratt f types rec _ { t0 with infixes := t0.infixes ++ [⟨ty, r, priority, true⟩] }) h1 h2 h3 fun ty => ?_
    obtain ⟨-, part, -, -, h⟩ := h1
    obtain ⟨c1, c2⟩ := refersTo_child hf h
    exact works_bind (works_synRuleRef hf c1 c2) fun _ _ => ih _
  | prefixOp h1 h2 h3 h4 _ ih =>
    have ih := ih fun m h => hm m (by
      simp only [references, List.mem_append, List.map_cons, List.mem_cons] at h ⊢
      rcases h with (h | h) | h <;> simp [h])
    refine alt (rest := fun k rule ty => match k with
      | .atom _ => do
        let r ← synRuleRef f rule
        genPratt f types rec _ { t0 with atoms := t0.atoms ++ [r] }
      | .postfix op priority => do
        let r ← rec op
        genPratt f types rec _ { t0 with infixes := t0.infixes ++ [⟨ty, r, priority, false⟩] }
      | .prefix op priority => do
        let r ← rec op
        genPratt f types rec _ { t0 with prefixes := t0.prefixes ++ [⟨ty, r, priority⟩] }
      | .bin op priority => do
        let r ← rec op
        genPratt f types rec _ { t0 with infixes := t0.infixes ++ [⟨ty, r, priority, true⟩] }) h1 h2 h3 fun ty => ?_
    exact works_bind (hrec _ (operator_isExpr (.inl h3)) ⟨_, h4, hm _ (by simp [references])⟩) fun _ _ => ih _
  | postfixOp h1 h2 h3 h4 _ ih =>
    have ih := ih fun m h => hm m (by
      simp only [references, List.mem_append, List.map_cons, List.mem_cons] at h ⊢
      rcases h with (h | h) | h <;> simp [h])
    refine alt (rest := fun k rule ty => match k with
      | .atom _ => do
        let r ← synRuleRef f rule
        genPratt f types rec _ { t0 with atoms := t0.atoms ++ [r] }
      | .postfix op priority => do
        let r ← rec op
        genPratt f types rec _ { t0 with infixes := t0.infixes ++ [⟨ty, r, priority, false⟩] }
      | .prefix op priority => do
        let r ← rec op
        genPratt f types rec _ { t0 with prefixes := t0.prefixes ++ [⟨ty, r, priority⟩] }
      | .bin op priority => do
        let r ← rec op
        genPratt f types rec _ { t0 with infixes := t0.infixes ++ [⟨ty, r, priority, true⟩] }) h1 h2 h3 fun ty => ?_
    exact works_bind (hrec _ (operator_isExpr (.inr (.inl h3))) ⟨_, h4, hm _ (by simp [references])⟩) fun _ _ => ih _
  | bin h1 h2 h3 h4 _ ih =>
    have ih := ih fun m h => hm m (by
      simp only [references, List.mem_append, List.map_cons, List.mem_cons] at h ⊢
      rcases h with (h | h) | h <;> simp [h])
    refine alt (rest := fun k rule ty => match k with
      | .atom _ => do
        let r ← synRuleRef f rule
        genPratt f types rec _ { t0 with atoms := t0.atoms ++ [r] }
      | .postfix op priority => do
        let r ← rec op
        genPratt f types rec _ { t0 with infixes := t0.infixes ++ [⟨ty, r, priority, false⟩] }
      | .prefix op priority => do
        let r ← rec op
        genPratt f types rec _ { t0 with prefixes := t0.prefixes ++ [⟨ty, r, priority⟩] }
      | .bin op priority => do
        let r ← rec op
        genPratt f types rec _ { t0 with infixes := t0.infixes ++ [⟨ty, r, priority, true⟩] }) h1 h2 h3 fun ty => ?_
    exact works_bind (hrec _ (operator_isExpr (.inr (.inr h3))) ⟨_, h4, hm _ (by simp [references])⟩) fun _ _ => ih _

theorem works_genBody (hb : BlockBodies f) {types : List (List UInt8 × Bool)} (ht : f.genTypes = some types) {r t : Nat}
    (hr : OfType f 132 r) (h1 : BodyOf f r t) (h2 : Meaningful f t) :
    Works f (genBody f types f.nodes.length r) fun _ => True := by
  have hn := ofType_isNode hr
  have hrec : ∀ n, IsExpr f n → Stood f n → Works f (genExpr f types f.nodes.length n) fun _ => True :=
    fun n he hst => works_genExpr hf hs ht _ n (by omega) he hst
  obtain ⟨e, hsay, hrefs⟩ := h2.parts
  obtain ⟨pratt, hp⟩ := hasAttr_total hf hs hn (ascii "pratt")
  have hp' := hasAttr_eval hf hn hp
  unfold genBody
  refine works_bind (works_lift (P := fun p => p = pratt) hp rfl) fun _ e => ?_
  cases e
  cases pratt with
  | false =>
    rcases h1 with h1 | ⟨-, b, h1, h3⟩
    · have := hp'.2 ⟨_, h1⟩
      cases this
    · refine works_bind (works_lift (P := fun b' => b' = b) ((ruleBody_iff hf hn).2 h1) rfl) ?_
      rintro _ rfl
      exact hrec _ (firstChild_child h1).2 ⟨t, h3, .inr h2⟩
  | true =>
    obtain ⟨a, ha⟩ := hp'.1 rfl
    rcases h1 with h1 | ⟨h1, -⟩
    · rcases says_attribute hsay (attribute_type h1).1 with ⟨r', b, alts, table, q1, q2, q3, q4, q5, rfl⟩ | ⟨r', t', q1, q2, -⟩
      · have e := attribute_rule hf h1 q1
        subst e
        refine works_bind (works_lift (P := fun b' => b' = b) ((ruleBody_iff hf hn).2 q2) rfl) ?_
        rintro _ rfl
        simp only [if_true]
        refine works_bind (works_lift (P := fun t => t = Ty.blockExpr) q3 rfl) ?_
        rintro _ rfl
        simp only [beq_self_eq_true, if_true]
        refine works_bind (works_lift (P := fun a => a = alts) (childrenWith_astChildren hf (ofType_isNode q3) q4) rfl) ?_
        rintro _ rfl
        exact works_bind (works_genPratt hf hs ht hrec q5 hrefs _) fun _ _ => works_push
      · have := labelled_unique (attribute_type h1).2 (attribute_type q1).2
        exact absurd this (by decide)
    · exact absurd ha (h1 a)

/-- The body of a rule with a meaning has one. -/
theorem meaningful_body (hb : BlockBodies f) {r : Nat} (hr : OfType f 132 r) (h : Meaningful f r) :
    ∃ t, BodyOf f r t ∧ Meaningful f t := by
  have hbody : ∀ {t}, BodyOf f r t → ¬ OfType f 132 t := by
    rintro t (h | ⟨-, b, h1, h2⟩) h'
    · exact clash (attribute_type h).1 h' (by decide)
    · have hb := hb r b hr h1
      rw [target_unique hf h2 (target_type hb (by decide))] at h'
      exact clash hb h' (by decide)
  obtain ⟨e, h1, h2⟩ := h.parts
  have go : ∀ {t}, BodyOf f r t → t ∈ references e → ∃ t, BodyOf f r t ∧ Meaningful f t :=
    fun hb ht => ⟨_, hb, (h2 _ ht).resolve_left (hbody hb)⟩
  rcases says_rule h1 hr with ⟨k, a, t, q1, q2, q3, rfl⟩ | ⟨k, t, b, q1, q2, q3, q4, q5, rfl⟩ |
    ⟨k, a, b, q1, q2, q3, q4, rfl⟩ | ⟨a, t, q1, q2, q3, q4, rfl⟩ | ⟨t, q1, q2, q3, q4, q5⟩
  · exact go q3 (by simp [references])
  · exact go q4 (by simp [references])
  · have ha := (h2 a (by simp [references])).resolve_left fun h => clash (attribute_type q3).1 h (by decide)
    obtain ⟨e, h3, h4⟩ := ha.parts
    rcases says_attribute h3 (attribute_type q3).1 with ⟨r', b, alts, table, p1, -⟩ | ⟨r', t', p1, p2, rfl⟩
    · have := labelled_unique (attribute_type q3).2 (attribute_type p1).2
      exact absurd this (by decide)
    · have e := attribute_rule hf q3 p1
      subst e
      exact ⟨t', p2, (h4 t' (by simp [references])).resolve_left (hbody p2)⟩
  · exact go q4 (by simp [references])
  · exact ⟨t, q4, .mk q5 fun m hm hno => (h2 m hm).resolve_left hno⟩

theorem genRule_total (hb : BlockBodies f) {types : List (List UInt8 × Bool)} (ht : f.genTypes = some types)
    {rs : List Nat} (hrs : f.synRules = some rs) {r : Nat} (hr : OfType f 132 r) (h : Meaningful f r) {es : List Expr}
    {lab : List Nat} (hl : Labels f rs es lab) : ∃ e es', Gives f (genRule f types f.nodes.length r) es e es' := by
  have hn := ofType_isNode hr
  obtain ⟨t, b1, b2⟩ := meaningful_body hf hs hb hr h
  obtain ⟨i, es1, h1, -⟩ := works_genBody hf hs hb ht hr b1 b2 es
  obtain ⟨lab1, g1, -, -, hlast⟩ := genBody_gives hf hb ht hrs hr hl h1
  obtain ⟨o, es2, h2, -, ho⟩ := works_synRuleTy hf hs ht hr es1
  obtain ⟨e, -⟩ := synRuleTy_gives hf ht hn h2
  subst e
  obtain ⟨replaces, h3⟩ := hasAttr_total hf hs hn (ascii "replaces")
  have h3' := hasAttr_eval hf hn h3
  obtain ⟨cached, h4⟩ := hasAttr_total hf hs hn (ascii "cached")
  have h4' := hasAttr_eval hf hn h4
  obtain ⟨replaceable, h5⟩ := hasAttr_total hf hs hn (ascii "replaceable")
  obtain ⟨e, hsay, -⟩ := h.parts
  have hbad : ¬ (o = none ∧ replaces = true) := by
    rintro ⟨rfl, rfl⟩
    obtain ⟨a, ha⟩ := h3'.1 rfl
    have hno : ∀ k, ¬ RuleType f r k := by
      intro k hk
      have := (ho k).2 hk
      cases this
    rcases says_rule hsay hr with ⟨k, a, t, q1, q2, q3, rfl⟩ | ⟨k, t, b, q1, q2, q3, q4, q5, rfl⟩ |
      ⟨k, a, b, q1, q2, q3, q4, rfl⟩ | ⟨a, t, q1, q2, q3, q4, rfl⟩ | ⟨t, q1, q2, q3, q4, q5⟩
    · exact hno k q1
    · exact hno k q1
    · exact hno k q1
    · exact q2 _ ha
    · exact q2 _ ha
  suffices ∃ e es', Gives f (match o, replaces, cached with
      | some ty, true, _ => (return .pubReplace ty i : Gen Expr)
      | some ty, false, false => do
        let replaceable ← Gen.lift (f.hasAttr r (ascii "replaceable"))
        return .pub ty i replaceable
      | some ty, false, true => do
        let body ← Gen.push (.cached i)
        let replaceable ← Gen.lift (f.hasAttr r (ascii "replaceable"))
        return .pub ty body replaceable
      | none, false, true => do
        assertLast i
        return .cached i
      | none, false, false => do
        assertLast i
        popExpr
      | none, true, _ => Gen.lift none) es2 e es' by
    obtain ⟨e, es', h⟩ := this
    refine ⟨e, es', ?_⟩
    unfold genRule
    rw [gives_bind]
    refine ⟨i, es2, h1, ?_⟩
    rw [gives_bind]
    refine ⟨o, es2, h2, ?_⟩
    rw [gives_bind]
    refine ⟨replaces, es2, gives_lift.2 ⟨h3, rfl⟩, ?_⟩
    rw [gives_bind]
    exact ⟨cached, es2, gives_lift.2 ⟨h4, rfl⟩, h⟩
  have hassert : Gives f (assertLast i) es2 () es2 := by
    show Gives f (Gen.lift (if es2.length = i + 1 then some () else none)) es2 () es2
    rw [gives_lift]
    simp [hlast]
  cases o with
  | some ty =>
    cases replaces with
    | true => exact ⟨_, _, gives_pure.2 ⟨rfl, rfl⟩⟩
    | false =>
      cases cached with
      | false => exact ⟨_, _, gives_bind.2 ⟨replaceable, es2, gives_lift.2 ⟨h5, rfl⟩, gives_pure.2 ⟨rfl, rfl⟩⟩⟩
      | true =>
        exact ⟨_, _, gives_bind.2 ⟨_, _, gives_push.2 ⟨rfl, rfl⟩, gives_bind.2 ⟨replaceable, _, gives_lift.2 ⟨h5, rfl⟩,
          gives_pure.2 ⟨rfl, rfl⟩⟩⟩⟩
  | none =>
    cases replaces with
    | true => exact absurd ⟨rfl, rfl⟩ hbad
    | false =>
      cases cached with
      | true => exact ⟨_, _, gives_bind.2 ⟨(), es2, hassert, gives_pure.2 ⟨rfl, rfl⟩⟩⟩
      | false =>
        have hne : es2 ≠ [] := by
          rintro rfl
          simp at hlast
        have hpop : Gives f popExpr es2 (es2.getLast hne) es2.dropLast := by
          refine ⟨[], ?_⟩
          unfold popExpr
          rw [eval_bind_some]
          exact ⟨es2.getLast hne, [], [], eval_lift.2 ⟨List.getLast?_eq_some_getLast hne, rfl⟩, eval_pure.2 ⟨rfl, rfl⟩, rfl⟩
        exact ⟨_, _, gives_bind.2 ⟨(), es2, hassert, hpop⟩⟩

theorem genRules_total (hb : BlockBodies f) {types : List (List UInt8 × Bool)} (ht : f.genTypes = some types)
    {rs : List Nat} (hrs : f.synRules = some rs) {todo : List Nat} {i : Nat} (hi : rs.drop i = todo)
    (h : ∀ r ∈ todo, Meaningful f r) {es : List Expr} {lab : List Nat} (hl : Labels f rs es lab) :
    ∃ es', Gives f (genRules f types f.nodes.length i todo) es () es' := by
  induction todo generalizing i es lab with
  | nil => exact ⟨es, gives_pure.2 ⟨rfl, rfl⟩⟩
  | cons r todo ih =>
    have hilt : i < rs.length := by
      have := congrArg List.length hi
      simp at this
      omega
    have hri : rs[i]? = some r := by
      have := congrArg (·[0]?) hi
      simpa using this
    have hr : OfType f 132 r := (childrenWith_mem (synRules_children hf hrs) r (List.mem_of_getElem? hri)).2
    obtain ⟨e, es1, h1⟩ := genRule_total hf hs hb ht hrs hr (h r (by simp)) hl
    obtain ⟨lab1, g1, -⟩ := genRule_gives hf hb ht hrs hr hl h1
    have hset : Gives f (setExpr i e) es1 () (es1.set i e) := by
      show Gives f (Gen.lift (if i < es1.length then some () else none)) (es1.set i e) () (es1.set i e)
      rw [gives_lift]
      have h2 := g1.labels.below
      have h3 := g1.labels.len
      simp [show i < es1.length by omega]
    obtain ⟨es', h2⟩ := ih (i := i + 1) (by
      rw [← List.tail_drop, hi]
      rfl) (fun r hr => h r (by simp [hr])) (g1.labels.set hilt)
    exact ⟨es', by
      unfold genRules
      exact gives_bind.2 ⟨e, es1, h1, gives_bind.2 ⟨(), _, hset, h2⟩⟩⟩

/-- The generator succeeds if the rules have a meaning. -/
theorem genParser_total (hb : BlockBodies f) (h : MeaningfulRules f) :
    ∃ types rules ds, Eval (analysisBody f) (genParser f) (some (some (types, rules))) ds := by
  obtain ⟨types, ht⟩ := genTypes_total hf hs
  obtain ⟨rs, hrs, -⟩ := synRules_total hf
  have hc := synRules_children hf hrs
  obtain ⟨es', ds, h1⟩ := genRules_total hf hs hb ht hrs (todo := rs) (i := 0) rfl
    (fun r hr => h r (childrenWith_mem hc r hr).1 (childrenWith_mem hc r hr).2)
    (es := List.replicate rs.length .any) (lab := rs) ⟨by simp, List.prefix_refl _, fun k e hk he => by
        have := (List.getElem?_eq_some_iff.1 he).1
        simp at this
        omega⟩
  refine ⟨types, es', [] ++ ([] ++ (ds ++ [])), ?_⟩
  unfold genParser
  rw [eval_bind_some]
  refine ⟨types, _, _, eval_lift.2 ⟨ht, rfl⟩, ?_, rfl⟩
  rw [eval_bind_some]
  refine ⟨rs, _, _, eval_lift.2 ⟨hrs, rfl⟩, ?_, rfl⟩
  rw [eval_bind_some]
  exact ⟨_, _, _, h1, eval_pure.2 ⟨rfl, rfl⟩, rfl⟩

omit hs in
/-- The rules have a meaning if the generator succeeds. -/
theorem meaningful_of_gen (hb : BlockBodies f) {types : List (List UInt8 × Bool)} {rules : List Expr}
    {ds : List Diagnostic} (h : Eval (analysisBody f) (genParser f) (some (some (types, rules))) ds) :
    MeaningfulRules f := by
  obtain ⟨-, rs, lab, hrs, hl, hr⟩ := genParser_gives hf hb h
  have hc := synRules_children hf hrs
  have hlen := hl.len
  have hrule : ∀ k, k < rs.length → OfType f 132 (labelOf lab k) ∧ ∃ r ∈ rs, labelOf lab k = r := by
    intro k hk
    rw [labelOf_prefix hl.rules hk]
    have e : labelOf rs k = rs[k] := by simp [labelOf, hk]
    rw [e]
    exact ⟨(childrenWith_mem hc _ (List.getElem_mem hk)).2, _, List.getElem_mem hk, rfl⟩
  have hpart : ∀ k, k < lab.length → rs.length ≤ k → Meaningful f (labelOf lab k) := by
    intro k
    induction k using Nat.strongRecOn with
    | _ k ih =>
      intro hk hge
      obtain ⟨g1, g2⟩ := hl.good k rules[k] hge (List.getElem?_eq_getElem (by omega))
      refine .mk g2 fun m hm hno => ?_
      rw [references_rename, List.mem_map] at hm
      obtain ⟨j, hj, rfl⟩ := hm
      by_cases hjr : j < rs.length
      · exact absurd (hrule j hjr).1 hno
      · have := (g1 j hj).resolve_left hjr
        exact ih j this (by omega) (by omega)
  intro r h1 h2
  obtain ⟨all, a1, a2, a3⟩ := hc
  obtain ⟨cs, b1, b2⟩ := h1
  rw [a1, Option.some.injEq] at b1
  subst b1
  have hm := (a3 r b2).2 h2
  obtain ⟨k, hk, rfl⟩ := List.getElem_of_mem hm
  have hbel := hl.below
  obtain ⟨g1, g2⟩ := hr k rules[k] hk (List.getElem?_eq_getElem (by omega))
  have e : labelOf lab k = rs[k] := by
    rw [labelOf_prefix hl.rules hk]
    simp [labelOf, hk]
  rw [e] at g2
  refine .mk g2 fun m hm hno => ?_
  rw [references_rename, List.mem_map] at hm
  obtain ⟨j, hj, rfl⟩ := hm
  by_cases hjr : j < rs.length
  · exact absurd (hrule j hjr).1 hno
  · exact hpart j (g1 j hj) (by omega)

end

end Fall
