import Verif.Lemmas.Generate

/-! When the lexer and the typed tree are generated. -/

namespace Fall

open Spec AProg

section
variable {f : File UInt8} (hf : ConsistentFile f) (hs : Shaped f)
include hf hs

theorem works_lexRule {escape : List UInt8 → List UInt8} {t : Nat} (ht : OfType f 142 t)
    (h : ¬ Contextual f t → (∃ lit body, Labelled f t 147 lit ∧ Quoted lit body) ∧
      ∀ ss c lit, ChildrenWith f t (OfType f 147) ss → ss[1]? = some c → f.textOf c = some lit →
        ∃ body, Quoted lit body) : Works f (genLexRule f escape t) fun _ => True := by
  have hn := ofType_isNode ht
  unfold genLexRule
  obtain ⟨b, hb⟩ := hasAttr_total hf hs hn (ascii "contextual")
  refine works_bind (works_lift (P := fun b' => b' = b) hb rfl) fun b' e => ?_
  subst e
  have hb := hasAttr_eval hf hn hb
  cases b' with
  | true => exact works_pure trivial
  | false =>
    obtain ⟨⟨lit, body, h1, h2⟩, h3⟩ := h fun ⟨a, ha⟩ => by cases hb.2 ⟨a, ha⟩
    have hre : ∃ re, TokenPattern f escape t re := by
      by_cases hq : ∃ q, lit = 114 :: q
      · exact ⟨body, lit, body, h1, h2, .inl ⟨hq, rfl⟩⟩
      · exact ⟨escape body, lit, body, h1, h2, .inr ⟨fun q e => hq ⟨q, e⟩, rfl⟩⟩
    obtain ⟨re, hre⟩ := hre
    have hre := (tokenRe_iff hf hn).2 hre
    have hext : ∃ o, TokenFunction f t o := by
      obtain ⟨ss, hss⟩ := childrenWith_total hf hn (OfType f 147)
      cases hc : ss[1]? with
      | none => exact ⟨none, ss, hss, by simpa using hc⟩
      | some c =>
        obtain ⟨lit, hl⟩ := textOf_some hf (ofType_isNode (childrenWith_mem hss c (List.mem_of_getElem? hc)).2)
        obtain ⟨body, hb⟩ := h3 ss c lit hss hc hl
        exact ⟨some body, ss, c, lit, hss, hc, hl, hb⟩
    obtain ⟨o, ho⟩ := hext
    obtain ⟨s, hi⟩ := hs.named 142 t (by simp) ht
    simp only [Bool.false_eq_true, if_false]
    refine works_bind (works_lift (P := fun o => o = some re) hre rfl) fun o e => ?_
    subst e
    refine works_bind (works_okOr (P := fun _ => True) rfl trivial) fun _ _ => ?_
    refine works_bind (works_lift (P := fun _ => True) ((ident_iff hf hn).2 hi) trivial) fun _ _ => ?_
    refine works_bind (works_lift (P := fun _ => True) ((externFn_iff hf hn).2 ho) trivial) fun _ _ => ?_
    exact works_pure trivial

theorem works_lexRules {escape : List UInt8 → List UInt8} (h : Describable f) :
    Works f (genLexRules f escape) fun _ => True := by
  obtain ⟨d, hd⟩ := h.tokenizer
  unfold genLexRules
  refine works_bind (works_lift (P := fun o => o = some d) ((firstChild_some hf (zero_isNode hf) 141).2 hd) rfl)
    fun o e => ?_
  subst e
  refine works_bind (works_okOr (P := fun _ => True) rfl trivial) fun _ _ => ?_
  obtain ⟨ts, hts, -⟩ := lexRules_total hf
  refine works_bind (works_lift (P := fun ts => Tokens f ts) hts (lexRules_tokens hf hts)) fun ts hts => ?_
  have hts : ChildrenWith f d (OfType f 142) ts := by
    rcases hts with ⟨d', h1, h2⟩ | ⟨h1, -⟩
    · cases firstChild_unique h1 hd
      exact h2
    · exact absurd hd (h1 d)
  refine works_bind (works_each fun t ht => ?_) fun _ _ => works_pure trivial
  obtain ⟨h1, h2⟩ := childrenWith_mem hts t ht
  exact works_lexRule hf hs h2 (h.tokens d t hd h1 h2)

omit hs in
theorem works_verbatim (h : Describable f) : Works f (genVerbatim f) fun _ => True := by
  unfold genVerbatim
  obtain ⟨o, ho⟩ := firstChild_total hf (zero_isNode hf) (· == Ty.verbatimDef)
  refine works_bind (works_lift (P := fun o' => o' = o) ho rfl) fun o' e => ?_
  subst e
  have ho := (firstChild_some hf (zero_isNode hf) 148).1 ho
  cases o' with
  | none => exact works_pure trivial
  | some v =>
    obtain ⟨lit, body, h1, h2⟩ := h.verbatim v ho
    have h1 := (childText_iff hf (first_isNode hf ho) 129).2 h1
    have e : f.verbatimContents v = some (trimText body) := by
      simp only [File.verbatimContents, Ty.hashString, h1, litBody_iff.2 h2, Option.bind_eq_bind, Option.bind_some,
        Option.pure_def]
    exact works_bind (works_lift (P := fun _ => True) e trivial) fun _ _ => works_pure trivial

omit hs in
theorem works_camelName {n : Nat} {s : List UInt8} (hi : Ident f n s) (hs : Nameable s) :
    Works f (camelName f n) fun _ => True := by
  obtain ⟨c, hc⟩ := nameable_iff.1 hs
  refine works_lift (a := c) ?_ trivial
  simp [(ident_iff hf (ident_isNode hf hi)).2 hi, camelCase_iff.1 hc]

omit hf hs in
/-- Items that methods select are items of the `ast` block. -/
theorem methodMeans_inAst {m : Nat} {k : MethodKind} (h : MethodMeans f m (some k)) :
    match k with
    | .astNode n _ => InAst f [150, 151, 152] n
    | .astClass n _ => InAst f [150, 151, 152] n
    | _ => True := by
  have item : ∀ {ty s t}, ty ∈ [150, 151, 152] → AstItem f ty s t → InAst f [150, 151, 152] t := by
    rintro ty s t hty ⟨d, h1, cs, h2, h3⟩
    exact ⟨d, ty, h1, ⟨cs, h2, (first_mem h3).1⟩, hty, (first_mem h3).2.1⟩
  cases h with
  | astNode _ _ _ h _ => exact item (by decide) h
  | astClass _ _ _ _ h _ => exact item (by decide) h
  | token => trivial
  | text => trivial

theorem works_method (h : Describable f) {m : Nat} (hm : OfType f 153 m) {s : List UInt8} (hi : Ident f m s)
    {k : MethodKind} (hk : MethodMeans f m (some k)) (ht : ∀ t, k ≠ .token t .many ∧ k ≠ .text t .many) :
    Works f (genMethod f m) fun _ => True := by
  have hn := ofType_isNode hm
  have hev : ∃ ds, Eval (analysisBody f) (resolveMethod f m) (some (some k)) ds := by
    obtain ⟨o, ds, he⟩ := ends_all (f := f) (resolveMethod f m)
    cases o with
    | some o => exact ⟨ds, methodMeans_unique (resolveMethod_eval hf hn he).1 hk ▸ he⟩
    | none =>
      exfalso
      have no : ∀ {ast ty s}, FirstChild f 0 (OfType f 149) ast → ty ∈ [150, 151, 152] → ¬ NamelessBefore f ast ty s := by
        rintro ast ty s ha hty ⟨n, ⟨cs, h1, h2⟩, h3⟩
        obtain ⟨s', hi, -⟩ := h.names n ⟨ast, ty, ha, ⟨cs, h1, (first_mem h2).1⟩, hty, (first_mem h2).2.1⟩
        exact h3 s' hi
      obtain ⟨sel, s, ast, -, -, ha, h1 | ⟨-, h1⟩⟩ := (resolveMethod_none hf hs hm).1 ⟨ds, he⟩
      · exact no ha (by decide) h1
      · exact no ha (by decide) h1
  obtain ⟨ds, hev⟩ := hev
  unfold genMethod
  refine works_bind (works_get (q := .resolveMethod m) (P := fun v => v = some k) hev rfl) fun v e => ?_
  cases e
  refine works_bind (works_okOr (P := fun k' => k' = k) rfl rfl) fun k' e => ?_
  subst e
  refine works_bind (P := fun _ => True) ?_ fun _ _ =>
    works_bind (works_lift (P := fun _ => True) ((ident_iff hf hn).2 hi) trivial) fun _ _ => works_pure trivial
  have hty := methodMeans_isNode hk
  have hin := methodMeans_inAst hk
  cases k' with
  | text t ar =>
    obtain ⟨s, hi⟩ := hs.named 142 t (by simp) hty
    refine works_bind (works_lift (P := fun _ => True) ((ident_iff hf (ofType_isNode hty)).2 hi) trivial) fun _ _ => ?_
    cases ar with
    | single => exact works_pure trivial
    | optional => exact works_pure trivial
    | many => exact absurd rfl (ht t).2
  | token t ar =>
    obtain ⟨s, hi⟩ := hs.named 142 t (by simp) hty
    refine works_bind (works_lift (P := fun _ => True) ((ident_iff hf (ofType_isNode hty)).2 hi) trivial) fun _ _ => ?_
    cases ar with
    | single => exact works_pure trivial
    | optional => exact works_pure trivial
    | many => exact absurd rfl (ht t).1
  | astNode n ar =>
    obtain ⟨s, hi, hs⟩ := h.names n hin
    exact works_bind (works_camelName hf hi hs) fun _ _ => works_pure trivial
  | astClass n ar =>
    obtain ⟨s, hi, hs⟩ := h.names n hin
    exact works_bind (works_camelName hf hi hs) fun _ _ => works_pure trivial

theorem works_methods (h : Describable f) {n : Nat} (hn : InAst f [150, 152] n) :
    Works f (genMethods f n) fun _ => True := by
  obtain ⟨ast, ty, ha, hc, -⟩ := id hn
  obtain ⟨ms, hms⟩ := childrenWith_total hf (child_isNode hf hc) (OfType f 153)
  unfold genMethods
  refine works_bind (works_lift (P := fun l => l = ms) ((astChildren_iff hf (child_isNode hf hc)).2 hms) rfl) fun _ e => ?_
  subst e
  refine works_each fun m hm => ?_
  obtain ⟨h1, h2⟩ := childrenWith_mem hms m hm
  obtain ⟨⟨s, hi⟩, k, hk, ht⟩ := h.methods n m hn h1 h2
  exact works_method hf hs h h2 hi hk ht

theorem works_rest {escape : List UInt8 → List UInt8} (h : Describable f) :
    Works f (genRest f escape) fun _ => True := by
  unfold genRest
  refine works_bind (works_lexRules hf hs h) fun _ _ => ?_
  refine works_bind (works_verbatim hf h) fun _ _ => ?_
  refine works_bind (P := fun _ => True) ?_ fun _ _ => works_pure trivial
  unfold genAst
  obtain ⟨o, ho⟩ := firstChild_total hf (zero_isNode hf) (· == Ty.astDef)
  refine works_bind (works_lift (P := fun o' => o' = o) ho rfl) fun o' e => ?_
  subst e
  have ho := (firstChild_some hf (zero_isNode hf) 149).1 ho
  cases o' with
  | none => exact works_pure trivial
  | some ast =>
    have hn := first_isNode hf ho
    obtain ⟨ns, hns⟩ := childrenWith_total hf hn (OfType f 150)
    obtain ⟨cs, hcs⟩ := childrenWith_total hf hn (OfType f 151)
    obtain ⟨ts, hts⟩ := childrenWith_total hf hn (OfType f 152)
    refine works_bind (works_lift (P := fun l => l = ns) ((astChildren_iff hf hn).2 hns) rfl) fun _ e => ?_
    subst e
    refine works_bind (works_lift (P := fun l => l = cs) ((astChildren_iff hf hn).2 hcs) rfl) fun _ e => ?_
    subst e
    refine works_bind (works_lift (P := fun l => l = ts) ((astChildren_iff hf hn).2 hts) rfl) fun _ e => ?_
    subst e
    have named : ∀ {ty : NodeType} {n : Nat}, ty ∈ [150, 151, 152] → Child f ast n → OfType f ty n →
        ∃ s, Ident f n s ∧ Nameable s := fun h1 h2 h3 => h.names _ ⟨ast, _, ho, h2, h1, h3⟩
    refine works_bind (works_each fun n hn => ?_) fun _ _ => ?_
    · obtain ⟨h1, h2⟩ := childrenWith_mem hns n hn
      obtain ⟨s, hi, hc⟩ := named (by decide) h1 h2
      unfold genNode
      refine works_bind (works_camelName hf hi hc) fun _ _ => ?_
      refine works_bind (works_lift (P := fun _ => True) ((ident_iff hf (ident_isNode hf hi)).2 hi) trivial) fun _ _ => ?_
      exact works_bind (works_methods hf hs h ⟨ast, 150, ho, h1, by decide, h2⟩) fun _ _ => works_pure trivial
    refine works_bind (works_each fun n hn => ?_) fun _ _ => ?_
    · obtain ⟨h1, h2⟩ := childrenWith_mem hcs n hn
      obtain ⟨s, hi, hc⟩ := named (by decide) h1 h2
      have hnn := ident_isNode hf hi
      obtain ⟨ids, hids⟩ := childrenWith_total hf hnn (OfType f 130)
      obtain ⟨i, is, rfl⟩ : ∃ i is, ids = i :: is := by
        cases ids with
        | cons i is => exact ⟨i, is, rfl⟩
        | nil =>
          obtain ⟨c, ⟨cs, hcs, hc⟩, -⟩ := hi
          obtain ⟨all, e, -, hall⟩ := hids
          rw [hcs, Option.some.injEq] at e
          subst e
          cases (hall c (first_mem hc).1).2 (first_mem hc).2
      obtain ⟨names, hnames⟩ := pointwise_total (R := fun i s => f.textOf i = some s) (xs := is) fun i hi =>
        textOf_some hf (ofType_isNode (childrenWith_mem hids i (by simp [hi])).2)
      unfold genClass
      refine works_bind (works_camelName hf hi hc) fun _ _ => ?_
      refine works_bind (works_lift (P := fun l => l = names)
        ((classVariants_iff hf hnn ⟨s, hi⟩).2 ⟨i, is, hids, hnames⟩) rfl) fun _ e => ?_
      subst e
      refine works_bind (works_each fun v hv => ?_) fun _ _ => works_pure trivial
      obtain ⟨j, hj, ht⟩ := hnames.mem hv
      obtain ⟨c, hc⟩ := nameable_iff.1 (h.variants n i is j v ⟨ast, 151, ho, h1, by decide, h2⟩ hids hj ht)
      exact works_bind (works_lift (P := fun _ => True) (camelCase_iff.1 hc) trivial) fun _ _ => works_pure trivial
    refine works_bind (works_each fun n hn => ?_) fun _ _ => works_pure trivial
    obtain ⟨h1, h2⟩ := childrenWith_mem hts n hn
    obtain ⟨s, hi, hc⟩ := named (by decide) h1 h2
    unfold genTrait
    refine works_bind (works_camelName hf hi hc) fun _ _ => ?_
    refine works_bind (works_methods hf hs h ⟨ast, 152, ho, h1, by decide, h2⟩) fun _ _ => ?_
    refine works_bind (works_each fun k hk => ?_) fun _ _ => works_pure trivial
    obtain ⟨h3, h4⟩ := childrenWith_mem hns k hk
    obtain ⟨s', hi', hc'⟩ := named (by decide) h3 h4
    have hev : ∃ ts ds, Eval (analysisBody f) (astNodeTraits f k) (some ts) ds := by
      obtain ⟨o, ds, he⟩ := ends_all (f := f) (astNodeTraits f k)
      cases o with
      | some ts => exact ⟨ts, ds, he⟩
      | none =>
        refine absurd he (safe_astNodeTraits hf (ofType_isNode h4) ?_ ds)
        rintro ⟨ast', t, g1, g2, g3, g4⟩
        cases firstChild_unique g1 ho
        obtain ⟨s, hi, -⟩ := named (by decide) g2 g3
        exact g4 s hi
    obtain ⟨tr, ds, he⟩ := hev
    unfold genImpl
    refine works_bind (works_get (q := .astNodeTraits k) (P := fun _ => True) he trivial) fun _ _ => ?_
    split
    · exact works_bind (works_camelName hf hi' hc') fun _ _ => works_pure trivial
    · exact works_pure trivial

omit hf hs in
theorem bodySays_many {k : MethodKind} {b : GenBody} (h : BodySays f k b) (t : Nat) :
    k ≠ .token t .many ∧ k ≠ .text t .many := by
  constructor <;> rintro rfl <;> cases h

omit hs in
theorem describable_of_says {escape : List UInt8 → List UInt8} {g : GenRest} (h : RestSays f escape g) : Describable f := by
  obtain ⟨⟨d, ts, hd, hts, hls⟩, hv, -, ha⟩ := h
  have nodup : ∀ {n P cs cs'}, IsNode f n → ChildrenWith f n P cs → ChildrenWith f n P cs' → cs = cs' :=
    fun hn h h' => childrenWith_unique hf hn h h'
  have mem : ∀ {n P cs c}, ChildrenWith f n P cs → Child f n c → P c → c ∈ cs := by
    rintro n P cs c ⟨all, h1, h2, h3⟩ ⟨all', e, hc⟩ hp
    rw [h1, Option.some.injEq] at e
    subst e
    exact (h3 c hc).2 hp
  have camel : ∀ {n c}, CamelName f n c → ∃ s, Ident f n s ∧ Nameable s := by
    rintro n c ⟨s, h1, h2⟩
    exact ⟨s, h1, nameable_iff.2 ⟨c, h2⟩⟩
  refine ⟨⟨d, hd⟩, fun d' t hd' hc ht hx => ?_, fun v hfv => ?_, fun n hn => ?_, fun c i is v s hc hids hm htext => ?_,
    fun n m hn hc hm => ?_⟩
  · cases firstChild_unique hd hd'
    obtain ⟨r, -, h1, h2, h3⟩ := pointwise_mem hls (mem hts hc ⟨ht, hx⟩)
    obtain ⟨lit, body, g1, g2, -⟩ := h2
    refine ⟨⟨lit, body, g1, g2⟩, fun ss c lit hss hc hl => ?_⟩
    cases hr : r.ext with
    | none =>
      rw [hr] at h3
      obtain ⟨ss', hss', hl'⟩ := h3
      cases nodup (ofType_isNode ht) hss hss'
      rw [List.getElem?_eq_none (by omega)] at hc
      cases hc
    | some b =>
      rw [hr] at h3
      obtain ⟨ss', c', lit', hss', hc', hl', hq⟩ := h3
      cases nodup (ofType_isNode ht) hss hss'
      rw [hc, Option.some.injEq] at hc'
      subst hc'
      rw [hl, Option.some.injEq] at hl'
      subst hl'
      exact ⟨b, hq⟩
  · cases hg : g.verbatim with
    | none =>
      rw [hg] at hv
      exact absurd hfv (hv v)
    | some t =>
      rw [hg] at hv
      obtain ⟨v', lit, s, h1, h2, h3, -⟩ := hv
      cases firstChild_unique h1 hfv
      exact ⟨lit, s, h2, h3⟩
  · obtain ⟨ast, ty, h1, h2, h3, h4⟩ := hn
    cases hg : g.ast with
    | none =>
      rw [hg] at ha
      exact absurd h1 (ha ast)
    | some a =>
      rw [hg] at ha
      obtain ⟨ast', ns, cs, ts, g1, g2, g3, g4, g5, g6, g7⟩ := ha
      cases firstChild_unique h1 g1
      simp only [List.mem_cons, List.not_mem_nil, or_false] at h3
      rcases h3 with rfl | rfl | rfl
      · obtain ⟨x, -, hx⟩ := pointwise_mem g3 (mem g2 h2 h4)
        exact camel hx.1
      · obtain ⟨x, -, hx⟩ := pointwise_mem g5 (mem g4 h2 h4)
        exact camel hx.1
      · obtain ⟨x, -, hx⟩ := pointwise_mem g7 (mem g6 h2 h4)
        exact camel hx.1
  · obtain ⟨ast, ty, h1, h2, h3, h4⟩ := hc
    cases hg : g.ast with
    | none =>
      rw [hg] at ha
      exact absurd h1 (ha ast)
    | some a =>
      rw [hg] at ha
      obtain ⟨ast', ns, cs, ts, g1, g2, g3, g4, g5, g6, g7⟩ := ha
      cases firstChild_unique h1 g1
      simp only [List.mem_cons, List.not_mem_nil, or_false] at h3
      subst h3
      obtain ⟨x, -, -, names, ⟨i', is', k1, k2⟩, k3⟩ := pointwise_mem g5 (mem g4 h2 h4)
      cases nodup (ofType_isNode h4) hids k1
      obtain ⟨s', hs', hs''⟩ := pointwise_mem k2 hm
      rw [htext, Option.some.injEq] at hs''
      subst hs''
      obtain ⟨y, -, hy⟩ := pointwise_mem k3 hs'
      exact nameable_iff.2 ⟨_, hy.2⟩
  · obtain ⟨ast, ty, h1, h2, h3, h4⟩ := hn
    have fin : ∀ {gs}, MethodsSay f n gs → (∃ s, Ident f m s) ∧ ∃ k, MethodMeans f m (some k) ∧
        ∀ t, k ≠ .token t .many ∧ k ≠ .text t .many := by
      rintro gs ⟨ms, k1, k2⟩
      obtain ⟨x, -, hx, k, k3, k4⟩ := pointwise_mem k2 (mem k1 hc hm)
      exact ⟨⟨_, hx⟩, k, k3, bodySays_many k4⟩
    cases hg : g.ast with
    | none =>
      rw [hg] at ha
      exact absurd h1 (ha ast)
    | some a =>
      rw [hg] at ha
      obtain ⟨ast', ns, cs, ts, g1, g2, g3, g4, g5, g6, g7⟩ := ha
      cases firstChild_unique h1 g1
      simp only [List.mem_cons, List.not_mem_nil, or_false] at h3
      rcases h3 with rfl | rfl
      · obtain ⟨x, -, hx⟩ := pointwise_mem g3 (mem g2 h2 h4)
        exact fin hx.2.2
      · obtain ⟨x, -, hx⟩ := pointwise_mem g7 (mem g6 h2 h4)
        exact fin hx.2.1

omit hf hs in
theorem generate_some {escape : List UInt8 → List UInt8} {g : GenFile} :
    (∃ ds, Eval (analysisBody f) (generate escape f) (some (some g)) ds) ↔
      (∃ ds, Eval (analysisBody f) (genParser f) (some (some (g.types, g.rules))) ds) ∧
      ∃ es, Gives f (genRest f escape) g.rules g.rest es := by
  constructor
  · rintro ⟨ds, h⟩
    unfold generate at h
    rw [eval_bind_some] at h
    obtain ⟨o, ds1, ds2, h1, h2, -⟩ := h
    cases o with
    | none => simp [eval_pure] at h2
    | some p =>
      obtain ⟨types, rules⟩ := p
      simp only [eval_bind_some] at h2
      obtain ⟨o, ds3, ds4, h3, h4, -⟩ := h2
      cases o with
      | none => simp [eval_pure] at h4
      | some r =>
        obtain ⟨rest, es⟩ := r
        simp only [eval_pure, Option.some.injEq] at h4
        obtain ⟨rfl, -⟩ := h4
        exact ⟨⟨_, h1⟩, es, _, h3⟩
  · rintro ⟨⟨ds1, h1⟩, es, ds2, h2⟩
    refine ⟨ds1 ++ (ds2 ++ []), ?_⟩
    unfold generate
    rw [eval_bind_some]
    refine ⟨_, _, _, h1, ?_, rfl⟩
    simp only [eval_bind_some]
    exact ⟨_, _, _, h2, eval_pure.2 ⟨rfl, rfl⟩, rfl⟩

end

end Fall
