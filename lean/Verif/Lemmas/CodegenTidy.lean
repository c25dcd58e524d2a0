import Verif.Lemmas.CodegenSucceeds

/-! The parser generator succeeds on tidy grammars in which the analysis finds no errors. -/

namespace Fall

open Spec AProg

section
variable {f : File UInt8}

theorem reports_error {m : String} {n : Nat} {ns : List Nat} {ds : List Diagnostic} (h : Reports f true m (n :: ns) ds) :
    ∃ d ∈ ds, d.error = true := by
  obtain ⟨rs, h1, rfl⟩ := h
  simp only [List.mapM_cons, Option.bind_eq_bind, Option.bind_eq_some_iff, Option.pure_def, Option.some.injEq] at h1
  obtain ⟨r, -, rs', -, rfl⟩ := h1
  exact ⟨⟨r, true, m⟩, by simp, rfl⟩

theorem countReport_error {call n : Nat} {args : List Nat} {ds : List Diagnostic} (h : CountReport f call n args ds)
    (hl : args.length ≠ n) : ∃ d ∈ ds, d.error = true := by
  rcases h with ⟨h, -⟩ | ⟨-, h⟩
  · exact absurd h hl
  · exact reports_error h

/-- A call without a meaning is reported. -/
theorem callMeans_error {call : Nat} {args : List Nat} {name : List UInt8} {ds : List Diagnostic}
    (h : CallMeans f call args name none ds) : ∃ d ∈ ds, d.error = true := by
  generalize hk : (none : Option CallKind) = k at h
  cases h with
  | noArgument _ ha h => exact countReport_error h (by simp [ha])
  | tooFew _ ha h => exact countReport_error h (by omega)
  | noContext _ _ _ _ _ h =>
    obtain ⟨d, hd, he⟩ := reports_error h
    exact ⟨d, by simp [hd], he⟩
  | unresolved _ _ _ h => exact reports_error h
  | _ => cases hk

/-- The lists have targets with a meaning. -/
theorem stood_pointwise {xs : List Nat} (h : ∀ x ∈ xs, Stood f x) :
    ∃ ts, Pointwise (Target f) xs ts ∧ ∀ m ∈ ts, OfType f 132 m ∨ Meaningful f m := by
  induction xs with
  | nil => exact ⟨[], .nil, by simp⟩
  | cons x xs ih =>
    obtain ⟨m, h1, h2⟩ := h x (by simp)
    obtain ⟨ts, h3, h4⟩ := ih fun y hy => h y (by simp [hy])
    exact ⟨m :: ts, .cons h1 h3, by simpa using ⟨h2, h4⟩⟩

theorem meaningful_of {n : Nat} {e : Expr} (h : Says f n e)
    (hm : ∀ m ∈ references e, OfType f 132 m ∨ Meaningful f m) : Meaningful f n :=
  .mk h fun m h1 h2 => (hm m h1).resolve_left h2

theorem commitAt_some (parts : List Nat) : ∃ c, CommitAt f parts c := by
  classical
  by_cases h : ∃ p ∈ parts, IsCommit f p
  · obtain ⟨x, pre, post, h1, h2, h3⟩ := first_exists h
    exact ⟨some pre.length, pre, x, post, h1, h2, h3, rfl⟩
  · exact ⟨none, fun p hp hc => h ⟨p, hp, hc⟩⟩

theorem exprType {n : Nat} (h : IsExpr f n) : OfType f 135 n ∨ OfType f 136 n ∨ OfType f 137 n ∨ OfType f 138 n ∨
    OfType f 139 n ∨ OfType f 140 n := by
  obtain ⟨ty, h1, h2⟩ := h
  have key : ∀ k : Nat, 135 ≤ k ∧ k ≤ 140 → k = 135 ∨ k = 136 ∨ k = 137 ∨ k = 138 ∨ k = 139 ∨ k = 140 := by
    intro k h
    omega
  rcases key ty (by simpa [FallExpr] using h2) with rfl | rfl | rfl | rfl | rfl | rfl
  · exact .inl h1
  · exact .inr (.inl h1)
  · exact .inr (.inr (.inl h1))
  · exact .inr (.inr (.inr (.inl h1)))
  · exact .inr (.inr (.inr (.inr (.inl h1))))
  · exact .inr (.inr (.inr (.inr (.inr h1))))

theorem pointwise_mem {R : α → β → Prop} {xs : List α} {ys : List β} (h : Pointwise R xs ys) {x : α} (hx : x ∈ xs) :
    ∃ y ∈ ys, R x y := by
  induction h with
  | nil => cases hx
  | cons h1 _ ih =>
    rcases List.mem_cons.1 hx with rfl | hx
    · exact ⟨_, by simp, h1⟩
    · obtain ⟨y, hy, h⟩ := ih hx
      exact ⟨y, by simp [hy], h⟩

theorem pointwise_total {R : α → β → Prop} {xs : List α} (h : ∀ x ∈ xs, ∃ y, R x y) : ∃ ys, Pointwise R xs ys := by
  induction xs with
  | nil => exact ⟨[], .nil⟩
  | cons x xs ih =>
    obtain ⟨y, hy⟩ := h x (by simp)
    obtain ⟨ys, h⟩ := ih fun x hx => h x (by simp [hx])
    exact ⟨y :: ys, .cons hy h⟩

variable (hf : ConsistentFile f)
include hf

theorem childrenWith_total {n : Nat} (hn : IsNode f n) (P : Nat → Prop) : ∃ cs, ChildrenWith f n P cs := by
  classical
  exact ⟨(kids f n).filter fun c => decide (P c), kids f n, children_kids hn, List.filter_sublist,
    fun c hc => by simp [hc]⟩

variable (hs : Shaped f)
include hs

theorem typeNames_total : ∃ ss, TypeNames f ss := by
  obtain ⟨types, h⟩ := genTypes_total hf hs
  exact ⟨_, genTypes_names hf h⟩

omit hf hs in
theorem typeNumber_of {ss : List (List UInt8)} (h : TypeNames f ss) {s : List UInt8} (hm : s ∈ ss) : ∃ k, TypeNumber f s k := by
  obtain ⟨a, b, rfl, hn⟩ := List.eq_append_cons_of_mem hm
  exact ⟨_, a, b, h, hn, rfl⟩

/-- Tokens have a type. -/
theorem token_type {s' s : List UInt8} {t : Nat} (ht : TokenNamed f s' t) (hi : Ident f t s) : ∃ k, TypeNumber f s k := by
  obtain ⟨ss, hss⟩ := typeNames_total hf hs
  obtain ⟨ts, rs, ss1, ss2, h1, h2, h3, h4, rfl⟩ := id hss
  obtain ⟨d, hd, cs, hcs, pre, post, hsplit, ⟨hty, -⟩, -⟩ := ht
  have hm : t ∈ ts := by
    rcases h1 with ⟨d', hd', all, e1, e2, e3⟩ | ⟨hno, -⟩
    · cases firstChild_unique hd hd'
      rw [hcs, Option.some.injEq] at e1
      subst e1
      exact (e3 t (by simp [hsplit])).2 hty
    · exact absurd hd (hno d)
  obtain ⟨s1, hm1, hi1⟩ := pointwise_mem h3 hm
  cases labelled_unique hi hi1
  exact typeNumber_of hss (by simp [hm1])

/-- Rules that make nodes have a type. -/
theorem rule_type (ht : Tidy f) {r : Nat} (hr : OfType f 132 r) (hc : Child f 0 r) {s : List UInt8}
    (h : MakesNodes f r s) : ∃ k, RuleType f r k := by
  obtain ⟨h1, h2, ⟨a, h3, h4⟩ | ⟨h3, h4⟩⟩ := id h
  · obtain ⟨k, hk⟩ := ht.type r a s hr h3 h4
    exact ⟨k, s, h, hk⟩
  · obtain ⟨ss, hss⟩ := typeNames_total hf hs
    obtain ⟨ts, rs, ss1, ss2, -, ⟨all, e1, e2, e3⟩, -, e4, rfl⟩ := id hss
    obtain ⟨cs, hcs, hm⟩ := hc
    rw [hcs, Option.some.injEq] at e1
    subst e1
    obtain ⟨s1, hm1, hi1⟩ := pointwise_mem e4 ((e3 r hm).2 ⟨hr, h1, h3, s, h4⟩)
    cases labelled_unique h4 hi1
    obtain ⟨k, hk⟩ := typeNumber_of hss (s := s) (by simp [hm1])
    exact ⟨k, s, h, hk⟩

omit hs in
/-- Parameters have numbers. -/
theorem param_number {r : Nat} (hr : OfType f 132 r) (hc : Child f 0 r) {pl p : Nat} {ps : List Nat}
    (h1 : FirstChild f r (OfType f 133) pl) (h2 : ChildrenWith f pl (OfType f 134) ps) (hp : p ∈ ps) :
    ∃ i, ParamNumber f p i := by
  obtain ⟨rs, h3⟩ := childrenWith_total hf (zero_isNode hf) (OfType f 132)
  obtain ⟨pss, h4⟩ := pointwise_total (R := ParamsOf f) (xs := rs) fun r hr => by
    by_cases h : ∃ pl, FirstChild f r (OfType f 133) pl
    · obtain ⟨pl, h⟩ := h
      obtain ⟨ps, h'⟩ := childrenWith_total hf (first_isNode hf h) (OfType f 134)
      exact ⟨ps, .inl ⟨pl, h, h'⟩⟩
    · exact ⟨[], .inr ⟨fun pl h' => h ⟨pl, h'⟩, rfl⟩⟩
  have hm : r ∈ rs := by
    obtain ⟨cs, hcs, hm⟩ := hc
    obtain ⟨all, e1, e2, e3⟩ := h3
    rw [hcs, Option.some.injEq] at e1
    subst e1
    exact (e3 r hm).2 hr
  obtain ⟨ps', hm', hps⟩ := pointwise_mem h4 hm
  cases paramsOf_unique hf hps (.inl ⟨pl, h1, h2⟩)
  obtain ⟨i, hi⟩ := List.getElem?_of_mem (List.mem_flatten.2 ⟨_, hm', hp⟩)
  exact ⟨i, rs, pss, h3, h4, hi⟩

omit hf hs in
theorem publicRefs_make {args rules : List Nat} {bad : Nat} (h : PublicRefs f args rules bad) :
    ∀ r ∈ rules, OfType f 132 r ∧ ∃ s, MakesNodes f r s := by
  induction h with
  | nil => simp
  | good g1 _ ih =>
    intro r hr
    rcases List.mem_cons.1 hr with rfl | hr
    · obtain ⟨-, ⟨s, rule, -, -, -, g2⟩, g3⟩ := g1
      exact ⟨(firstChild_child g2).2.1, g3⟩
    · exact ih r hr
  | bad _ _ ih => exact ih

omit hf hs in
theorem prevIs_rules {n : Nat} {args rs : List Nat} {name : List UInt8} {ds : List Diagnostic}
    (h : CallMeans f n args name (some (.prevIs rs)) ds) : ∀ r ∈ rs, OfType f 132 r ∧ ∃ s, MakesNodes f r s := by
  cases h with
  | prevIs g _ => exact publicRefs_make g

omit hs in
theorem firstChild_head {n e : Nat} {P : Nat → Prop} {rest : List Nat} (hn : IsNode f n)
    (h : ChildrenWith f n P (e :: rest)) : FirstChild f n P e := by
  have hm := childrenWith_mem h e (by simp)
  obtain ⟨x, hx⟩ := first_exists (xs := kids f n) (P := P) ⟨e, (child_parent hf hm.1).2.1, hm.2⟩
  obtain ⟨pre, post, e1, e2, e3⟩ := id hx
  classical
  have h' : ChildrenWith f n P ((kids f n).filter fun c => decide (P c)) :=
    ⟨kids f n, children_kids hn, List.filter_sublist, fun c hc => by simp [hc]⟩
  have := childrenWith_unique hf hn h h'
  rw [e1, List.filter_append, List.filter_eq_nil_iff.2 (fun y hy => by simpa using e3 y hy), List.nil_append,
    List.filter_cons_of_pos (by simpa using e2), List.cons.injEq] at this
  rw [this.1]
  exact ⟨kids f n, children_kids hn, hx⟩

omit hs in
theorem namesContext_parent {n c : Nat} (hc : Child f n c) (h : NamesContext f c) : OfType f 140 n ∧
    (∃ name, Ident f n name ∧ name ∈ [ascii "is_in", ascii "enter", ascii "exit"]) ∧ FirstChild f n (IsExpr f) c := by
  obtain ⟨call, s, h1, h2, ⟨name, arg, lit, h3, h4, -⟩, h5⟩ := h
  cases child_unique hf hc (firstChild_child h5).1
  exact ⟨h2, ⟨name, h3, h4⟩, h5⟩

omit hs in
/-- The parts of a call that are used are no names of contexts. -/
theorem callParts_noContext {n : Nat} (hn : OfType f 140 n) {name : List UInt8} (hi : Ident f n name) {args : List Nat}
    (ha : ChildrenWith f n (IsExpr f) args) {k : CallKind} {ds : List Diagnostic} (h : CallMeans f n args name (some k) ds)
    {x : Nat} (hx : x ∈ callParts k) : ¬ NamesContext f x := by
  intro hc
  obtain ⟨-, ⟨name', h1, h2⟩, h3⟩ := namesContext_parent hf (childrenWith_mem ha x (callMeans_parts h x hx)).1 hc
  cases labelled_unique hi h1
  have second : ∀ {e1 e2 : Nat} {rest : List Nat}, args = e1 :: e2 :: rest → x = e2 → False := by
    rintro e1 e2 rest rfl rfl
    cases firstChild_unique h3 (firstChild_head hf (ofType_isNode hn) ha)
    have := childrenWith_nodup hf ha
    simp at this
  cases h with
  | enter e _ _ _ | exit e _ _ _ => exact second e (by simpa [callParts] using hx)
  | rule hnb =>
    refine hnb ?_
    revert h2
    simp only [builtInNames, List.mem_cons, List.not_mem_nil, or_false, List.map_cons, List.map_nil]
    rintro (rfl | rfl | rfl) <;> simp
  | not | layer | withSkip | inject => exact absurd h2 (by decide)
  | _ => simp [callParts] at hx

variable (hx : RuleSyntax f) (ht : Tidy f) (hne : ∀ d, Problem f d → d.error = false)
include hx ht hne

/-- All expressions have a meaning, except for commits and names of contexts. -/
theorem expr_stood (k : Nat) : ∀ n, f.nodes.length ≤ k + n → IsExpr f n →
    ¬ (OfType f 140 n ∧ Ident f n (ascii "commit")) → ¬ NamesContext f n → Stood f n := by
  induction k with
  | zero =>
    intro n hl he
    obtain ⟨ty, h, -⟩ := he
    have hn : IsNode f n := ofType_isNode (ty := ty) h
    have : n < f.nodes.length := hn
    omega
  | succ k ih =>
    intro n hl he hnc hctx
    have child : ∀ {c : Nat}, Child f n c → IsExpr f c → ¬ (OfType f 140 c ∧ Ident f c (ascii "commit")) →
        ¬ NamesContext f c → Stood f c := fun hc hce h1 h2 =>
      ih _ (by have := (child_spec hf.nodes hc).1; omega) hce h1 h2
    have noCommit : ∀ {c : Nat} {T : NodeType}, Child f n c → OfType f T n → T ≠ 136 →
        ¬ (OfType f 140 c ∧ Ident f c (ascii "commit")) := by
      rintro c T hc hT hne136 ⟨h1, h2⟩
      obtain ⟨-, p, h3, h4⟩ := ht.commit c h1 h2
      cases child_unique hf hc h3
      exact clash hT h4 hne136
    have noContext : ∀ {c : Nat} {T : NodeType}, Child f n c → OfType f T n → T ≠ 140 → ¬ NamesContext f c :=
      fun hc hT h140 h => clash hT (namesContext_parent hf hc h).1 h140
    have plain : ∀ {c : Nat} {T : NodeType}, OfType f T n → T ≠ 136 → T ≠ 140 → Child f n c → IsExpr f c →
        Stood f c := fun hT h1 h2 hc hce => child hc hce (noCommit hc hT h1) (noContext hc hT h2)
    have self : ∀ {T : NodeType}, OfType f T n → T ≠ 135 → Meaningful f n → Stood f n := fun hT hne135 hm =>
      ⟨n, target_type hT hne135, .inr hm⟩
    rcases exprType he with h | h | h | h | h | h
    · obtain ⟨v, ds, hv, href⟩ := resolveRef_total hf hs h
      cases v with
      | none =>
        exfalso
        obtain ⟨r, hr⟩ : ∃ r, f.range n = some r := by
          have := ofType_isNode h
          exact ⟨_, by simp [File.range, data_dat this]; rfl⟩
        have := hne _ (.unresolvedRef ⟨n, r, ⟨h, href, hctx⟩, hr, rfl⟩)
        cases this
      | some v =>
        cases v with
        | rule r => exact ⟨r, .inl ⟨h, href⟩, .inl (refersTo_child hf href).2⟩
        | param p =>
          have hT : Target f n n := target_self fun r hr => by
            cases refersTo_unique hf href hr.2
          obtain ⟨s, rule, -, ⟨-, h1, -⟩, ps, h2, h3⟩ := id href
          obtain ⟨pc, pt⟩ := firstChild_child h3
          obtain ⟨pl, hpl⟩ := childrenWith_total hf (first_isNode hf h2) (OfType f 134)
          have hm : p ∈ pl := by
            obtain ⟨all, e1, e2, e3⟩ := hpl
            obtain ⟨cs, hcs, hm⟩ := pc
            rw [hcs, Option.some.injEq] at e1
            subst e1
            exact (e3 p hm).2 pt.1
          obtain ⟨i, hi⟩ := param_number hf h1 (hx.top rule h1) h2 hpl hm
          exact ⟨n, hT, .inr (meaningful_of (.param h href hi) (by simp [references]))⟩
        | token t =>
          have hT : Target f n n := target_self fun r hr => by
            cases refersTo_unique hf href hr.2
          obtain ⟨s, rule, -, -, -, -, htn⟩ := id href
          have hty : OfType f 142 t := by
            obtain ⟨d, -, cs, -, pre, post, -, ⟨h, -⟩, -⟩ := htn
            exact h
          obtain ⟨s', hi⟩ := hs.named 142 t (by simp) hty
          obtain ⟨k', hk⟩ := token_type hf hs htn hi
          by_cases ha : ∃ a, Attribute f t "contextual" a
          · obtain ⟨a, ha⟩ := ha
            obtain ⟨lit, text, h1, h2, h3⟩ := ht.contextual t a hty ha
            exact ⟨n, hT, .inr (meaningful_of (.contextual h href hi hk ha h1 h2 h3) (by simp [references]))⟩
          · exact ⟨n, hT, .inr (meaningful_of (.token h href hi hk fun a h => ha ⟨a, h⟩) (by simp [references]))⟩
    · refine self h (by decide) ?_
      have hn := ofType_isNode h
      obtain ⟨parts, h1⟩ := childrenWith_total hf hn (IsExpr f)
      obtain ⟨c, h2⟩ := commitAt_some (f := f) parts
      obtain ⟨kept, h3⟩ := childrenWith_total hf hn fun p => IsExpr f p ∧ ¬ IsCommit f p
      obtain ⟨ts, h4, h5⟩ := stood_pointwise (f := f) (xs := kept) fun x hx => by
        obtain ⟨g1, g2, g3⟩ := childrenWith_mem h3 x hx
        exact child g1 g2 (fun g => g3 (ht.commit x g.1 g.2).1) (noContext g1 h (by decide))
      exact meaningful_of (.seq h h1 h2 h3 h4) h5
    · refine self h (by decide) ?_
      obtain ⟨alts, h1⟩ := childrenWith_total hf (ofType_isNode h) (IsExpr f)
      obtain ⟨ts, h4, h5⟩ := stood_pointwise (f := f) (xs := alts) fun x hx =>
        plain h (by decide) (by decide) (childrenWith_mem h1 x hx).1 (childrenWith_mem h1 x hx).2
      exact meaningful_of (.block h h1 h4) h5
    · refine self h (by decide) ?_
      obtain ⟨b, hb⟩ := hx.operands n (.inl h)
      obtain ⟨m, h1, h2⟩ := plain h (by decide) (by decide) (firstChild_child hb).1 (firstChild_child hb).2
      exact meaningful_of (.opt h hb h1) (by simpa [references] using h2)
    · refine self h (by decide) ?_
      obtain ⟨b, hb⟩ := hx.operands n (.inr h)
      obtain ⟨m, h1, h2⟩ := plain h (by decide) (by decide) (firstChild_child hb).1 (firstChild_child hb).2
      exact meaningful_of (.rep h hb h1) (by simpa [references] using h2)
    · refine self h (by decide) ?_
      obtain ⟨v, ds, -, name, args, h1, h2, h3⟩ := resolveCall_total hf hs h
      cases v with
      | none =>
        exfalso
        obtain ⟨d, hd, he⟩ := callMeans_error h3
        have := hne d (.call h h1 h2 h3 hd)
        rw [this] at he
        cases he
      | some v =>
        have part : ∀ x ∈ callParts v, Stood f x := by
          intro x hxm
          obtain ⟨g1, g2⟩ := childrenWith_mem h2 x (callMeans_parts h3 x hxm)
          exact child g1 g2 (noCommit g1 h (by decide)) (callParts_noContext hf h h1 h2 h3 hxm)
        have done : ∀ {e : Expr}, CallSays f v e → (∀ m ∈ references e, OfType f 132 m ∨ Meaningful f m) → Meaningful f n :=
          fun g1 g2 => meaningful_of (.call h h1 h2 h3 g1) g2
        cases v with
        | any => exact done .any (by simp [references])
        | eof => exact done .eof (by simp [references])
        | isIn i => exact done .isIn (by simp [references])
        | commit =>
          exfalso
          refine hnc ⟨h, ?_⟩
          generalize hk : (some CallKind.commit) = k' at h3
          cases h3 with
          | commit => exact h1
          | _ => cases hk
        | not e =>
          obtain ⟨m, g1, g2⟩ := part e (by simp [callParts])
          exact done (.not g1) (by simpa [references] using g2)
        | layer e1 e2 =>
          obtain ⟨m, g1, g2⟩ := part e1 (by simp [callParts])
          obtain ⟨m', g3, g4⟩ := part e2 (by simp [callParts])
          exact done (.layer g1 g3) (by simpa [references] using ⟨g2, g4⟩)
        | withSkip e1 e2 =>
          obtain ⟨m, g1, g2⟩ := part e1 (by simp [callParts])
          obtain ⟨m', g3, g4⟩ := part e2 (by simp [callParts])
          exact done (.withSkip g1 g3) (by simpa [references] using ⟨g2, g4⟩)
        | inject e1 e2 =>
          obtain ⟨m, g1, g2⟩ := part e1 (by simp [callParts])
          obtain ⟨m', g3, g4⟩ := part e2 (by simp [callParts])
          exact done (.inject g1 g3) (by simpa [references] using ⟨g2, g4⟩)
        | enter i e =>
          obtain ⟨m, g1, g2⟩ := part e (by simp [callParts])
          exact done (.enter g1) (by simpa [references] using g2)
        | exit i e =>
          obtain ⟨m, g1, g2⟩ := part e (by simp [callParts])
          exact done (.exit g1) (by simpa [references] using g2)
        | prevIs rs =>
          have hrs : ∀ r ∈ rs, OfType f 132 r ∧ ∃ s, MakesNodes f r s := prevIs_rules h3
          obtain ⟨ks, hks⟩ := pointwise_total (R := RuleType f) (xs := rs) fun r hr => by
            obtain ⟨g1, s, g2⟩ := hrs r hr
            exact rule_type hf hs ht g1 (hx.top r g1) g2
          exact done (.prevIs hks) (by simp [references])
        | ruleCall r cargs =>
          obtain ⟨hr, hp⟩ : OfType f 132 r ∧ ∀ pe ∈ cargs, ∃ i, ParamNumber f pe.1 i := by
            generalize hk : (some (CallKind.ruleCall r cargs)) = k' at h3
            cases h3 with
            | rule _ g1 g2 g3 _ =>
              cases hk
              have hr := (ruleNamed_child hf g1).2
              exact ⟨hr, fun pe hpe => param_number hf hr (hx.top r hr) g2 g3 (List.of_mem_zip (a := pe.1) (b := pe.2) hpe).1⟩
            | _ => cases hk
          have hpart : ∀ pe ∈ cargs, Stood f pe.2 := fun pe hpe => part pe.2 (List.mem_map.2 ⟨pe, hpe, rfl⟩)
          obtain ⟨args', g1, g2⟩ : ∃ args' : List (Nat × Nat),
              Pointwise (fun pe it => ParamNumber f pe.1 it.1 ∧ Target f pe.2 it.2) cargs args' ∧
                ∀ m ∈ args'.map (·.2), OfType f 132 m ∨ Meaningful f m := by
            clear done part h3
            induction cargs with
            | nil => exact ⟨[], .nil, by simp⟩
            | cons pe rest ihr =>
              obtain ⟨i, hi⟩ := hp pe (by simp)
              obtain ⟨m, g1, g2⟩ := hpart pe (by simp)
              obtain ⟨as, g3, g4⟩ := ihr (fun q hq => hp q (by simp [hq])) (fun q hq => hpart q (by simp [hq]))
              exact ⟨(i, m) :: as, .cons ⟨hi, g1⟩ g3, by
                intro x hx
                rw [List.map_cons, List.mem_cons] at hx
                rcases hx with rfl | hx
                · exact g2
                · exact g4 x hx⟩
          refine done (.rule g1) ?_
          intro m hm
          simp only [references, List.mem_cons] at hm
          rcases hm with rfl | hm
          · exact .inl hr
          · exact g2 m hm

theorem expr_stands {n : Nat} (he : IsExpr f n) (h1 : ¬ (OfType f 140 n ∧ Ident f n (ascii "commit")))
    (h2 : ¬ NamesContext f n) : Stood f n :=
  expr_stood hf hs hx ht hne f.nodes.length n (by omega) he h1 h2

/-- The bodies of rules have a meaning. -/
theorem block_meaningful {r b : Nat} (hr : OfType f 132 r) (hb : FirstChild f r (IsExpr f) b) : Meaningful f b := by
  have h137 := hx.blocks r b hr hb
  obtain ⟨m, h1, h2⟩ := expr_stands hf hs hx ht hne (firstChild_child hb).2 (fun h => clash h137 h.1 (by decide))
    (fun h => clash hr (namesContext_parent hf (firstChild_child hb).1 h).1 (by decide))
  cases target_unique hf h1 (target_type h137 (by decide))
  exact h2.resolve_left fun h => clash h137 h (by decide)

/-- The operators of operator rules have a meaning. -/
theorem operator_stood {q a b : Nat} {kind : String} (hq : OfType f 132 q) (hk : OperatorKind f q kind a)
    (hna : kind ≠ "atom") (hb : FirstChild f q (IsExpr f) b) {parts : List Nat} (ho : OneSequence f b parts) {op : Nat}
    (hop : op ∈ parts) : Stood f op := by
  obtain ⟨-, alt, h1, h2, h3⟩ := ho
  obtain ⟨g1, g2⟩ := childrenWith_mem h3 op hop
  refine expr_stands hf hs hx ht hne g2 ?_ fun h => clash h2 (namesContext_parent hf g1 h).1 (by decide)
  rintro ⟨g3, g4⟩
  exact ht.operatorParts q kind a b alt op hq hk hna hb (childrenWith_mem h1 alt (by simp)).1 g1 (ht.commit op g3 g4).1

/-- The tables of operator expressions have a meaning. -/
theorem table_says {r a b : Nat} (hr : OfType f 132 r) (ha : Attribute f r "pratt" a) (hb : FirstChild f r (IsExpr f) b)
    (alts : List Nat) (halts : ∀ alt ∈ alts, Child f b alt ∧ IsExpr f alt) :
    ∃ table, TableSays f alts table ∧ ∀ m ∈ references (.pratt table), OfType f 132 m ∨ Meaningful f m := by
  induction alts with
  | nil => exact ⟨_, .nil, by simp [references]⟩
  | cons alt alts ih =>
    obtain ⟨⟨as, ps, is⟩, t1, t2⟩ := ih fun x hx => halts x (by simp [hx])
    obtain ⟨q, s, kind, a', h1, h2, h3, h4⟩ := ht.operators r a b alt hr ha hb (halts alt (by simp)).1 (halts alt (by simp)).2
    obtain ⟨-, part, -, -, sq, rule, -, -, -, hnamed⟩ := id h1
    obtain ⟨hqc, hq⟩ := ruleNamed_child hf hnamed
    obtain ⟨k, hk⟩ := rule_type hf hs ht hq hqc h2
    obtain ⟨o, ds, ho⟩ := ends_query (f := f) (.prattVariant q)
    cases o with
    | none =>
      exact absurd ho (safe_prattVariant hf hs (ofType_isNode hq) (fun h => (ht.body q hq).elim fun b hb => h.2.2 b hb) ds)
    | some v =>
      have hm := prattVariant_eval hf (ofType_isNode hq) ho
      simp only [references, List.mem_append, List.mem_map] at t2
      cases v with
      | none =>
        exfalso
        have bad : (∃ d ∈ ds, d.error = true) → False := by
          rintro ⟨d, hd, he⟩
          rw [hne d (.operator hq hm hd)] at he
          cases he
        generalize hv : (none : Option PrattVariant) = v at hm
        cases hm with
        | noName h =>
          obtain ⟨i, hi, -⟩ := (firstChild_child hnamed).2.2
          exact h i hi
        | noKind h => exact h kind h3 a' h4
        | alternatives _ _ _ _ _ _ _ h => exact bad (reports_error h)
        | otherShape _ _ _ hb' h =>
          rcases h with h | ⟨alt', g1, g2⟩
          · exact h (hx.blocks q _ hq hb')
          · have := childrenWith_mem g1 alt' (by simp)
            exact g2 (hx.alternatives _ alt' (hx.blocks q _ hq hb') this.1 this.2)
        | wrongPostfix _ _ _ _ _ h => exact bad (reports_error h)
        | wrongPrefix _ _ _ _ _ h => exact bad (reports_error h)
        | wrongBin _ _ _ _ _ h => exact bad (reports_error h)
        | noPriority _ _ _ _ _ _ h => exact bad (reports_error h)
        | _ => cases hv
      | some v =>
        cases v with
        | atom b' =>
          refine ⟨_, .atom h1 hk hm t1, ?_⟩
          simp only [references, List.mem_append, List.mem_map, List.mem_cons]
          rintro m ((( rfl | h) | h) | h)
          · exact .inl hq
          · exact t2 m (.inl (.inl h))
          · exact t2 m (.inl (.inr h))
          · exact t2 m (.inr h)
        | «postfix» op n =>
          obtain ⟨t, g1, g2⟩ : Stood f op := by
            cases hm with
            | «postfix» _ g1 g2 g3 => exact operator_stood hf hs hx ht hne hq g1 (by decide) g2 g3 (by simp)
          refine ⟨_, .postfixOp h1 hk hm g1 t1, ?_⟩
          simp only [references, List.mem_append, List.mem_map, List.mem_cons]
          rintro m ((h | h) | ⟨p, rfl | h, rfl⟩)
          · exact t2 m (.inl (.inl h))
          · exact t2 m (.inl (.inr h))
          · exact g2
          · exact t2 _ (.inr ⟨p, h, rfl⟩)
        | «prefix» op n =>
          obtain ⟨t, g1, g2⟩ : Stood f op := by
            cases hm with
            | «prefix» _ g1 g2 g3 => exact operator_stood hf hs hx ht hne hq g1 (by decide) g2 g3 (by simp)
          refine ⟨_, .prefixOp h1 hk hm g1 t1, ?_⟩
          simp only [references, List.mem_append, List.mem_map, List.mem_cons]
          rintro m ((h | ⟨p, rfl | h, rfl⟩) | h)
          · exact t2 m (.inl (.inl h))
          · exact g2
          · exact t2 _ (.inl (.inr ⟨p, h, rfl⟩))
          · exact t2 m (.inr h)
        | bin op n =>
          obtain ⟨t, g1, g2⟩ : Stood f op := by
            cases hm with
            | bin _ g1 g2 g3 => exact operator_stood hf hs hx ht hne hq g1 (by decide) g2 g3 (by simp)
          refine ⟨_, .bin h1 hk hm g1 t1, ?_⟩
          simp only [references, List.mem_append, List.mem_map, List.mem_cons]
          rintro m ((h | h) | ⟨p, rfl | h, rfl⟩)
          · exact t2 m (.inl (.inl h))
          · exact t2 m (.inl (.inr h))
          · exact g2
          · exact t2 _ (.inr ⟨p, h, rfl⟩)

/-- The bodies of rules have a meaning, with tables for operator expressions. -/
theorem bodyOf_meaningful {r : Nat} (hr : OfType f 132 r) : ∃ t, BodyOf f r t ∧ Meaningful f t := by
  obtain ⟨b, hb⟩ := ht.body r hr
  have h137 := hx.blocks r b hr hb
  by_cases h : ∃ a, Attribute f r "pratt" a
  · obtain ⟨a, ha⟩ := h
    obtain ⟨alts, h1⟩ := childrenWith_total hf (ofType_isNode h137) (IsExpr f)
    obtain ⟨table, h2, h3⟩ := table_says hf hs hx ht hne hr ha hb alts fun x hx => childrenWith_mem h1 x hx
    exact ⟨a, .inl ha, meaningful_of (.table hr ha hb h137 h1 h2) h3⟩
  · exact ⟨b, .inr ⟨fun a ha => h ⟨a, ha⟩, b, hb, target_type h137 (by decide)⟩, block_meaningful hf hs hx ht hne hr hb⟩

/-- In a tidy grammar without errors, all rules have a meaning. -/
theorem meaningful_of_tidy : MeaningfulRules f := by
  intro r hc hr
  obtain ⟨t, h1, h2⟩ := bodyOf_meaningful hf hs hx ht hne hr
  have one : ∀ {e : Expr} {m : Nat}, Says f r e → references e = [m] → Meaningful f m → Meaningful f r :=
    fun g1 g2 g3 => meaningful_of g1 (by simp [g2, g3])
  have rep : ∃ replaceable : Bool, replaceable = true ↔ ∃ a, Attribute f r "replaceable" a := by
    classical
    exact ⟨decide (∃ a, Attribute f r "replaceable" a), by simp⟩
  obtain ⟨replaceable, hrep⟩ := rep
  by_cases hR : ∃ a, Attribute f r "replaces" a
  · obtain ⟨a, ha⟩ := hR
    obtain ⟨s, hs'⟩ := ht.replaces r a hr ha
    obtain ⟨k, hk⟩ := rule_type hf hs ht hr hc hs'
    exact one (.replaces hr hk ha h1) rfl h2
  · have hR : ∀ a, ¬ Attribute f r "replaces" a := fun a ha => hR ⟨a, ha⟩
    by_cases hC : ∃ a, Attribute f r "cached" a
    · obtain ⟨a, ha⟩ := hC
      by_cases hT : ∃ k, RuleType f r k
      · obtain ⟨k, hk⟩ := hT
        exact one (.pubCached hr hk hR ha hrep) rfl (meaningful_of (.memory hr ha h1) (by simp [references, h2]))
      · exact one (.cached hr (fun k hk => hT ⟨k, hk⟩) hR ha h1) rfl h2
    · have hC : ∀ a, ¬ Attribute f r "cached" a := fun a ha => hC ⟨a, ha⟩
      by_cases hT : ∃ k, RuleType f r k
      · obtain ⟨k, hk⟩ := hT
        exact one (.pub hr hk hR hC h1 hrep) rfl h2
      · obtain ⟨e, g1, g2⟩ := h2.parts
        exact meaningful_of (.plain hr (fun k hk => hT ⟨k, hk⟩) hR hC h1 g1) g2

end

end Fall
