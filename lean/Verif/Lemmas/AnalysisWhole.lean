import Verif.Lemmas.AnalysisTyped

namespace Fall

open Spec AProg

/-! ## The specified answers are unique -/

section
variable {f : File UInt8}

theorem reports_unique {e : Bool} {m : String} {ns : List Nat} {ds ds' : List Diagnostic} (h : Reports f e m ns ds)
    (h' : Reports f e m ns ds') : ds = ds' := by
  obtain ⟨rs, h1, rfl⟩ := h
  obtain ⟨rs', h2, rfl⟩ := h'
  rw [h1, Option.some.injEq] at h2
  rw [h2]

theorem reports_mem {e : Bool} {m : String} {ns : List Nat} {ds : List Diagnostic} (h : Reports f e m ns ds)
    (d : Diagnostic) : d ∈ ds ↔ ∃ n ∈ ns, ∃ r, f.range n = some r ∧ d = ⟨r, e, m⟩ := by
  obtain ⟨rs, h1, rfl⟩ := h
  induction ns generalizing rs with
  | nil =>
    rw [List.mapM_nil] at h1
    cases h1
    simp
  | cons n ns ih =>
    rw [List.mapM_cons] at h1
    simp only [Option.bind_eq_bind, Option.bind_eq_some_iff, Option.pure_def, Option.some.injEq] at h1
    obtain ⟨r, hr, rs', h2, rfl⟩ := h1
    rw [List.map_cons, List.mem_cons, ih _ h2]
    simp [hr]

theorem countReport_unique {call n : Nat} {args : List Nat} {ds ds' : List Diagnostic}
    (h : CountReport f call n args ds) (h' : CountReport f call n args ds') : ds = ds' := by
  rcases h with ⟨h1, rfl⟩ | ⟨h1, h2⟩ <;> rcases h' with ⟨h3, rfl⟩ | ⟨h3, h4⟩
  · rfl
  · exact absurd h1 h3
  · exact absurd h3 h1
  · exact reports_unique h2 h4

theorem quoted_unique {lit s s' : List UInt8} (h : Quoted lit s) (h' : Quoted lit s') : s = s' := by
  rw [← litBody_iff] at h h'
  exact Option.some.inj (h.symm.trans h')

theorem contextName_unique {call : Nat} {s s' : List UInt8} (h : ContextName f call s) (h' : ContextName f call s') :
    s = s' := by
  obtain ⟨n, a, l, h1, h2, h3, h4, h5⟩ := h
  obtain ⟨n', a', l', h1', h2', h3', h4', h5'⟩ := h'
  cases firstChild_unique h3 h3'
  cases labelled_unique h4 h4'
  exact quoted_unique h5 h5'

theorem sorted_unique {xs ys : List (List UInt8)} (hx : xs.Pairwise (· < ·)) (hy : ys.Pairwise (· < ·))
    (h : ∀ s, s ∈ xs ↔ s ∈ ys) : xs = ys := by
  have irr : ∀ s : List UInt8, ¬ s < s := fun s => List.lt_irrefl s
  have nd : ∀ {zs : List (List UInt8)}, zs.Pairwise (· < ·) → zs.Nodup := by
    intro zs h
    refine h.imp fun {a b} h e => ?_
    subst e
    exact irr _ h
  have hp : xs.Perm ys := (List.perm_ext_iff_of_nodup (nd hx) (nd hy)).2 h
  exact hp.eq_of_pairwise (fun a b _ _ h1 h2 => absurd (List.lt_trans h1 h2) (irr a)) hx hy

theorem contexts_unique {c c' : List (List UInt8)} (h : Contexts f c) (h' : Contexts f c') : c = c' :=
  sorted_unique h.1 h'.1 fun s => (h.2 s).trans (h'.2 s).symm

theorem contextNumber_unique {s : List UInt8} {i j : Nat} (h : ContextNumber f s i) (h' : ContextNumber f s j) : i = j := by
  obtain ⟨c, h1, h2⟩ := h
  obtain ⟨c', h1', h2'⟩ := h'
  cases contexts_unique h1 h1'
  have := h1.1
  rw [List.pairwise_iff_getElem] at this
  obtain ⟨hi, e1⟩ := List.getElem?_eq_some_iff.1 h2
  obtain ⟨hj, e2⟩ := List.getElem?_eq_some_iff.1 h2'
  rcases Nat.lt_trichotomy i j with h | h | h
  · have := this i j hi hj h
    rw [e1, e2] at this
    exact absurd this (List.lt_irrefl _)
  · exact h
  · have := this j i hj hi h
    rw [e1, e2] at this
    exact absurd this (List.lt_irrefl _)

theorem publicRef_unique (hf : ConsistentFile f) {a r r' : Nat} (h : PublicRef f a r) (h' : PublicRef f a r') : r = r' := by
  have := refersTo_unique hf h.2.1 h'.2.1
  cases this
  rfl

theorem publicRefs_unique (hf : ConsistentFile f) {args rs rs' : List Nat} {n n' : Nat} (h : PublicRefs f args rs n)
    (h' : PublicRefs f args rs' n') : rs = rs' ∧ n = n' := by
  induction h generalizing rs' n' with
  | nil => cases h'; exact ⟨rfl, rfl⟩
  | good h1 _ ih =>
    cases h' with
    | good h2 h3 =>
      obtain ⟨rfl, rfl⟩ := ih h3
      exact ⟨by rw [publicRef_unique hf h1 h2], rfl⟩
    | bad h2 _ => exact absurd h1 (h2 _)
  | bad h1 _ ih =>
    cases h' with
    | good h2 _ => exact absurd h2 (h1 _)
    | bad h2 h3 =>
      obtain ⟨rfl, rfl⟩ := ih h3
      exact ⟨rfl, rfl⟩

theorem childrenWith_unique (hf : ConsistentFile f) {n : Nat} (hn : IsNode f n) {P : Nat → Prop} {cs cs' : List Nat}
    (h : ChildrenWith f n P cs) (h' : ChildrenWith f n P cs') : cs = cs' := by
  classical
  have key : ∀ cs, ChildrenWith f n P cs → cs = (kids f n).filter fun c => decide (P c) := by
    rintro cs ⟨all, h1, h2, h3⟩
    rw [children_kids hn, Option.some.injEq] at h1
    subst h1
    have hnd := kids_nodup hf.nodes hn
    have : cs.Sublist ((kids f n).filter fun c => decide (P c)) := by
      refine sublist_filter h2 fun x hx => ?_
      simpa using (h3 x (h2.subset hx)).1 hx
    have hp : cs.Perm ((kids f n).filter fun c => decide (P c)) := by
      rw [List.perm_ext_iff_of_nodup (h2.nodup hnd) (hnd.filter _)]
      intro x
      refine ⟨fun hx => this.subset hx, fun hx => ?_⟩
      rw [List.mem_filter] at hx
      exact (h3 x hx.1).2 (by simpa using hx.2)
    exact this.eq_of_length hp.length_eq
  rw [key _ h, key _ h']

theorem callMeans_unique (hf : ConsistentFile f) {call : Nat} {args : List Nat} {name name' : List UInt8}
    {k k' : Option CallKind} {ds ds' : List Diagnostic} (h : CallMeans f call args name k ds)
    (h' : CallMeans f call args name' k' ds') (hn : name = name') : k = k' ∧ ds = ds' := by
  cases h <;> cases h' <;> first
    | exact absurd hn (by decide)
    | (subst hn; exact absurd ‹_ ∈ List.map ascii _› (by decide))
    | (subst hn; exact (‹¬ _ ∈ builtInNames› (by decide)).elim)
    | (subst hn
       have hm : _ ∧ _ ∨ _ ∈ List.map ascii _ ∧ _ := ‹_›
       rcases hm with ⟨hm, -⟩ | ⟨hm, -⟩
       · exact absurd hm (by decide)
       · exact absurd hm (by decide))
    | (subst hn
       have hm : _ ∧ _ ∨ _ ∈ List.map ascii _ ∧ _ := ‹_›
       have hb : ¬ _ ∈ builtInNames := ‹_›
       exfalso
       apply hb
       rcases hm with ⟨rfl, -⟩ | ⟨hm, -⟩
       · decide
       · simp only [List.map_cons, List.map_nil, List.mem_cons, List.not_mem_nil, or_false] at hm
         rcases hm with rfl | rfl <;> decide)
    | (exfalso
       subst hn
       have hm : _ ∈ List.map ascii _ := ‹_›
       have hb : ¬ _ ∈ builtInNames := ‹_›
       apply hb
       simp only [List.map_cons, List.map_nil, List.mem_cons, List.not_mem_nil, or_false] at hm
       rcases hm with rfl | rfl | rfl | rfl | rfl <;> decide)
    | (subst_vars; simp at *; done)
    | exact ⟨rfl, countReport_unique ‹_› ‹_›⟩
    | exact absurd ‹ContextName f call _› (‹∀ s, ¬ ContextName f call s› _)
    | (exfalso
       have h1 : args = _ :: _ :: _ := ‹_›
       have h2 : args.length < 2 := ‹_›
       rw [h1] at h2
       simp only [List.length_cons] at h2
       omega)
    | skip
  case not.not =>
    rename_i h1 h2 _ _ h3 h4
    cases h1.symm.trans h3
    exact ⟨rfl, countReport_unique h2 h4⟩
  case layer.layer =>
    rename_i h1 h2 _ _ _ h3 h4
    cases h1.symm.trans h3
    exact ⟨rfl, countReport_unique h2 h4⟩
  case withSkip.withSkip =>
    rename_i h1 h2 _ _ _ h3 h4
    cases h1.symm.trans h3
    exact ⟨rfl, countReport_unique h2 h4⟩
  case inject.inject =>
    rename_i h1 h2 _ _ _ h3 h4
    cases h1.symm.trans h3
    exact ⟨rfl, countReport_unique h2 h4⟩
  case isIn.isIn =>
    rename_i h1 h2 h3 h4 _ _ _ _ h5 h6 h7 h8
    cases contextName_unique h2 h6
    cases contextNumber_unique h3 h7
    exact ⟨rfl, countReport_unique h4 h8⟩
  case enter.enter =>
    rename_i h1 h2 h3 h4 _ _ _ _ _ h5 h6 h7 h8
    cases h1.symm.trans h5
    cases contextName_unique h2 h6
    cases contextNumber_unique h3 h7
    exact ⟨rfl, countReport_unique h4 h8⟩
  case exit.exit =>
    rename_i h1 h2 h3 h4 _ _ _ _ _ h5 h6 h7 h8
    cases h1.symm.trans h5
    cases contextName_unique h2 h6
    cases contextNumber_unique h3 h7
    exact ⟨rfl, countReport_unique h4 h8⟩
  case noArgument.tooFew =>
    rename_i h1 _ _ h2 _
    subst hn
    simp only [List.map_cons, List.map_nil, List.mem_cons, List.not_mem_nil, or_false] at h1
    rcases h1 with rfl | rfl <;> exact absurd h2 (by decide)
  case tooFew.noArgument =>
    rename_i h2 _ _ h1 _
    subst hn
    simp only [List.map_cons, List.map_nil, List.mem_cons, List.not_mem_nil, or_false] at h1
    rcases h1 with rfl | rfl <;> exact absurd h2 (by decide)
  case tooFew.noContext =>
    rename_i h1 h2 h3 _ _ _ _ _ h4 _ _ _ _ h5
    subst hn
    rcases h5 with ⟨rfl, rfl⟩ | ⟨-, rfl⟩
    · exact absurd h2 (by decide)
    · omega
  case noContext.tooFew =>
    rename_i h4 _ _ _ _ h5 h1 h2 h3
    subst hn
    rcases h5 with ⟨rfl, rfl⟩ | ⟨-, rfl⟩
    · exact absurd h2 (by decide)
    · omega
  case noContext.noContext =>
    rename_i n1 _ _ _ _ _ _ h1 h2 h3 h4 n2 _ _ _ _ _ _ h5 h6 h7 h8
    subst hn
    cases h2.symm.trans h6
    have hnn : n1 = n2 := by
      rcases h4 with ⟨rfl, rfl⟩ | ⟨g1, rfl⟩ <;> rcases h8 with ⟨g2, rfl⟩ | ⟨g2, rfl⟩
      · rfl
      · exact absurd g2 (by decide)
      · subst g2
        exact absurd g1 (by decide)
      · rfl
    subst hnn
    exact ⟨rfl, by rw [countReport_unique h1 h5, reports_unique h3 h7]⟩
  case prevIs.prevIs =>
    rename_i h1 h2 _ _ h3 h4
    obtain ⟨rfl, rfl⟩ := publicRefs_unique hf h1 h3
    exact ⟨rfl, reports_unique h2 h4⟩
  case rule.rule =>
    rename_i h1 h2 _ h3 h4 _ _ _ g1 g2 _ g3 g4
    subst hn
    cases firstChild_unique h3 g3
    cases firstChild_unique h1 g1
    cases childrenWith_unique hf (first_isNode hf h1) h2 g2
    refine ⟨rfl, ?_⟩
    rcases h4 with ⟨_, rfl⟩ | ⟨e1, h4⟩ <;> rcases g4 with ⟨_, rfl⟩ | ⟨e2, g4⟩
    · rfl
    · exact absurd ‹_› e2
    · exact absurd ‹_› e1
    · exact reports_unique h4 g4
  case rule.unresolved =>
    rename_i h1 h2 _ h3 h4 _ _ _ g1 _
    subst hn
    exact absurd h1 (g1 _ _ h3)
  case unresolved.rule =>
    rename_i g1 _ _ _ _ h1 _ _ h3 _
    subst hn
    exact absurd h1 (g1 _ _ h3)
  case unresolved.unresolved =>
    rename_i h1 _ _ h2 _ h3 _ _ h4
    cases firstChild_unique h1 h3
    exact ⟨rfl, reports_unique h2 h4⟩

/-! ## Operators -/

theorem operatorKind_unique (hf : ConsistentFile f) {rule a a' : Nat} {k k' : String} (h : OperatorKind f rule k a)
    (h' : OperatorKind f rule k' a') : k = k' ∧ a = a' := by
  obtain ⟨pre, post, e, h1, h2⟩ := h
  obtain ⟨pre', post', e', h1', h2'⟩ := h'
  have : pre.length = pre'.length := by
    rcases Nat.lt_trichotomy pre.length pre'.length with h | h | h
    · exfalso
      refine h2' k ?_ a h1
      rw [e] at e'
      rw [List.mem_iff_getElem]
      refine ⟨pre.length, h, ?_⟩
      have : (pre ++ k :: post)[pre.length]? = (pre' ++ k' :: post')[pre.length]? := by rw [e']
      rw [List.getElem?_append_right (Nat.le_refl _), List.getElem?_append_left h] at this
      rw [List.getElem?_eq_getElem h] at this
      simpa using this.symm
    · exact h
    · exfalso
      refine h2 k' ?_ a' h1'
      rw [e] at e'
      rw [List.mem_iff_getElem]
      refine ⟨pre'.length, h, ?_⟩
      have : (pre ++ k :: post)[pre'.length]? = (pre' ++ k' :: post')[pre'.length]? := by rw [e']
      rw [List.getElem?_append_right (Nat.le_refl pre'.length) , List.getElem?_append_left h] at this
      rw [List.getElem?_eq_getElem h] at this
      simpa using this
  obtain ⟨-, e2⟩ := List.append_inj (e.symm.trans e') this
  cases e2
  exact ⟨rfl, attribute_unique hf h1 h1'⟩

theorem decimal_unique {s : List UInt8} {n n' : Nat} (h : Decimal s n) (h' : Decimal s n') : n = n' := by
  rw [← parseU32_iff] at h h'
  exact Option.some.inj (h.symm.trans h')

theorem attrNumber_unique {a n n' : Nat} (h : AttrNumber f a n) (h' : AttrNumber f a n') : n = n' := by
  obtain ⟨s, h1, h2⟩ := h
  obtain ⟨s', h1', h2'⟩ := h'
  cases labelled_unique h1 h1'
  exact decimal_unique h2 h2'

theorem priority_unique {a n n' : Nat} (h : PriorityOr999 f a n) (h' : PriorityOr999 f a n') : n = n' := by
  rcases h with h | ⟨h, rfl⟩ <;> rcases h' with h' | ⟨h', rfl⟩
  · exact attrNumber_unique h h'
  · exact absurd h (h' _)
  · exact absurd h' (h _)
  · rfl

theorem oneSequence_unique (hf : ConsistentFile f) {b : Nat} {es es' : List Nat} (h : OneSequence f b es)
    (h' : OneSequence f b es') : es = es' := by
  obtain ⟨h1, alt, h2, h3, h4⟩ := h
  obtain ⟨h1', alt', h2', h3', h4'⟩ := h'
  cases childrenWith_unique hf (ofType_isNode h1) h2 h2'
  exact childrenWith_unique hf (ofType_isNode h3) h4 h4'

theorem oneSequence_no (hf : ConsistentFile f) {b : Nat} {es : List Nat} (h : OneSequence f b es) :
    ¬ (¬ OfType f 137 b ∨ ∃ alt, ChildrenWith f b (IsExpr f) [alt] ∧ ¬ OfType f 136 alt) := by
  obtain ⟨h1, alt, h2, h3, h4⟩ := h
  rintro (h | ⟨alt', h5, h6⟩)
  · exact h h1
  · cases childrenWith_unique hf (ofType_isNode h1) h2 h5
    exact h6 h3

theorem operatorKind_mem {rule a : Nat} {k : String} (h : OperatorKind f rule k a) :
    k ∈ operatorKinds ∧ Attribute f rule k a := by
  obtain ⟨pre, post, e, h1, -⟩ := h
  exact ⟨by rw [e]; simp, h1⟩

/-- What remains of `OperatorMeans` when name, kind, attribute and body are known. -/
inductive OperatorCore (f : File UInt8) (ident : Nat) (kind : String) (a b : Nat) :
    Option PrattVariant → List Diagnostic → Prop where
  | atom : kind = "atom" → ((∃ n, AttrNumber f a n) ∧ Reports f true "Atom rules don't have priority" [ident] ds ∨
       (∀ n, ¬ AttrNumber f a n) ∧ ds = []) → OperatorCore f ident kind a b (some (.atom b)) ds
  | postfix : kind = "postfix" → OneSequence f b [e, op] → PriorityOr999 f a n →
      OperatorCore f ident kind a b (some (.postfix op n)) []
  | prefix : kind = "prefix" → OneSequence f b [op, e] → PriorityOr999 f a n →
      OperatorCore f ident kind a b (some (.prefix op n)) []
  | bin : kind = "bin" → OneSequence f b [e1, op, e2] → AttrNumber f a n →
      OperatorCore f ident kind a b (some (.bin op n)) []
  | alternatives : kind ≠ "atom" → OfType f 137 b → ChildrenWith f b (IsExpr f) es → es.length ≠ 1 →
      Reports f true "Expression rule requires a single alternative" [b] ds → OperatorCore f ident kind a b none ds
  | otherShape : kind ≠ "atom" →
      (¬ OfType f 137 b ∨ ∃ alt, ChildrenWith f b (IsExpr f) [alt] ∧ ¬ OfType f 136 alt) →
      OperatorCore f ident kind a b none []
  | wrongPostfix : kind = "postfix" → OneSequence f b es → es.length ≠ 2 →
      Reports f true "Postfix rule requires a single expression and an operation" [b] ds →
      OperatorCore f ident kind a b none ds
  | wrongPrefix : kind = "prefix" → OneSequence f b es → es.length ≠ 2 →
      Reports f true "Prefix rule requires an operation and a single expression" [b] ds →
      OperatorCore f ident kind a b none ds
  | wrongBin : kind = "bin" → OneSequence f b es → es.length ≠ 3 →
      Reports f true ("Binary expression requires a left hand side expression, an operator " ++
        "and a right hand side expression") [b] ds → OperatorCore f ident kind a b none ds
  | noPriority : kind = "bin" → OneSequence f b es → es.length = 3 → (∀ n, ¬ AttrNumber f a n) →
      Reports f true "Binary expression requires explicit priority" [ident] ds → OperatorCore f ident kind a b none ds

theorem operatorMeans_core {rule : Nat} {k : Option PrattVariant} {ds : List Diagnostic} (h : OperatorMeans f rule k ds) :
    (k = none ∧ ds = [] ∧ ((∀ i, ¬ FirstChild f rule (OfType f 130) i) ∨
      ∀ k ∈ operatorKinds, ∀ a, ¬ Attribute f rule k a)) ∨
    ∃ ident kind a b, FirstChild f rule (OfType f 130) ident ∧ OperatorKind f rule kind a ∧
      FirstChild f rule (IsExpr f) b ∧ OperatorCore f ident kind a b k ds := by
  cases h with
  | noName h => exact .inl ⟨rfl, rfl, .inl h⟩
  | noKind h => exact .inl ⟨rfl, rfl, .inr h⟩
  | atom h1 h2 h3 h4 => exact .inr ⟨_, _, _, _, h1, h2, h3, .atom rfl h4⟩
  | «postfix» h1 h2 h3 h4 h5 => exact .inr ⟨_, _, _, _, h1, h2, h3, .postfix rfl h4 h5⟩
  | «prefix» h1 h2 h3 h4 h5 => exact .inr ⟨_, _, _, _, h1, h2, h3, .prefix rfl h4 h5⟩
  | bin h1 h2 h3 h4 h5 => exact .inr ⟨_, _, _, _, h1, h2, h3, .bin rfl h4 h5⟩
  | alternatives h1 h2 h4 h3 h5 h6 h7 h8 => exact .inr ⟨_, _, _, _, h1, h2, h3, .alternatives h4 h5 h6 h7 h8⟩
  | otherShape h1 h2 h4 h3 h5 => exact .inr ⟨_, _, _, _, h1, h2, h3, .otherShape h4 h5⟩
  | wrongPostfix h1 h2 h3 h4 h5 h6 => exact .inr ⟨_, _, _, _, h1, h2, h3, .wrongPostfix rfl h4 h5 h6⟩
  | wrongPrefix h1 h2 h3 h4 h5 h6 => exact .inr ⟨_, _, _, _, h1, h2, h3, .wrongPrefix rfl h4 h5 h6⟩
  | wrongBin h1 h2 h3 h4 h5 h6 => exact .inr ⟨_, _, _, _, h1, h2, h3, .wrongBin rfl h4 h5 h6⟩
  | noPriority h1 h2 h3 h4 h5 h6 h7 => exact .inr ⟨_, _, _, _, h1, h2, h3, .noPriority rfl h4 h5 h6 h7⟩

theorem oneSequence_many (hf : ConsistentFile f) {b : Nat} {es es' : List Nat} (h : OneSequence f b es)
    (h' : ChildrenWith f b (IsExpr f) es') (hl : es'.length ≠ 1) : False := by
  obtain ⟨h1, alt, h2, h3, h4⟩ := h
  cases childrenWith_unique hf (ofType_isNode h1) h2 h'
  exact hl rfl

theorem operatorCore_unique (hf : ConsistentFile f) {ident a b : Nat} {kind : String}
    {k k' : Option PrattVariant} {ds ds' : List Diagnostic} (h : OperatorCore f ident kind a b k ds)
    (h' : OperatorCore f ident kind a b k' ds') : k = k' ∧ ds = ds' := by
  cases h <;> cases h' <;> first
    | exact ⟨rfl, rfl⟩
    | exact ⟨rfl, reports_unique ‹_› ‹_›⟩
    | exact absurd ‹kind = "atom"› ‹kind ≠ "atom"›
    | (subst kind; exact absurd ‹(_ : String) = _› (by decide))
    | exact (oneSequence_many hf ‹_› ‹_› ‹_›).elim
    | exact (oneSequence_no hf ‹_› ‹_›).elim
    | skip
  case atom.atom =>
    rename_i h1 _ h2
    refine ⟨rfl, ?_⟩
    rcases h1 with ⟨⟨n, h1⟩, h3⟩ | ⟨h1, rfl⟩ <;> rcases h2 with ⟨⟨n', h2⟩, h4⟩ | ⟨h2, rfl⟩
    · exact reports_unique h3 h4
    · exact absurd h1 (h2 _)
    · exact absurd h2 (h1 _)
    · rfl
  case postfix.postfix =>
    rename_i h1 h2 _ _ _ _ h3 h4
    cases oneSequence_unique hf h1 h3
    cases priority_unique h2 h4
    exact ⟨rfl, rfl⟩
  case prefix.prefix =>
    rename_i h1 h2 _ _ _ _ h3 h4
    cases oneSequence_unique hf h1 h3
    cases priority_unique h2 h4
    exact ⟨rfl, rfl⟩
  case bin.bin =>
    rename_i h1 h2 _ _ _ _ _ h3 h4
    cases oneSequence_unique hf h1 h3
    cases attrNumber_unique h2 h4
    exact ⟨rfl, rfl⟩
  case postfix.wrongPostfix =>
    rename_i h1 h2 _ _ h3 h4 _
    cases oneSequence_unique hf h1 h3
    exact absurd rfl h4
  case prefix.wrongPrefix =>
    rename_i h1 h2 _ _ h3 h4 _
    cases oneSequence_unique hf h1 h3
    exact absurd rfl h4
  case bin.wrongBin =>
    rename_i h1 h2 _ _ h3 h4 _
    cases oneSequence_unique hf h1 h3
    exact absurd rfl h4
  case wrongPostfix.postfix =>
    rename_i h3 h4 _ _ _ _ _ h1 _
    cases oneSequence_unique hf h1 h3
    exact absurd rfl h4
  case wrongPrefix.prefix =>
    rename_i h3 h4 _ _ _ _ _ h1 _
    cases oneSequence_unique hf h1 h3
    exact absurd rfl h4
  case wrongBin.bin =>
    rename_i h3 h4 _ _ _ _ _ _ h1 _
    cases oneSequence_unique hf h1 h3
    exact absurd rfl h4
  case bin.noPriority =>
    rename_i h1 _ _ _ _ h2 _
    exact absurd h1 (h2 _)
  case noPriority.bin =>
    rename_i h2 _ _ _ _ _ _ _ h1
    exact absurd h1 (h2 _)
  case wrongBin.noPriority =>
    rename_i h1 h2 _ _ _ h3 h4 _ _
    cases oneSequence_unique hf h1 h3
    exact absurd h4 h2
  case noPriority.wrongBin =>
    rename_i h1 h2 _ _ _ _ h3 h4 _
    cases oneSequence_unique hf h1 h3
    exact absurd h2 h4
  case alternatives.otherShape =>
    rename_i h1 h2 h3 _ _ h4
    rcases h4 with h4 | ⟨alt, h4, -⟩
    · exact absurd h1 h4
    · cases childrenWith_unique hf (ofType_isNode h1) h2 h4
      exact absurd rfl h3
  case otherShape.alternatives =>
    rename_i h4 _ _ h1 h2 h3 _
    rcases h4 with h4 | ⟨alt, h4, -⟩
    · exact absurd h1 h4
    · cases childrenWith_unique hf (ofType_isNode h1) h2 h4
      exact absurd rfl h3

theorem operatorMeans_unique (hf : ConsistentFile f) {rule : Nat}
    {k k' : Option PrattVariant} {ds ds' : List Diagnostic} (h : OperatorMeans f rule k ds)
    (h' : OperatorMeans f rule k' ds') : k = k' ∧ ds = ds' := by
  have key : ∀ {ident kind a}, FirstChild f rule (OfType f 130) ident → OperatorKind f rule kind a →
      ((∀ i, ¬ FirstChild f rule (OfType f 130) i) ∨ ∀ k ∈ operatorKinds, ∀ a, ¬ Attribute f rule k a) → False := by
    rintro ident kind a h1 h2 (h | h)
    · exact h _ h1
    · exact h _ (operatorKind_mem h2).1 _ (operatorKind_mem h2).2
  rcases operatorMeans_core h with ⟨rfl, rfl, h1⟩ | ⟨i, kd, a, b, h1, h2, h3, h4⟩ <;>
    rcases operatorMeans_core h' with ⟨rfl, rfl, g1⟩ | ⟨i', kd', a', b', g1, g2, g3, g4⟩
  · exact ⟨rfl, rfl⟩
  · exact (key g1 g2 h1).elim
  · exact (key h1 h2 g1).elim
  · cases firstChild_unique h1 g1
    obtain ⟨rfl, rfl⟩ := operatorKind_unique hf h2 g2
    cases firstChild_unique h3 g3
    exact operatorCore_unique hf h4 g4

/-! ## Traits -/

theorem traitNamed_unique {s : List UInt8} {t t' : Nat} (h : TraitNamed f s t) (h' : TraitNamed f s t') : t = t' := by
  obtain ⟨ast, h1, cs, h2, h3⟩ := h
  obtain ⟨ast', h1', cs', h2', h3'⟩ := h'
  cases firstChild_unique h1 h1'
  rw [h2, Option.some.injEq] at h2'
  subst h2'
  rw [last_reverse] at h3 h3'
  exact first_unique h3 h3'

theorem traitsOf_unique {ids ts ts' bad bad' : List Nat} (h : TraitsOf f ids ts bad) (h' : TraitsOf f ids ts' bad') :
    ts = ts' ∧ bad = bad' := by
  induction h generalizing ts' bad' with
  | nil => cases h'; exact ⟨rfl, rfl⟩
  | good h1 h2 _ ih =>
    cases h' with
    | good g1 g2 g3 =>
      cases h1.symm.trans g1
      obtain ⟨rfl, rfl⟩ := ih g3
      exact ⟨by rw [traitNamed_unique h2 g2], rfl⟩
    | bad g1 g2 g3 =>
      cases h1.symm.trans g1
      exact absurd h2 (g2 _)
  | bad h1 h2 _ ih =>
    cases h' with
    | good g1 g2 g3 =>
      cases h1.symm.trans g1
      exact absurd g2 (h2 _)
    | bad g1 g2 g3 =>
      cases h1.symm.trans g1
      obtain ⟨rfl, rfl⟩ := ih g3
      exact ⟨rfl, rfl⟩

theorem traitsOf_bad {ids ts bad : List Nat} (h : TraitsOf f ids ts bad) (i : Nat) :
    i ∈ bad ↔ i ∈ ids ∧ ∃ s, f.textOf i = some s ∧ ∀ t, ¬ TraitNamed f s t := by
  induction h with
  | nil => simp
  | @good j s t is ts bad h1 h2 _ ih =>
    rw [ih, List.mem_cons]
    constructor
    · rintro ⟨h, h'⟩
      exact ⟨.inr h, h'⟩
    · rintro ⟨rfl | h, s', h3, h4⟩
      · cases h1.symm.trans h3
        exact absurd h2 (h4 _)
      · exact ⟨h, s', h3, h4⟩
  | @bad j s is ts bad h1 h2 _ ih =>
    rw [List.mem_cons, ih, List.mem_cons]
    constructor
    · rintro (rfl | ⟨h, h'⟩)
      · exact ⟨.inl rfl, s, h1, h2⟩
      · exact ⟨.inr h, h'⟩
    · rintro ⟨rfl | h, h'⟩
      · exact .inl rfl
      · exact .inr ⟨h, h'⟩

theorem namesAfterColon_unique {n : Nat} {ids ids' : List Nat} (h : NamesAfterColon f n ids)
    (h' : NamesAfterColon f n ids') (i : Nat) : i ∈ ids ↔ i ∈ ids' := by
  have half : ∀ {ids ids'}, NamesAfterColon f n ids → NamesAfterColon f n ids' → ∀ i ∈ ids, i ∈ ids' := by
    rintro ids ids' ⟨pre, post, h1, h2, h3, h4, h5⟩ ⟨pre', post', g1, g2, g3, g4, g5⟩ i hi
    rw [h1, Option.some.injEq] at g1
    have hle : pre'.length ≤ pre.length := by
      rcases Nat.lt_or_ge pre.length pre'.length with hlt | h
      · exfalso
        have e : (pre ++ post)[pre.length]? = (pre' ++ post')[pre.length]? := by rw [g1]
        rw [List.getElem?_append_right (Nat.le_refl _), List.getElem?_append_left hlt] at e
        rw [List.getElem?_eq_getElem hlt, Nat.sub_self, ← List.head?_eq_getElem?] at e
        exact g2 _ (List.getElem_mem hlt) (h3 _ e)
      · exact h
    have hpost := h4.subset hi
    have : i ∈ post' := by
      have e : (pre ++ post).drop pre.length = (pre' ++ post').drop pre.length := by rw [g1]
      rw [List.drop_left, List.drop_append, List.drop_eq_nil_of_le hle, List.nil_append] at e
      rw [e] at hpost
      exact List.mem_of_mem_drop hpost
    exact (g5 i this).2 ((h5 i hpost).1 hi)
  exact ⟨half h h' i, half h' h i⟩

end

/-! ## What is asked -/

section
variable {Q : Type} {V : Q → Type} {D : Type} {body : (q : Q) → Prog Q V D (V q)}

theorem needs_bind {p : Prog Q V D α} {k : α → Prog Q V D β} {q : Q} :
    Needs body (p >>= k) q ↔ Needs body p q ∨ ∃ v ds, Eval body p (some v) ds ∧ Needs body (k v) q := by
  show Needs body (p.bind k) q ↔ _
  induction p with
  | ret v =>
    constructor
    · exact fun h => .inr ⟨v, [], .ret, h⟩
    · rintro (h | ⟨_, _, h, h'⟩)
      · cases h
      · cases h
        exact h'
  | panic =>
    constructor
    · intro h
      cases h
    · rintro (h | ⟨_, _, h, h'⟩)
      · cases h
      · cases h
  | emit d p ih =>
    constructor
    · intro h
      cases h with
      | emit h =>
        rcases ih.1 h with h | ⟨v, ds, h, h'⟩
        · exact .inl (.emit h)
        · exact .inr ⟨v, _, .emit h, h'⟩
    · rintro (h | ⟨_, _, h, h'⟩)
      · cases h with | emit h => exact .emit (ih.2 (.inl h))
      · cases h with | emit h => exact .emit (ih.2 (.inr ⟨_, _, h, h'⟩))
  | ask q' c ih =>
    constructor
    · intro h
      cases h with
      | here => exact .inl .here
      | nested h => exact .inl (.nested h)
      | later h1 h2 =>
        rcases (ih _).1 h2 with h | ⟨v, ds, h, h'⟩
        · exact .inl (.later h1 h)
        · exact .inr ⟨v, _, .ask h1 h, h'⟩
    · rintro (h | ⟨_, _, h, h'⟩)
      · cases h with
        | here => exact .here
        | nested h => exact .nested h
        | later h1 h2 => exact .later h1 ((ih _).2 (.inl h2))
      · cases h with
        | ask h1 h2 => exact .later h1 ((ih _).2 (.inr ⟨_, _, h2, h'⟩))

theorem needs_pure {v : α} {q : Q} : ¬ Needs body (pure v : Prog Q V D α) q := by
  intro h
  cases h

theorem needs_lift {body : (q : Query) → AProg (Value q)} {x : Option α} {q : Query} : ¬ Needs body (lift x) q := by
  intro h
  cases x <;> cases h

theorem needs_error {body : (q : Query) → AProg (Value q)} {f : File UInt8} {n : Nat} {m : String} {q : Query} :
    ¬ Needs body (error f n m) q := by
  intro h
  unfold error at h
  rw [needs_bind] at h
  rcases h with h | ⟨_, _, _, h⟩
  · exact needs_lift h
  · cases h with | emit h => cases h

theorem needs_warning {body : (q : Query) → AProg (Value q)} {f : File UInt8} {n : Nat} {m : String} {q : Query} :
    ¬ Needs body (warning f n m) q := by
  intro h
  unfold warning at h
  rw [needs_bind] at h
  rcases h with h | ⟨_, _, _, h⟩
  · exact needs_lift h
  · cases h with | emit h => cases h

theorem needs_get {body : (q : Query) → AProg (Value q)} {q q' : Query} :
    Needs body (get q) q' ↔ q' = q ∨ Needs body (body q) q' := by
  constructor
  · intro h
    cases h with
    | here => exact .inl rfl
    | nested h => exact .inr h
    | later _ h => cases h
  · rintro (rfl | h)
    · exact .here
    · exact .nested h

end

section
variable {f : File UInt8}

local notation "B" => analysisBody f

theorem needs_allSynRules {q : Query} : ¬ Needs B (allSynRules f) q := by
  have go : ∀ rules result, ¬ Needs B (allSynRulesGo f rules result) q := by
    intro rules
    induction rules with
    | nil => exact fun _ => needs_pure
    | cons r rules ih =>
      intro result h
      unfold allSynRulesGo at h
      rw [needs_bind] at h
      rcases h with h | ⟨o, _, _, h⟩
      · exact needs_lift h
      · cases o with
        | none => exact ih _ h
        | some i =>
          simp only at h
          rw [needs_bind] at h
          rcases h with h | ⟨n, _, _, h⟩
          · exact needs_lift h
          · split at h
            · rw [needs_bind] at h
              rcases h with h | ⟨_, _, _, h⟩
              · exact needs_error h
              · exact ih _ h
            · exact ih _ h
  intro h
  unfold allSynRules at h
  rw [needs_bind] at h
  rcases h with h | ⟨_, _, _, h⟩
  · exact needs_lift h
  · exact go _ _ h

theorem needs_allLexRules {q : Query} : ¬ Needs B (allLexRules f) q := by
  have go : ∀ rules result tys, ¬ Needs B (allLexRulesGo f rules result tys) q := by
    intro rules
    induction rules with
    | nil => exact fun _ _ => needs_pure
    | cons r rules ih =>
      intro result tys h
      unfold allLexRulesGo at h
      rw [needs_bind] at h
      rcases h with h | ⟨o, _, _, h⟩
      · exact needs_lift h
      · rw [needs_bind] at h
        rcases h with h | ⟨n, _, _, h⟩
        · exact needs_lift h
        · split at h
          · rw [needs_bind] at h
            rcases h with h | ⟨_, _, _, h⟩
            · exact needs_error h
            · exact ih _ _ h
          · exact ih _ _ h
  intro h
  unfold allLexRules at h
  rw [needs_bind] at h
  rcases h with h | ⟨_, _, _, h⟩
  · exact needs_lift h
  · exact go _ _ _ h

theorem needs_allContexts {q : Query} : ¬ Needs B (allContexts f) q := by
  have go : ∀ l, ¬ Needs B (contextWarnings f l) q := by
    intro l
    induction l with
    | nil => exact needs_pure
    | cons e l ih =>
      obtain ⟨k, v⟩ := e
      intro h
      cases v with
      | none => exact ih h
      | some c =>
        unfold contextWarnings at h
        rw [needs_bind] at h
        rcases h with h | ⟨_, _, _, h⟩
        · exact needs_warning h
        · exact ih h
  intro h
  unfold allContexts at h
  rw [needs_bind] at h
  rcases h with h | ⟨_, _, _, h⟩
  · exact needs_lift h
  · rw [needs_bind] at h
    rcases h with h | ⟨_, _, _, h⟩
    · exact go _ h
    · exact needs_pure h

theorem needs_findSynRule {name : List UInt8} {q : Query} : Needs B (findSynRule name) q ↔ q = .allSynRules := by
  unfold findSynRule
  rw [needs_bind, needs_get]
  constructor
  · rintro ((h | h) | ⟨_, _, _, h⟩)
    · exact h
    · exact absurd h needs_allSynRules
    · exact absurd h needs_pure
  · exact fun h => .inl (.inl h)

theorem needs_findLexRule {name : List UInt8} {q : Query} : Needs B (findLexRule name) q ↔ q = .allLexRules := by
  unfold findLexRule
  rw [needs_bind, needs_get]
  constructor
  · rintro ((h | h) | ⟨_, _, _, h⟩)
    · exact h
    · exact absurd h needs_allLexRules
    · exact absurd h needs_pure
  · exact fun h => .inl (.inl h)

section
variable (hf : ConsistentFile f)
include hf

/-- The reference names no parameter. -/
def NoParam (f : File UInt8) (ref : Nat) : Prop :=
  ∃ s rule, RefName f ref s ∧ EnclosingRule f ref rule ∧ ∀ p, ¬ ParamNamed f rule s p

theorem needs_resolveRef {ref : Nat} (hn : IsNode f ref) {q : Query} (h : Needs B (resolveRef f ref) q) :
    NoParam f ref ∧ (q = .allSynRules ∨ q = .allLexRules) := by
  unfold resolveRef at h
  rw [needs_bind] at h
  rcases h with h | ⟨s, _, h1, h⟩
  · exact absurd h needs_lift
  obtain ⟨hs, rfl⟩ := eval_lift.1 h1
  rw [referenceName_iff hf hn] at hs
  rw [needs_bind] at h
  rcases h with h | ⟨o, _, h2, h⟩
  · exact absurd h needs_lift
  obtain ⟨hanc, rfl⟩ := eval_lift.1 h2
  rw [needs_bind] at h
  rcases h with h | ⟨rule, _, h3, h⟩
  · exact absurd h needs_lift
  obtain ⟨rfl, rfl⟩ := eval_lift.1 h3
  obtain ⟨henc, hrn⟩ := enclosing_eval hf hn hanc
  rw [needs_bind] at h
  rcases h with h | ⟨ps, _, h4, h⟩
  · exact absurd h needs_lift
  obtain ⟨hps, rfl⟩ := eval_lift.1 h4
  rw [needs_bind] at h
  rcases h with h | ⟨p, _, h5, h⟩
  · exact absurd h needs_lift
  obtain ⟨hp, rfl⟩ := eval_lift.1 h5
  have hparam := findParam hf hrn hps hp
  cases p with
  | some p => exact absurd h needs_pure
  | none =>
    refine ⟨⟨s, rule, hs, henc, fun p hp => ?_⟩, ?_⟩
    · have := (hparam p).2 hp
      cases this
    · simp only at h
      rw [needs_bind] at h
      rcases h with h | ⟨r, _, _, h⟩
      · exact .inl (needs_findSynRule.1 h)
      · cases r with
        | some r => exact absurd h needs_pure
        | none =>
          simp only at h
          rw [needs_bind] at h
          rcases h with h | ⟨r, _, _, h⟩
          · exact .inr (needs_findLexRule.1 h)
          · cases r with
            | some r => exact absurd h needs_pure
            | none =>
              simp only at h
              rw [needs_bind] at h
              rcases h with h | ⟨b, _, _, h⟩
              · exact absurd h needs_lift
              · split at h
                · exact absurd h needs_pure
                · rw [needs_bind] at h
                  rcases h with h | ⟨_, _, _, h⟩
                  · exact absurd h needs_error
                  · exact absurd h needs_pure

theorem resolveRef_needs {ref : Nat} (hn : IsNode f ref) {k : Option RefKind} {ds : List Diagnostic}
    (h : Eval B (resolveRef f ref) (some k) ds) (hp : NoParam f ref) : Needs B (resolveRef f ref) .allSynRules := by
  unfold resolveRef at h ⊢
  rw [eval_bind_some] at h
  obtain ⟨s, _, _, h1, h, rfl⟩ := h
  refine needs_bind.2 (.inr ⟨s, _, h1, ?_⟩)
  obtain ⟨hs, -⟩ := eval_lift.1 h1
  rw [referenceName_iff hf hn] at hs
  rw [eval_bind_some] at h
  obtain ⟨o, _, _, h2, h, rfl⟩ := h
  refine needs_bind.2 (.inr ⟨o, _, h2, ?_⟩)
  obtain ⟨hanc, -⟩ := eval_lift.1 h2
  rw [eval_bind_some] at h
  obtain ⟨rule, _, _, h3, h, rfl⟩ := h
  refine needs_bind.2 (.inr ⟨rule, _, h3, ?_⟩)
  obtain ⟨rfl, -⟩ := eval_lift.1 h3
  obtain ⟨henc, hrn⟩ := enclosing_eval hf hn hanc
  rw [eval_bind_some] at h
  obtain ⟨ps, _, _, h4, h, rfl⟩ := h
  refine needs_bind.2 (.inr ⟨ps, _, h4, ?_⟩)
  obtain ⟨hps, -⟩ := eval_lift.1 h4
  rw [eval_bind_some] at h
  obtain ⟨p, _, _, h5, h, rfl⟩ := h
  refine needs_bind.2 (.inr ⟨p, _, h5, ?_⟩)
  obtain ⟨hp', -⟩ := eval_lift.1 h5
  have hparam := findParam hf hrn hps hp'
  cases p with
  | some p =>
    obtain ⟨s', rule', g1, g2, g3⟩ := hp
    cases refName_unique hf hs g1
    cases enclosing_unique hf henc g2
    exact absurd ((hparam p).1 rfl) (g3 p)
  | none => exact needs_bind.2 (.inl (needs_findSynRule.2 rfl))

theorem needs_prevIsRule {arg : Nat} {q : Query} (h : Needs B (prevIsRule f arg) q) :
    OfType f 135 arg ∧ (q = .resolveRef arg ∨ (q = .allSynRules ∧ NoParam f arg) ∨ q = .allLexRules) := by
  unfold prevIsRule at h
  rw [needs_bind] at h
  rcases h with h | ⟨ty, _, h1, h⟩
  · exact absurd h needs_lift
  obtain ⟨hty, rfl⟩ := eval_lift.1 h1
  by_cases ht : ty = 135
  · subst ht
    have hty : OfType f 135 arg := hty
    rw [if_pos (by simp [Ty.refExpr])] at h
    refine ⟨hty, ?_⟩
    rw [needs_bind, needs_get] at h
    rcases h with (h | h) | ⟨k, _, _, h⟩
    · exact .inl h
    · obtain ⟨h1, rfl | rfl⟩ := needs_resolveRef hf (ofType_isNode hty) h
      · exact .inr (.inl ⟨rfl, h1⟩)
      · exact .inr (.inr rfl)
    · exfalso
      change Option RefKind at k
      by_cases hk : ∃ r, k = some (.rule r)
      · obtain ⟨r, rfl⟩ := hk
        simp only at h
        rw [needs_bind] at h
        rcases h with h | ⟨_, _, _, h⟩
        · exact needs_lift h
        · exact needs_pure h
      · cases k with
        | none => exact needs_pure h
        | some k =>
          cases k with
          | rule r => exact hk ⟨r, rfl⟩
          | _ => exact needs_pure h
  · rw [if_neg (by rw [beq_iff_eq]; exact ht)] at h
    exact absurd h needs_pure

theorem needs_prevIsArgs {call : Nat} {args : List Nat} {q : Query} (h : Needs B (prevIsArgs f call args) q) :
    ∃ arg ∈ args, OfType f 135 arg ∧ (q = .resolveRef arg ∨ (q = .allSynRules ∧ NoParam f arg) ∨ q = .allLexRules) := by
  induction args with
  | nil => exact absurd h needs_pure
  | cons a args ih =>
    unfold prevIsArgs at h
    rw [needs_bind] at h
    rcases h with h | ⟨o, _, _, h⟩
    · exact ⟨a, by simp, needs_prevIsRule hf h⟩
    · have lift' : Needs B (prevIsArgs f call args) q → ∃ arg ∈ a :: args, OfType f 135 arg ∧
          (q = .resolveRef arg ∨ (q = .allSynRules ∧ NoParam f arg) ∨ q = .allLexRules) := fun h => by
        obtain ⟨arg, h1, h2⟩ := ih h
        exact ⟨arg, List.mem_cons_of_mem a h1, h2⟩
      cases o with
      | some r =>
        simp only at h
        rw [needs_bind] at h
        rcases h with h | ⟨_, _, _, h⟩
        · exact lift' h
        · exact absurd h needs_pure
      | none =>
        simp only at h
        rw [needs_bind] at h
        rcases h with h | ⟨_, _, _, h⟩
        · exact absurd h needs_error
        · exact lift' h

theorem needs_resolveContext {call : Nat} (hc : IsNode f call) {q : Query} (h : Needs B (resolveContext f call) q) :
    q = .allContexts ∧ ∃ s, ContextName f call s := by
  unfold resolveContext at h
  rw [needs_bind] at h
  rcases h with h | ⟨o, _, h1, h⟩
  · exact absurd h needs_lift
  obtain ⟨ho, rfl⟩ := eval_lift.1 h1
  have ho := contextName_some hf hc ho
  cases o with
  | some s =>
    simp only at h ho
    rw [needs_bind, needs_get] at h
    rcases h with (h | h) | ⟨_, _, _, h⟩
    · exact ⟨h, s, (ho s).1 rfl⟩
    · exact absurd h needs_allContexts
    · exact absurd h needs_pure
  | none =>
    simp only at h
    rw [needs_bind] at h
    rcases h with h | ⟨_, _, _, h⟩
    · exact absurd h needs_lift
    · rw [needs_bind] at h
      rcases h with h | ⟨_, _, _, h⟩
      · exact absurd h needs_lift
      · rw [needs_bind] at h
        rcases h with h | ⟨_, _, _, h⟩
        · exact absurd h needs_error
        · exact absurd h needs_pure

omit hf in
theorem needs_expectArgs {call n m : Nat} {q : Query} : ¬ Needs B (expectArgs f call n m) q := by
  unfold expectArgs
  split
  · exact needs_error
  · exact needs_pure

/-- A call that asks for the contexts. -/
def AsksContexts (f : File UInt8) (call : Nat) : Prop :=
  ∃ s args, ContextName f call s ∧ ChildrenWith f call (IsExpr f) args ∧
    (Ident f call (ascii "is_in") ∨ 2 ≤ args.length)

theorem needs_resolveCall {call : Nat} (hc : OfType f 140 call) {q : Query} (h : Needs B (resolveCall f call) q) :
    (q = .allContexts ∧ AsksContexts f call) ∨
    (q = .allSynRules ∧ ∃ name, Ident f call name ∧ name ∉ builtInNames) ∨
    ∃ arg, OfType f 135 arg ∧ (q = .resolveRef arg ∨ (q = .allSynRules ∧ NoParam f arg) ∨ q = .allLexRules) := by
  have hn := ofType_isNode hc
  unfold resolveCall at h
  rw [needs_bind] at h
  rcases h with h | ⟨args, _, h1, h⟩
  · exact absurd h needs_lift
  obtain ⟨ha, rfl⟩ := eval_lift.1 h1
  rw [needs_bind] at h
  rcases h with h | ⟨name, _, h2, h⟩
  · exact absurd h needs_lift
  obtain ⟨hname, rfl⟩ := eval_lift.1 h2
  have hargs := childrenWith_expr hf hn ha
  have hname : Ident f call name := (ident_iff hf hn).1 hname
  split at h
  · rename_i b hb
    have hb1 := List.mem_of_find?_eq_some hb
    have hb2 := List.find?_some hb
    simp only [beq_iff_eq] at hb2
    have two : ∀ {kind : Nat → Nat → AProg (Option CallKind)}, Needs B (do
        expectArgs f call 2 args.length
        match args with
        | arg1 :: arg2 :: _ => kind arg1 arg2
        | _ => return none) q → 2 ≤ args.length ∧ ∃ e1 e2, Needs B (kind e1 e2) q := by
      intro kind h
      rw [needs_bind] at h
      rcases h with h | ⟨_, _, _, h⟩
      · exact absurd h needs_expectArgs
      · rcases args with _ | ⟨e1, _ | ⟨e2, rest⟩⟩
        · exact absurd h needs_pure
        · exact absurd h needs_pure
        · exact ⟨by simp, e1, e2, h⟩
    have one : ∀ {kind : Nat → AProg (Option CallKind)}, Needs B (do
        expectArgs f call 1 args.length
        match args with
        | arg1 :: _ => kind arg1
        | [] => return none) q → ∃ e1, Needs B (kind e1) q := by
      intro kind h
      rw [needs_bind] at h
      rcases h with h | ⟨_, _, _, h⟩
      · exact absurd h needs_expectArgs
      · rcases args with _ | ⟨e1, rest⟩
        · exact absurd h needs_pure
        · exact ⟨e1, h⟩
    have zero : ∀ {kind : CallKind}, ¬ Needs B (do expectArgs f call 0 args.length; return some kind) q := by
      intro kind h
      rw [needs_bind] at h
      rcases h with h | ⟨_, _, _, h⟩
      · exact needs_expectArgs h
      · exact needs_pure h
    have ctx : ∀ {g : Nat → CallKind}, Needs B (do return (← resolveContext f call).map g) q →
        q = .allContexts ∧ ∃ s, ContextName f call s := by
      intro g h
      rw [needs_bind] at h
      rcases h with h | ⟨_, _, _, h⟩
      · exact needs_resolveContext hf hn h
      · exact absurd h needs_pure
    simp only [builtIn, List.mem_cons, List.not_mem_nil, or_false] at hb1
    rcases hb1 with rfl | rfl | rfl | rfl | rfl | rfl | rfl | rfl | rfl | rfl | rfl
    · exact absurd h zero
    · exact absurd h zero
    · exact absurd h zero
    · obtain ⟨e, h⟩ := one h
      exact absurd h needs_pure
    · obtain ⟨e, h⟩ := one h
      obtain ⟨rfl, s, hs⟩ := ctx h
      exact .inl ⟨rfl, s, args, hs, hargs, .inl (hb2 ▸ hname)⟩
    · obtain ⟨_, _, _, h⟩ := two h
      exact absurd h needs_pure
    · obtain ⟨_, _, _, h⟩ := two h
      exact absurd h needs_pure
    · obtain ⟨_, _, _, h⟩ := two h
      exact absurd h needs_pure
    · obtain ⟨hl, _, _, h⟩ := two h
      obtain ⟨rfl, s, hs⟩ := ctx h
      exact .inl ⟨rfl, s, args, hs, hargs, .inr hl⟩
    · obtain ⟨hl, _, _, h⟩ := two h
      obtain ⟨rfl, s, hs⟩ := ctx h
      exact .inl ⟨rfl, s, args, hs, hargs, .inr hl⟩
    · simp only at h
      rw [needs_bind] at h
      rcases h with h | ⟨_, _, _, h⟩
      · obtain ⟨arg, -, h⟩ := needs_prevIsArgs hf h
        exact .inr (.inr ⟨arg, h⟩)
      · exact absurd h needs_pure
  · rename_i hb
    have hnb : name ∉ builtInNames := by
      rw [List.find?_eq_none] at hb
      simp only [builtIn, List.mem_cons, List.not_mem_nil, or_false, forall_eq_or_imp, forall_eq, beq_iff_eq] at hb
      simp only [builtInNames, List.map_cons, List.map_nil, List.mem_cons, List.not_mem_nil, or_false]
      rintro (e | e | e | e | e | e | e | e | e | e | e) <;> simp [e] at hb
    refine .inr (.inl ⟨?_, name, hname, hnb⟩)
    have un : ¬ Needs B (do
          let ident ← lift (f.childOfTypeExn call Ty.ident)
          error f ident "Unresolved reference"
          return (none : Option CallKind)) q := by
      intro h
      rw [needs_bind] at h
      rcases h with h | ⟨_, _, _, h⟩
      · exact needs_lift h
      · rw [needs_bind] at h
        rcases h with h | ⟨_, _, _, h⟩
        · exact needs_error h
        · exact needs_pure h
    rw [needs_bind] at h
    rcases h with h | ⟨o, _, _, h⟩
    · exact needs_findSynRule.1 h
    · exfalso
      cases o with
      | none => exact un h
      | some rule =>
        simp only at h
        rw [needs_bind] at h
        rcases h with h | ⟨ps, _, _, h⟩
        · exact needs_lift h
        · cases ps with
          | none => exact un h
          | some ps =>
            simp only at h
            split at h
            · rw [needs_bind] at h
              rcases h with h | ⟨_, _, _, h⟩
              · exact needs_error h
              · exact needs_pure h
            · exact needs_pure h

theorem resolveCall_needs_rules {call : Nat} (hc : OfType f 140 call) {k : Option CallKind} {ds : List Diagnostic}
    (h : Eval B (resolveCall f call) (some k) ds) {name : List UInt8} (hi : Ident f call name)
    (hb : name ∉ builtInNames) : Needs B (resolveCall f call) .allSynRules := by
  have hn := ofType_isNode hc
  unfold resolveCall at h ⊢
  rw [eval_bind_some] at h
  obtain ⟨args, _, _, h1, h, rfl⟩ := h
  refine needs_bind.2 (.inr ⟨_, _, h1, ?_⟩)
  rw [eval_bind_some] at h
  obtain ⟨name', _, _, h2, h, rfl⟩ := h
  refine needs_bind.2 (.inr ⟨_, _, h2, ?_⟩)
  obtain ⟨hname, -⟩ := eval_lift.1 h2
  have hname : Ident f call name' := (ident_iff hf hn).1 hname
  cases labelled_unique hi hname
  have hfind : ((builtIn f call args).find? fun b => ascii b.1 == name) = none := by
    rw [List.find?_eq_none]
    intro b hb'
    simp only [beq_iff_eq]
    intro e
    apply hb
    rw [← e]
    simp only [builtIn, List.mem_cons, List.not_mem_nil, or_false] at hb'
    rcases hb' with rfl | rfl | rfl | rfl | rfl | rfl | rfl | rfl | rfl | rfl | rfl <;> simp [builtInNames]
  rw [hfind]
  exact needs_bind.2 (.inl (needs_findSynRule.2 rfl))

theorem resolveCall_needs_contexts {call : Nat} (hc : OfType f 140 call) {k : Option CallKind} {ds : List Diagnostic}
    (h : Eval B (resolveCall f call) (some k) ds) (ha : AsksContexts f call) :
    Needs B (resolveCall f call) .allContexts := by
  have hn := ofType_isNode hc
  obtain ⟨s, args, hs, hargs', hl⟩ := ha
  unfold resolveCall at h ⊢
  rw [eval_bind_some] at h
  obtain ⟨args2, _, _, h1, h, rfl⟩ := h
  refine needs_bind.2 (.inr ⟨_, _, h1, ?_⟩)
  obtain ⟨hargs, -⟩ := eval_lift.1 h1
  have hch := childrenWith_expr hf hn hargs
  obtain rfl : args = args2 := childrenWith_unique hf hn hargs' hch
  rw [eval_bind_some] at h
  obtain ⟨name, _, _, h2, h, rfl⟩ := h
  refine needs_bind.2 (.inr ⟨_, _, h2, ?_⟩)
  obtain ⟨hname, -⟩ := eval_lift.1 h2
  have hname : Ident f call name := (ident_iff hf hn).1 hname
  have hs' := hs
  obtain ⟨name', arg, lit, g1, g2, g3, -, -⟩ := hs'
  cases labelled_unique g1 hname
  have hne : args ≠ [] := by
    intro e
    subst e
    have := callArgs_head hf hn hargs arg
    rw [List.head?_nil] at this
    have := this.2 g3
    cases this
  have ctx : ∀ {g : Nat → CallKind} {k ds}, Eval B (do return (← resolveContext f call).map g) (some k) ds →
      Needs B (do return (← resolveContext f call).map g) .allContexts := by
    intro g k ds h
    rw [eval_bind_some] at h
    obtain ⟨_, _, _, h, -, -⟩ := h
    unfold resolveContext at h
    rw [eval_bind_some] at h
    obtain ⟨o, _, _, h, -, -⟩ := h
    obtain ⟨ho, rfl⟩ := eval_lift.1 h
    refine needs_bind.2 (.inl ?_)
    unfold resolveContext
    refine needs_bind.2 (.inr ⟨o, _, eval_lift.2 ⟨ho, rfl⟩, ?_⟩)
    cases (contextName_some hf hn ho s).2 hs
    exact needs_bind.2 (.inl (needs_get.2 (.inl rfl)))
  simp only [List.mem_cons, List.not_mem_nil, or_false] at g2
  have found : ∀ {b : String × AProg (Option CallKind)}, b ∈ builtIn f call args → ascii b.1 = name →
      (∀ b' ∈ builtIn f call args, ascii b'.1 = name → b' = b) →
      (builtIn f call args).find? (fun b => ascii b.1 == name) = some b := by
    intro b hb e hu
    cases hfd : (builtIn f call args).find? (fun b => ascii b.1 == name) with
    | none =>
      rw [List.find?_eq_none] at hfd
      exact absurd (beq_iff_eq.2 e) (hfd b hb)
    | some b' =>
      rw [hu b' (List.mem_of_find?_eq_some hfd) (by simpa using List.find?_some hfd)]
  rcases g2 with rfl | rfl | rfl
  · rcases args with _ | ⟨e1, rest⟩
    · exact absurd rfl hne
    · rw [found (b := ("is_in", do
        expectArgs f call 1 (e1 :: rest).length
        return (← resolveContext f call).map CallKind.isIn)) (by simp [builtIn]) rfl
        (by simp [builtIn, ascii])] at h ⊢
      simp only at h ⊢
      rw [eval_bind_some] at h
      obtain ⟨_, _, _, he, h, rfl⟩ := h
      exact needs_bind.2 (.inr ⟨_, _, he, ctx h⟩)
  · have hl : 2 ≤ args.length := hl.resolve_left fun hi => absurd (labelled_unique hi g1) (by decide)
    rcases args with _ | ⟨e1, _ | ⟨e2, rest⟩⟩
    · simp at hl
    · simp at hl
    · rw [found (b := ("enter", do
        expectArgs f call 2 (e1 :: e2 :: rest).length
        return (← resolveContext f call).map fun c => CallKind.enter c e2)) (by simp [builtIn]) rfl
        (by simp [builtIn, ascii])] at h ⊢
      simp only at h ⊢
      rw [eval_bind_some] at h
      obtain ⟨_, _, _, he, h, rfl⟩ := h
      exact needs_bind.2 (.inr ⟨_, _, he, ctx h⟩)
  · have hl : 2 ≤ args.length := hl.resolve_left fun hi => absurd (labelled_unique hi g1) (by decide)
    rcases args with _ | ⟨e1, _ | ⟨e2, rest⟩⟩
    · simp at hl
    · simp at hl
    · rw [found (b := ("exit", do
        expectArgs f call 2 (e1 :: e2 :: rest).length
        return (← resolveContext f call).map fun c => CallKind.exit c e2)) (by simp [builtIn]) rfl
        (by simp [builtIn, ascii])] at h ⊢
      simp only at h ⊢
      rw [eval_bind_some] at h
      obtain ⟨_, _, _, he, h, rfl⟩ := h
      exact needs_bind.2 (.inr ⟨_, _, he, ctx h⟩)

omit hf in
theorem needs_prattVariant {rule : Nat} {q : Query} : ¬ Needs B (prattVariant f rule) q := by
  have err : ∀ {n : Nat} {m : String}, ¬ Needs B (do error f n m; return (none : Option PrattVariant)) q := by
    intro n m h
    rw [needs_bind] at h
    rcases h with h | ⟨_, _, _, h⟩
    · exact needs_error h
    · exact needs_pure h
  have atom : ¬ Needs B (do let body ← lift (f.ruleBody rule); return some (PrattVariant.atom body)) q := by
    intro h
    rw [needs_bind] at h
    rcases h with h | ⟨_, _, _, h⟩
    · exact needs_lift h
    · exact needs_pure h
  have op : ∀ {ident : Nat} {kind priority parts}, ¬ Needs B (prattOperator f rule ident kind priority parts) q := by
    intro ident kind priority parts h
    unfold prattOperator at h
    rw [needs_bind] at h
    rcases h with h | ⟨body, _, _, h⟩
    · exact needs_lift h
    · split at h
      · split at h
        · exact needs_pure h
        · exact err h
      · split at h
        · split at h
          · exact needs_pure h
          · exact err h
        · split at h
          · exact needs_pure h
          · exact err h
          · exact err h
  intro h
  unfold prattVariant at h
  rw [needs_bind] at h
  rcases h with h | ⟨o, _, _, h⟩
  · exact needs_lift h
  cases o with
  | none => exact needs_pure h
  | some ident =>
    simp only at h
    rw [needs_bind] at h
    rcases h with h | ⟨o, _, _, h⟩
    · exact needs_lift h
    cases o with
    | none => exact needs_pure h
    | some attrs =>
      simp only at h
      rw [needs_bind] at h
      rcases h with h | ⟨o, _, _, h⟩
      · exact needs_lift h
      cases o with
      | none => exact needs_pure h
      | some kp =>
        obtain ⟨kind, priority⟩ := kp
        simp only at h
        split at h
        · split at h
          · rw [needs_bind] at h
            rcases h with h | ⟨_, _, _, h⟩
            · exact needs_error h
            · exact atom h
          · exact atom h
        · rw [needs_bind] at h
          rcases h with h | ⟨body, _, _, h⟩
          · exact needs_lift h
          rw [needs_bind] at h
          rcases h with h | ⟨t, _, _, h⟩
          · exact needs_lift h
          split at h
          · rw [needs_bind] at h
            rcases h with h | ⟨alts, _, _, h⟩
            · exact needs_lift h
            split at h
            · rw [needs_bind] at h
              rcases h with h | ⟨t, _, _, h⟩
              · exact needs_lift h
              split at h
              · rw [needs_bind] at h
                rcases h with h | ⟨t, _, _, h⟩
                · exact needs_lift h
                exact op h
              · exact needs_pure h
            · exact err h
          · exact needs_pure h

omit hf in
theorem needs_resolveMethod {m : Nat} {q : Query} : ¬ Needs B (resolveMethod f m) q := by
  intro h
  unfold resolveMethod at h
  rw [needs_bind] at h
  rcases h with h | ⟨_, _, _, h⟩
  · exact needs_lift h
  rw [needs_bind] at h
  rcases h with h | ⟨_, _, _, h⟩
  · exact needs_lift h
  rw [needs_bind] at h
  rcases h with h | ⟨_, _, _, h⟩
  · exact needs_lift h
  rw [needs_bind] at h
  rcases h with h | ⟨_, _, _, h⟩
  · exact needs_lift h
  rw [needs_bind] at h
  rcases h with h | ⟨o, _, _, h⟩
  · exact needs_lift h
  cases o with
  | none => exact needs_pure h
  | some kind =>
    simp only at h
    rw [needs_bind] at h
    rcases h with h | ⟨_, _, _, h⟩
    · exact needs_lift h
    split at h
    · split at h <;> exact needs_pure h
    · exact needs_pure h

omit hf in
theorem needs_astNodeTraits {m : Nat} {q : Query} : ¬ Needs B (astNodeTraits f m) q := by
  have go : ∀ traits refs, ¬ Needs B (traitRefs f traits refs) q := by
    intro traits refs
    induction refs with
    | nil => exact needs_pure
    | cons r rs ih =>
      intro h
      unfold traitRefs at h
      rw [needs_bind] at h
      rcases h with h | ⟨_, _, _, h⟩
      · exact needs_lift h
      split at h
      · rw [needs_bind] at h
        rcases h with h | ⟨_, _, _, h⟩
        · exact ih h
        · exact needs_pure h
      · rw [needs_bind] at h
        rcases h with h | ⟨_, _, _, h⟩
        · exact needs_error h
        · exact ih h
  intro h
  unfold astNodeTraits at h
  rw [needs_bind] at h
  rcases h with h | ⟨_, _, _, h⟩
  · exact needs_lift h
  rw [needs_bind] at h
  rcases h with h | ⟨_, _, _, h⟩
  · exact needs_lift h
  exact go _ _ h

/-- The queries that are asked for the diagnostics of a file. -/
def Asked (f : File UInt8) : Query → Prop
  | .resolveRef n => OfType f 135 n
  | .resolveCall n => OfType f 140 n
  | .prattVariant n => OfType f 132 n
  | .resolveMethod _ => False
  | .astNodeTraits n => OfType f 150 n
  | .allLexRules => True
  | .allSynRules => LooksUpRule f
  | .allContexts => UsesContext f
  | .unusedRules => True

theorem asked_resolveRef {n : Nat} (hn : OfType f 135 n) {q : Query} (h : Needs B (get (.resolveRef n)) q) :
    Asked f q := by
  rcases needs_get.1 h with rfl | h
  · exact hn
  · obtain ⟨⟨s, rule, h1, h2, h3⟩, rfl | rfl⟩ := needs_resolveRef hf (ofType_isNode hn) h
    · exact .inl ⟨n, s, rule, hn, h1, h2, h3⟩
    · trivial

theorem asked_resolveCall {n : Nat} (hn : OfType f 140 n) {q : Query} (h : Needs B (get (.resolveCall n)) q) :
    Asked f q := by
  rcases needs_get.1 h with rfl | h
  · exact hn
  · rcases needs_resolveCall hf hn h with ⟨rfl, s, args, h⟩ | ⟨rfl, name, h1, h2⟩ |
      ⟨arg, h1, rfl | ⟨rfl, s, rule, h⟩ | rfl⟩
    · exact ⟨n, s, args, hn, h⟩
    · exact .inr ⟨n, name, hn, h1, h2⟩
    · exact h1
    · exact .inl ⟨arg, s, rule, h1, h⟩
    · trivial

theorem asked_usedByRefs {l : List Nat} (hl : ∀ n ∈ l, OfType f 135 n) {q : Query} (h : Needs B (usedByRefs l) q) :
    Asked f q := by
  induction l with
  | nil => exact absurd h needs_pure
  | cons n l ih =>
    unfold usedByRefs at h
    rw [needs_bind] at h
    rcases h with h | ⟨k, _, _, h⟩
    · exact asked_resolveRef hf (hl n (by simp)) h
    rw [needs_bind] at h
    rcases h with h | ⟨rest, _, _, h⟩
    · exact ih (fun n hn => hl n (by simp [hn])) h
    · change Option RefKind at k
      rcases k with _ | ⟨_ | _ | _⟩ <;> exact absurd h needs_pure

theorem asked_usedByCalls {l : List Nat} (hl : ∀ n ∈ l, OfType f 140 n) {q : Query} (h : Needs B (usedByCalls l) q) :
    Asked f q := by
  induction l with
  | nil => exact absurd h needs_pure
  | cons n l ih =>
    unfold usedByCalls at h
    rw [needs_bind] at h
    rcases h with h | ⟨k, _, _, h⟩
    · exact asked_resolveCall hf (hl n (by simp)) h
    rw [needs_bind] at h
    rcases h with h | ⟨rest, _, _, h⟩
    · exact ih (fun n hn => hl n (by simp [hn])) h
    · change Option CallKind at k
      rcases k with _ | k
      · exact absurd h needs_pure
      · cases k <;> exact absurd h needs_pure

omit hf in
theorem needs_warnUnused {used l : List Nat} {q : Query} : ¬ Needs B (warnUnused f used l) q := by
  induction l with
  | nil => exact needs_pure
  | cons n l ih =>
    intro h
    unfold warnUnused at h
    split at h
    · exact ih h
    · rw [needs_bind] at h
      rcases h with h | ⟨o, _, _, h⟩
      · exact needs_lift h
      cases o with
      | none => exact ih h
      | some i =>
        simp only at h
        rw [needs_bind] at h
        rcases h with h | ⟨_, _, _, h⟩
        · exact needs_warning h
        · exact ih h

theorem descendants_ty {ty : NodeType} {l : List Nat} (h : f.astDescendants (· == ty) f.root = some l) (n : Nat) :
    n ∈ l ↔ OfType f ty n := by
  obtain ⟨all, l', -, e, -, hl, -⟩ := C52_descendants f hf.nodes 0 (zero_isNode hf) (· == ty) 0
  rw [File.root, e, Option.some.injEq] at h
  subst h
  rw [hl]
  constructor
  · rintro ⟨-, t, ht, e⟩
    have : t = ty := by simpa using e
    exact this ▸ ht
  · intro h
    exact ⟨root_desc hf.nodes (ofType_isNode h), ty, h, by simp⟩

theorem asked_unusedRules {q : Query} (h : Needs B (get .unusedRules) q) : Asked f q := by
  rcases needs_get.1 h with rfl | h
  · trivial
  change Needs B (unusedRules f) q at h
  unfold unusedRules at h
  rw [needs_bind] at h
  rcases h with h | ⟨l1, _, h1, h⟩
  · exact absurd h needs_lift
  obtain ⟨g1, rfl⟩ := eval_lift.1 h1
  rw [needs_bind] at h
  rcases h with h | ⟨_, _, _, h⟩
  · exact asked_usedByRefs hf (fun n hn => (descendants_ty hf g1 n).1 hn) h
  rw [needs_bind] at h
  rcases h with h | ⟨l2, _, h2, h⟩
  · exact absurd h needs_lift
  obtain ⟨g2, rfl⟩ := eval_lift.1 h2
  rw [needs_bind] at h
  rcases h with h | ⟨_, _, _, h⟩
  · exact asked_usedByCalls hf (fun n hn => (descendants_ty hf g2 n).1 hn) h
  rw [needs_bind] at h
  rcases h with h | ⟨_, _, _, h⟩
  · exact absurd h needs_lift
  · exact absurd h needs_warnUnused

theorem asked_collectNodes {l : List Nat} {q : Query} (h : Needs B (collectNodes f l) q) : Asked f q := by
  induction l with
  | nil => exact absurd h needs_pure
  | cons n l ih =>
    unfold collectNodes at h
    rw [needs_bind] at h
    rcases h with h | ⟨t, _, h1, h⟩
    · exact absurd h needs_lift
    obtain ⟨ht, rfl⟩ := eval_lift.1 h1
    have hty : ∀ t', (t == t') = true → OfType f t' n := fun t' e => by
      rw [beq_iff_eq] at e
      exact e ▸ ht
    split at h
    · rename_i e
      rw [needs_bind] at h
      rcases h with h | ⟨_, _, _, h⟩
      · exact asked_resolveRef hf (hty _ e) h
      · exact ih h
    split at h
    · rename_i e
      rw [needs_bind] at h
      rcases h with h | ⟨_, _, _, h⟩
      · exact asked_resolveCall hf (hty _ e) h
      · exact ih h
    split at h
    · rename_i e
      rw [needs_bind] at h
      rcases h with h | ⟨_, _, _, h⟩
      · rcases needs_get.1 h with rfl | h
        · exact hty _ e
        · exact absurd h needs_prattVariant
      · exact ih h
    split at h
    · rename_i e
      rw [needs_bind] at h
      rcases h with h | ⟨_, _, _, h⟩
      · rcases needs_get.1 h with rfl | h
        · exact hty _ e
        · exact absurd h needs_astNodeTraits
      · exact ih h
    · exact ih h

/-- Only these queries are asked. -/
theorem asked_collectRequests {q : Query} (h : Needs B (collectRequests f) q) : Asked f q := by
  unfold collectRequests at h
  rw [needs_bind] at h
  rcases h with h | ⟨l, _, _, h⟩
  · exact absurd h needs_lift
  rw [needs_bind] at h
  rcases h with h | ⟨_, _, _, h⟩
  · exact asked_collectNodes hf h
  rw [needs_bind] at h
  rcases h with h | ⟨_, _, _, h⟩
  · exact asked_unusedRules hf h
  rw [needs_bind] at h
  rcases h with h | ⟨_, _, _, h⟩
  · rcases needs_get.1 h with rfl | h
    · trivial
    · exact absurd h needs_allLexRules
  · exact absurd h needs_pure

omit hf in
/-- What a query needs is needed by those that ask for it, if they do not panic. -/
theorem collectNodes_needs {l : List Nat} {ds : List Diagnostic} (h : Eval B (collectNodes f l) (some ()) ds)
    {n : Nat} (hn : n ∈ l) {t : NodeType} (ht : OfType f t n) {q : Query}
    (hq : t = 135 ∧ q = .resolveRef n ∨ t = 140 ∧ q = .resolveCall n ∨ t = 132 ∧ q = .prattVariant n ∨
      t = 150 ∧ q = .astNodeTraits n) :
    Needs B (collectNodes f l) q ∧ ∃ v ds, Eval B (analysisBody f q) (some v) ds ∧
      ∀ q', Needs B (analysisBody f q) q' → Needs B (collectNodes f l) q' := by
  induction l generalizing ds with
  | nil => simp at hn
  | cons m l ih =>
    unfold collectNodes at h ⊢
    rw [eval_bind_some] at h
    obtain ⟨t', _, _, h1, h, rfl⟩ := h
    obtain ⟨ht', -⟩ := eval_lift.1 h1
    rw [List.mem_cons] at hn
    have key : ∀ {q0 : Query} {ds : List Diagnostic},
        Eval B (do let _ ← get q0; collectNodes f l) (some ()) ds →
        (q = q0 ∨ n ∈ l) → Needs B (do let _ ← get q0; collectNodes f l) q ∧
          ∃ v ds, Eval B (analysisBody f q) (some v) ds ∧
          ∀ q', Needs B (analysisBody f q) q' → Needs B (do let _ ← get q0; collectNodes f l) q' := by
      intro q0 ds h hq
      rw [eval_bind_some] at h
      obtain ⟨v, _, _, g1, g2, rfl⟩ := h
      rcases hq with rfl | hq
      · refine ⟨needs_bind.2 (.inl (needs_get.2 (.inl rfl))), ?_⟩
        cases g1 with
        | ask g1 g3 =>
          exact ⟨_, _, g1, fun q' h' => needs_bind.2 (.inl (needs_get.2 (.inr h')))⟩
      · obtain ⟨a, w, dw, b, c⟩ := ih g2 hq
        exact ⟨needs_bind.2 (.inr ⟨_, _, g1, a⟩), w, dw, b, fun q' h' => needs_bind.2 (.inr ⟨_, _, g1, c q' h'⟩)⟩
    have fin : ∀ {X : NodeType → AProg Unit}, (Needs B (X t') q ∧ ∃ v ds, Eval B (analysisBody f q) (some v) ds ∧
          ∀ q', Needs B (analysisBody f q) q' → Needs B (X t') q') →
        Needs B (lift (f.ty m) >>= X) q ∧ ∃ v ds, Eval B (analysisBody f q) (some v) ds ∧
          ∀ q', Needs B (analysisBody f q) q' → Needs B (lift (f.ty m) >>= X) q' := by
      rintro X ⟨a, w, dw, b, c⟩
      exact ⟨needs_bind.2 (.inr ⟨_, _, h1, a⟩), w, dw, b, fun q' h' => needs_bind.2 (.inr ⟨_, _, h1, c q' h'⟩)⟩
    apply fin
    have hmt : n = m → t = t' := by
      rintro rfl
      unfold OfType at ht
      rw [ht, Option.some.injEq] at ht'
      exact ht'
    have other : ∀ {a b : NodeType}, (t' == a) = true → t = b → a ≠ b → n ∈ l := by
      intro a b h1 h2 h3
      rcases hn with e | hn
      · exact absurd ((beq_iff_eq.1 h1).symm.trans ((hmt e).symm.trans h2)) h3
      · exact hn
    by_cases c1 : (t' == Ty.refExpr) = true
    · rw [if_pos c1] at h ⊢
      refine key h ?_
      rcases hq with ⟨e, rfl⟩ | ⟨e, rfl⟩ | ⟨e, rfl⟩ | ⟨e, rfl⟩
      · exact hn.imp (fun e => by rw [e]) id
      all_goals exact .inr (other c1 e (by decide))
    rw [if_neg c1] at h ⊢
    by_cases c2 : (t' == Ty.callExpr) = true
    · rw [if_pos c2] at h ⊢
      refine key h ?_
      rcases hq with ⟨e, rfl⟩ | ⟨e, rfl⟩ | ⟨e, rfl⟩ | ⟨e, rfl⟩
      · exact .inr (other c2 e (by decide))
      · exact hn.imp (fun e => by rw [e]) id
      all_goals exact .inr (other c2 e (by decide))
    rw [if_neg c2] at h ⊢
    by_cases c3 : (t' == Ty.synRule) = true
    · rw [if_pos c3] at h ⊢
      refine key h ?_
      rcases hq with ⟨e, rfl⟩ | ⟨e, rfl⟩ | ⟨e, rfl⟩ | ⟨e, rfl⟩
      · exact .inr (other c3 e (by decide))
      · exact .inr (other c3 e (by decide))
      · exact hn.imp (fun e => by rw [e]) id
      · exact .inr (other c3 e (by decide))
    rw [if_neg c3] at h ⊢
    by_cases c4 : (t' == Ty.astNodeDef) = true
    · rw [if_pos c4] at h ⊢
      refine key h ?_
      rcases hq with ⟨e, rfl⟩ | ⟨e, rfl⟩ | ⟨e, rfl⟩ | ⟨e, rfl⟩
      · exact .inr (other c4 e (by decide))
      · exact .inr (other c4 e (by decide))
      · exact .inr (other c4 e (by decide))
      · exact hn.imp (fun e => by rw [e]) id
    rw [if_neg c4] at h ⊢
    refine ih h (hn.resolve_left fun e => ?_)
    have e := hmt e
    subst e
    rcases hq with ⟨e, -⟩ | ⟨e, -⟩ | ⟨e, -⟩ | ⟨e, -⟩ <;> subst e
    · exact c1 (by decide)
    · exact c2 (by decide)
    · exact c3 (by decide)
    · exact c4 (by decide)

/-- All these queries are asked, if nothing panics. -/
theorem collectRequests_needs {ds : List Diagnostic} (h : Eval B (collectRequests f) (some ()) ds) {q : Query}
    (hq : Asked f q) : Needs B (collectRequests f) q := by
  unfold collectRequests at h ⊢
  obtain ⟨l, -, hl, -, -, -, hb⟩ := C21_subtree f hf.nodes 0 (zero_isNode hf)
  rw [eval_bind_some] at h
  obtain ⟨nodes, _, _, h1, h, rfl⟩ := h
  refine needs_bind.2 (.inr ⟨_, _, h1, ?_⟩)
  obtain ⟨hnodes, -⟩ := eval_lift.1 h1
  rw [File.root, hb] at hnodes
  have hcol : ∀ (l acc : List Nat), l.foldlM (fun acc n => some (acc ++ [n])) acc = some (acc ++ l) := by
    intro l
    induction l with
    | nil => simp
    | cons x l ih =>
      intro acc
      rw [List.foldlM_cons, Option.bind_eq_bind, Option.bind_some, ih]
      simp
  rw [hcol, List.nil_append, Option.some.injEq] at hnodes
  subst hnodes
  have hmem : ∀ {t n}, OfType f t n → n ∈ l := fun h => (hl _).2 (root_desc hf.nodes (ofType_isNode h))
  rw [eval_bind_some] at h
  obtain ⟨_, _, _, h2, h, rfl⟩ := h
  rw [eval_bind_some] at h
  obtain ⟨_, _, _, h3, h, rfl⟩ := h
  cases q with
  | allLexRules =>
    exact needs_bind.2 (.inr ⟨_, _, h2, needs_bind.2 (.inr ⟨_, _, h3, needs_bind.2 (.inl (needs_get.2 (.inl rfl)))⟩)⟩)
  | unusedRules => exact needs_bind.2 (.inr ⟨_, _, h2, needs_bind.2 (.inl (needs_get.2 (.inl rfl)))⟩)
  | resolveMethod => exact hq.elim
  | resolveRef n => exact needs_bind.2 (.inl (collectNodes_needs h2 (hmem hq) hq (.inl ⟨rfl, rfl⟩)).1)
  | resolveCall n => exact needs_bind.2 (.inl (collectNodes_needs h2 (hmem hq) hq (.inr (.inl ⟨rfl, rfl⟩))).1)
  | prattVariant n => exact needs_bind.2 (.inl (collectNodes_needs h2 (hmem hq) hq (.inr (.inr (.inl ⟨rfl, rfl⟩)))).1)
  | astNodeTraits n => exact needs_bind.2 (.inl (collectNodes_needs h2 (hmem hq) hq (.inr (.inr (.inr ⟨rfl, rfl⟩)))).1)
  | allSynRules =>
    refine needs_bind.2 (.inl ?_)
    rcases hq with ⟨ref, s, rule, hr, h⟩ | ⟨call, name, hc, h, h'⟩
    · obtain ⟨-, v, dv, he, hall⟩ := collectNodes_needs h2 (hmem hr) hr (.inl ⟨rfl, rfl⟩)
      exact hall _ (resolveRef_needs hf (ofType_isNode hr) he ⟨s, rule, h⟩)
    · obtain ⟨-, v, dv, he, hall⟩ := collectNodes_needs h2 (hmem hc) hc (.inr (.inl ⟨rfl, rfl⟩))
      exact hall _ (resolveCall_needs_rules hf hc he h h')
  | allContexts =>
    refine needs_bind.2 (.inl ?_)
    obtain ⟨call, s, args, hc, h⟩ := hq
    obtain ⟨-, v, dv, he, hall⟩ := collectNodes_needs h2 (hmem hc) hc (.inr (.inl ⟨rfl, rfl⟩))
    exact hall _ (resolveCall_needs_contexts hf hc he ⟨s, args, h⟩)

/-! ## What is reported -/

/-- What a query reports is a problem of the file. -/
theorem query_reports {q : Query} (hq : QueryTyped f q) {v : Value q} {ds : List Diagnostic}
    (h : Eval B (analysisBody f q) (some v) ds) {d : Diagnostic} (hd : d ∈ ds) :
    Problem f d ∨ (q = .allSynRules ∧ ReportAt f true "Duplicate rule" (DuplicateRule f) d) ∨
      (q = .allContexts ∧ LonelyContext f d) := by
  cases q with
  | allLexRules =>
    obtain ⟨-, is, h1, -, h2⟩ := allLexRules_eval hf h
    obtain ⟨n, hn, r, hr, rfl⟩ := (reports_mem h2 d).1 hd
    exact .inl (.duplicateToken ⟨n, r, (h1 n).1 hn, hr, rfl⟩)
  | allSynRules =>
    obtain ⟨-, is, h1, -, h2⟩ := allSynRules_eval hf h
    obtain ⟨n, hn, r, hr, rfl⟩ := (reports_mem h2 d).1 hd
    exact .inr (.inl ⟨rfl, n, r, (h1 n).1 hn, hr, rfl⟩)
  | allContexts =>
    obtain ⟨-, uses, -, h1, h2⟩ := allContexts_eval hf h
    have : some d ∈ ds.map some := List.mem_map.2 ⟨d, hd, rfl⟩
    rw [h2, List.mem_map] at this
    obtain ⟨⟨s, c⟩, hu, e⟩ := this
    rw [Option.map_eq_some_iff] at e
    obtain ⟨r, hr, rfl⟩ := e
    exact .inr (.inr ⟨rfl, s, c, r, (h1 s c).1 hu, hr, rfl⟩)
  | resolveRef n =>
    obtain ⟨s, rule, h1, h2, h3, ⟨rfl, h4, h5⟩ | ⟨-, rfl⟩⟩ := resolveRef_eval hf (ofType_isNode hq) h
    · obtain ⟨n', hn, r, hr, rfl⟩ := (reports_mem h5 d).1 hd
      cases List.mem_singleton.1 hn
      exact .inl (.unresolvedRef ⟨n, r, ⟨hq, ⟨s, rule, h1, h2, h3⟩, h4⟩, hr, rfl⟩)
    · simp at hd
  | resolveCall n =>
    obtain ⟨name, args, h1, h2, h3⟩ := resolveCall_eval hf hq h
    exact .inl (.call hq h1 h2 h3 hd)
  | prattVariant n => exact .inl (.operator hq (prattVariant_eval hf (ofType_isNode hq) h) hd)
  | resolveMethod n =>
    rw [(resolveMethod_eval hf (ofType_isNode hq) h).2] at hd
    simp at hd
  | astNodeTraits n =>
    obtain ⟨ids, bad, h1, h2, h3⟩ := astNodeTraits_eval hf (ofType_isNode hq) h
    obtain ⟨i, hi, r, hr, rfl⟩ := (reports_mem h3 d).1 hd
    obtain ⟨h4, s, h5, h6⟩ := (traitsOf_bad h2 i).1 hi
    exact .inl (.unresolvedTrait ⟨i, r, ⟨n, ids, s, hq, h1, h4, h5, h6⟩, hr, rfl⟩)
  | unusedRules =>
    obtain ⟨is, h1, -, h2⟩ := unusedRules_eval hf h
    obtain ⟨n, hn, r, hr, rfl⟩ := (reports_mem h2 d).1 hd
    exact .inl (.unusedRule ⟨n, r, (h1 n).1 hn, hr, rfl⟩)

/-- Problems are reported by the query that is about them. -/
theorem problem_reported {d : Diagnostic} (hp : Problem f d)
    (hall : ∀ q, Asked f q → ∃ v ds, Eval B (analysisBody f q) (some v) ds) :
    ∃ q v ds, Asked f q ∧ Eval B (analysisBody f q) (some v) ds ∧ d ∈ ds := by
  cases hp with
  | duplicateToken h =>
    obtain ⟨n, r, hn, hr, rfl⟩ := h
    obtain ⟨v, ds, he⟩ := hall .allLexRules trivial
    obtain ⟨-, is, h1, -, h2⟩ := allLexRules_eval hf he
    exact ⟨_, v, ds, trivial, he, (reports_mem h2 _).2 ⟨n, (h1 n).2 hn, r, hr, rfl⟩⟩
  | unusedRule h =>
    obtain ⟨n, r, hn, hr, rfl⟩ := h
    obtain ⟨v, ds, he⟩ := hall .unusedRules trivial
    obtain ⟨is, h1, -, h2⟩ := unusedRules_eval hf he
    exact ⟨_, v, ds, trivial, he, (reports_mem h2 _).2 ⟨n, (h1 n).2 hn, r, hr, rfl⟩⟩
  | unresolvedRef h =>
    obtain ⟨n, r, ⟨hn, hrt, hnc⟩, hr, rfl⟩ := h
    obtain ⟨v, ds, he⟩ := hall (.resolveRef n) hn
    refine ⟨_, v, ds, hn, he, ?_⟩
    obtain ⟨s, rule, h1, h2, h3, ⟨-, h4, h5⟩ | ⟨h4, rfl⟩⟩ := resolveRef_eval hf (ofType_isNode hn) he
    · exact (reports_mem h5 _).2 ⟨n, by simp, r, hr, rfl⟩
    · rcases h4 with h4 | h4
      · exact absurd (refersTo_unique hf ⟨s, rule, h1, h2, h3⟩ hrt) h4
      · exact absurd h4 hnc
  | @call c name args k ds hc hi ha hm hd =>
    obtain ⟨v, ds', he⟩ := hall (.resolveCall c) hc
    obtain ⟨name', args', g1, g2, g3⟩ := resolveCall_eval hf hc he
    cases childrenWith_unique hf (ofType_isNode hc) ha g2
    obtain ⟨-, rfl⟩ := callMeans_unique hf hm g3 (labelled_unique hi g1)
    exact ⟨_, v, ds, hc, he, hd⟩
  | @operator rule k ds hr hm hd =>
    obtain ⟨v, ds', he⟩ := hall (.prattVariant rule) hr
    obtain ⟨-, rfl⟩ := operatorMeans_unique hf hm (prattVariant_eval hf (ofType_isNode hr) he)
    exact ⟨_, v, ds, hr, he, hd⟩
  | unresolvedTrait h =>
    obtain ⟨i, r, ⟨node, ids, s, hn, h1, h2, h3, h4⟩, hr, rfl⟩ := h
    obtain ⟨v, ds, he⟩ := hall (.astNodeTraits node) hn
    obtain ⟨ids', bad, g1, g2, g3⟩ := astNodeTraits_eval hf (ofType_isNode hn) he
    exact ⟨_, v, ds, hn, he, (reports_mem g3 _).2
      ⟨i, (traitsOf_bad g2 i).2 ⟨(namesAfterColon_unique h1 g1 i).1 h2, s, h3, h4⟩, r, hr, rfl⟩⟩

end

end

/-! ## Methods -/

theorem astItem_unique {f : File UInt8} {t s n n'} (h : AstItem f t s n) (h' : AstItem f t s n') : n = n' := by
  obtain ⟨a, h1, h2⟩ := h
  obtain ⟨b, h3, h4⟩ := h'
  cases firstChild_unique h1 h3
  exact firstChild_unique h2 h4

theorem tokenTyped_unique {f : File UInt8} {s n n'} (h : TokenTyped f s n) (h' : TokenTyped f s n') : n = n' := by
  obtain ⟨a, h1, h2⟩ := h
  obtain ⟨b, h3, h4⟩ := h'
  cases firstChild_unique h1 h3
  exact firstChild_unique h2 h4

theorem selectorArity_unique {f : File UInt8} {s a b} (h : SelectorArity f s a) (h' : SelectorArity f s b) : a = b := by
  cases a <;> cases b <;> simp only [SelectorArity] at h h' <;> grind

theorem methodMeans_unique {f : File UInt8} {m k k'} (h : MethodMeans f m k) (h' : MethodMeans f m k') : k = k' := by
  have u1 : ∀ {n P c c'}, FirstChild f n P c → FirstChild f n P c' → c = c' := fun a b => firstChild_unique a b
  have u2 : ∀ {n s s'}, Ident f n s → Ident f n s' → s = s' := fun a b => labelled_unique a b
  have u3 : ∀ {n s t t'}, AstItem f n s t → AstItem f n s t' → t = t' := fun a b => astItem_unique a b
  have u4 : ∀ {s t t'}, TokenTyped f s t → TokenTyped f s t' → t = t' := fun a b => tokenTyped_unique a b
  have u5 : ∀ {s t t'}, SelectorArity f s t → SelectorArity f s t' → t = t' := fun a b => selectorArity_unique a b
  have u6 : ∀ {n s t}, AstItem f n s t → ∃ ast, FirstChild f 0 (OfType f 149) ast := fun ⟨a, h, _⟩ => ⟨a, h⟩
  cases h <;> cases h' <;> first | rfl | grind

end Fall
