import Verif.Lemmas.Codegen

/-!
What is written at a node is unique.
-/

namespace Fall

open Spec AProg

section
variable {f : File UInt8} (hf : ConsistentFile f)
include hf

theorem child_parent {p c : Nat} (h : Child f p c) : IsNode f p ∧ c ∈ kids f p ∧ (dat f c).parent = some p := by
  obtain ⟨cs, h1, h2⟩ := h
  have hp : IsNode f p := by
    simp only [File.children, File.data, Option.map_eq_some_iff] at h1
    obtain ⟨d, h1, -⟩ := h1
    exact isNode_of_getElem h1
  rw [children_kids hp, Option.some.injEq] at h1
  subst h1
  exact ⟨hp, h2, (kids_spec hf.nodes hp h2).2.2⟩

theorem child_unique {p q c : Nat} (h : Child f p c) (h' : Child f q c) : p = q := by
  have h := (child_parent hf h).2.2
  have h' := (child_parent hf h').2.2
  rw [h] at h'
  cases h'
  rfl

omit hf in
theorem firstChild_child {n c : Nat} {P : Nat → Prop} (h : FirstChild f n P c) : Child f n c ∧ P c := by
  obtain ⟨cs, h1, h2⟩ := h
  exact ⟨⟨cs, h1, (first_mem h2).1⟩, (first_mem h2).2⟩

omit hf in
theorem clash {n : Nat} {a b : NodeType} (h : OfType f a n) (h' : OfType f b n) (hne : a ≠ b) : False := by
  unfold OfType at h h'
  rw [h, Option.some.injEq] at h'
  exact hne h'

theorem target_unique {n m m' : Nat} (h : Target f n m) (h' : Target f n m') : m = m' := by
  rcases h with ⟨a, h⟩ | ⟨h, rfl⟩ <;> rcases h' with ⟨a', h'⟩ | ⟨h', rfl⟩
  · have := refersTo_unique hf h h'
    simpa using this
  · exact absurd ⟨a, h⟩ (h' m)
  · exact absurd ⟨a', h'⟩ (h m')
  · rfl

omit hf in
theorem first_split {α : Type} {p : α → Prop} {a a' : List α} {x x' : α} {b b' : List α} (e : a ++ x :: b = a' ++ x' :: b')
    (h : ∀ y ∈ a, ¬ p y) (hx : p x) (h' : ∀ y ∈ a', ¬ p y) (hx' : p x') : a = a' ∧ x = x' ∧ b = b' := by
  induction a generalizing a' with
  | nil =>
    cases a' with
    | nil => simpa using e
    | cons y a' =>
      simp only [List.nil_append, List.cons_append, List.cons.injEq] at e
      exact absurd (e.1 ▸ hx) (h' y (by simp))
  | cons y a ih =>
    cases a' with
    | nil =>
      simp only [List.nil_append, List.cons_append, List.cons.injEq] at e
      exact absurd (e.1 ▸ hx') (h y (by simp))
    | cons z a' =>
      simp only [List.cons_append, List.cons.injEq] at e
      obtain ⟨rfl, e⟩ := e
      obtain ⟨rfl, r⟩ := ih e (fun y hy => h y (by simp [hy])) (fun y hy => h' y (by simp [hy]))
      exact ⟨rfl, r⟩

omit hf in
theorem commitAt_unique {parts : List Nat} {c c' : Option Nat} (h : CommitAt f parts c) (h' : CommitAt f parts c') :
    c = c' := by
  cases c with
  | none =>
    cases c' with
    | none => rfl
    | some c' =>
      obtain ⟨pre, p, post, rfl, h1, -⟩ := h'
      exact absurd h1 (h p (by simp))
  | some c =>
    obtain ⟨pre, p, post, rfl, h1, h2, rfl⟩ := h
    cases c' with
    | none => exact absurd h1 (h' p (by simp))
    | some c' =>
      obtain ⟨pre', p', post', e, h1', h2', rfl⟩ := h'
      rw [(first_split e h2 h1 h2' h1').1]

theorem typeNumber_unique {s : List UInt8} {k k' : Nat} (h : TypeNumber f s k) (h' : TypeNumber f s k') : k = k' := by
  obtain ⟨a, b, h1, h2, rfl⟩ := h
  obtain ⟨a', b', h1', h2', rfl⟩ := h'
  have e := typeNames_unique hf h1 h1'
  rw [(first_split (p := (· = s)) e (fun y hy h => h2 (h ▸ hy)) rfl (fun y hy h => h2' (h ▸ hy)) rfl).1]

theorem makesNodes_unique {r : Nat} {s s' : List UInt8} (h : MakesNodes f r s) (h' : MakesNodes f r s') : s = s' := by
  obtain ⟨-, -, ⟨a, h1, h2⟩ | ⟨h1, h2⟩⟩ := h <;> obtain ⟨-, -, ⟨a', h1', h2'⟩ | ⟨h1', h2'⟩⟩ := h'
  · rw [attribute_unique hf h1' h1] at h2'
    exact labelled_unique h2 h2'
  · exact absurd h1 (h1' a)
  · exact absurd h1' (h1 a')
  · exact labelled_unique h2 h2'

theorem ruleType_unique {r k k' : Nat} (h : RuleType f r k) (h' : RuleType f r k') : k = k' := by
  obtain ⟨s, h1, h2⟩ := h
  obtain ⟨s', h1', h2'⟩ := h'
  rw [makesNodes_unique hf h1' h1] at h2'
  exact typeNumber_unique hf h2 h2'

theorem paramsOf_unique {r : Nat} {ps ps' : List Nat} (h : ParamsOf f r ps) (h' : ParamsOf f r ps') : ps = ps' := by
  rcases h with ⟨d, h1, h2⟩ | ⟨h1, rfl⟩ <;> rcases h' with ⟨d', h1', h2'⟩ | ⟨h1', rfl⟩
  · cases firstChild_unique h1 h1'
    exact childrenWith_unique hf (first_isNode hf h1) h2 h2'
  · exact absurd h1 (h1' d)
  · exact absurd h1' (h1 d')
  · rfl

theorem childrenWith_nodup {n : Nat} {P : Nat → Prop} {cs : List Nat} (h : ChildrenWith f n P cs) : cs.Nodup := by
  by_cases hc : cs = []
  · simp [hc]
  · obtain ⟨c, hc⟩ := List.exists_mem_of_ne_nil _ hc
    have hn := (child_parent hf (childrenWith_mem h c hc).1).1
    obtain ⟨all, h1, h2, -⟩ := h
    rw [children_kids hn, Option.some.injEq] at h1
    subst h1
    exact h2.nodup (kids_nodup hf.nodes hn)

theorem paramsOf_nodup {r : Nat} {ps : List Nat} (h : ParamsOf f r ps) : ps.Nodup := by
  rcases h with ⟨d, -, h⟩ | ⟨-, rfl⟩
  · exact childrenWith_nodup hf h
  · simp

/-- A parameter belongs to one rule. -/
theorem paramsOf_rule {r r' : Nat} {ps ps' : List Nat} (h : ParamsOf f r ps) (h' : ParamsOf f r' ps') {p : Nat}
    (hp : p ∈ ps) (hp' : p ∈ ps') : r = r' := by
  rcases h with ⟨d, h1, h2⟩ | ⟨-, rfl⟩
  · rcases h' with ⟨d', h1', h2'⟩ | ⟨-, rfl⟩
    · have e := child_unique hf (childrenWith_mem h2 p hp).1 (childrenWith_mem h2' p hp').1
      subst e
      exact child_unique hf (firstChild_child h1).1 (firstChild_child h1').1
    · cases hp'
  · cases hp

theorem params_nodup {rs : List Nat} {pss : List (List Nat)} (hr : rs.Nodup) (h : Pointwise (ParamsOf f) rs pss) :
    pss.flatten.Nodup := by
  induction h with
  | nil => simp
  | cons h hs ih =>
    rename_i r ps rs pss
    rw [List.nodup_cons] at hr
    simp only [List.flatten_cons]
    refine List.nodup_append.2 ⟨paramsOf_nodup hf h, ih hr.2, ?_⟩
    rintro p hp q hq rfl
    obtain ⟨ps', hps', hq⟩ := List.mem_flatten.1 hq
    obtain ⟨r', hr', h'⟩ := hs.mem hps'
    exact hr.1 (paramsOf_rule hf h h' hp hq ▸ hr')

theorem paramNumber_unique {p i j : Nat} (h : ParamNumber f p i) (h' : ParamNumber f p j) : i = j := by
  obtain ⟨rs, pss, h1, h2, h3⟩ := h
  obtain ⟨rs', pss', h1', h2', h3'⟩ := h'
  cases childrenWith_unique hf (zero_isNode hf) h1 h1'
  cases h2.unique h2' fun _ _ _ _ => paramsOf_unique hf
  have hd := params_nodup hf (childrenWith_nodup hf h1) h2
  have hi := (List.getElem?_eq_some_iff.1 h3).1
  exact (List.getElem?_inj hi hd).1 (h3.trans h3'.symm)

theorem paramNumber_inj {p q i : Nat} (h : ParamNumber f p i) (h' : ParamNumber f q i) : p = q := by
  obtain ⟨rs, pss, h1, h2, h3⟩ := h
  obtain ⟨rs', pss', h1', h2', h3'⟩ := h'
  cases childrenWith_unique hf (zero_isNode hf) h1 h1'
  cases h2.unique h2' fun _ _ _ _ => paramsOf_unique hf
  rw [h3] at h3'
  cases h3'
  rfl

theorem callSays_unique {k : CallKind} {e e' : Expr} (h : CallSays f k e) (h' : CallSays f k e') : e = e' := by
  cases h <;> cases h' <;> try rfl
  case not.not h _ h' => rw [target_unique hf h h']
  case enter.enter h _ h' => rw [target_unique hf h h']
  case exit.exit h _ h' => rw [target_unique hf h h']
  case layer.layer h1 h2 _ _ h1' h2' => rw [target_unique hf h1 h1', target_unique hf h2 h2']
  case withSkip.withSkip h1 h2 _ _ h1' h2' => rw [target_unique hf h1 h1', target_unique hf h2 h2']
  case inject.inject h1 h2 _ _ h1' h2' => rw [target_unique hf h1 h1', target_unique hf h2 h2']
  case rule.rule h _ h' =>
    rw [h.unique h' fun x _ y z hy hz => Prod.ext (paramNumber_unique hf hy.1 hz.1) (target_unique hf hy.2 hz.2)]
  case prevIs.prevIs h _ h' => rw [h.unique h' fun x _ y z => ruleType_unique hf]

theorem altRule_unique {alt r r' : Nat} (h : AltRule f alt r) (h' : AltRule f alt r') : r = r' := by
  obtain ⟨-, p, h1, -, h⟩ := h
  obtain ⟨-, p', h1', -, h'⟩ := h'
  rw [firstChild_unique h1' h1] at h'
  have := refersTo_unique hf h h'
  simpa using this

omit hf in
/-- The table with one more alternative in front. -/
def withAlt (f : File UInt8) (r k : Nat) (t : PrattTable) : PrattVariant → PrattTable → Prop
  | .atom _, t' => t' = ⟨r :: t.atoms, t.prefixes, t.infixes⟩
  | .prefix op n, t' => ∃ o, Target f op o ∧ t' = ⟨t.atoms, ⟨k, o, n⟩ :: t.prefixes, t.infixes⟩
  | .postfix op n, t' => ∃ o, Target f op o ∧ t' = ⟨t.atoms, t.prefixes, ⟨k, o, n, false⟩ :: t.infixes⟩
  | .bin op n, t' => ∃ o, Target f op o ∧ t' = ⟨t.atoms, t.prefixes, ⟨k, o, n, true⟩ :: t.infixes⟩

omit hf in
theorem tableSays_cons {alt : Nat} {alts : List Nat} {t : PrattTable} (h : TableSays f (alt :: alts) t) :
    ∃ r k v ds t', AltRule f alt r ∧ RuleType f r k ∧ OperatorMeans f r (some v) ds ∧ TableSays f alts t' ∧
      withAlt f r k t' v t := by
  cases h with
  | atom h1 h2 h3 h5 => exact ⟨_, _, _, _, _, h1, h2, h3, h5, rfl⟩
  | prefixOp h1 h2 h3 h4 h5 => exact ⟨_, _, _, _, _, h1, h2, h3, h5, _, h4, rfl⟩
  | postfixOp h1 h2 h3 h4 h5 => exact ⟨_, _, _, _, _, h1, h2, h3, h5, _, h4, rfl⟩
  | bin h1 h2 h3 h4 h5 => exact ⟨_, _, _, _, _, h1, h2, h3, h5, _, h4, rfl⟩

theorem tableSays_unique {alts : List Nat} {t t' : PrattTable} (h : TableSays f alts t) (h' : TableSays f alts t') :
    t = t' := by
  induction alts generalizing t t' with
  | nil => cases h; cases h'; rfl
  | cons alt alts ih =>
    obtain ⟨r, k, v, ds, u, h1, h2, h3, h4, h5⟩ := tableSays_cons h
    obtain ⟨r', k', v', ds', u', h1', h2', h3', h4', h5'⟩ := tableSays_cons h'
    cases altRule_unique hf h1 h1'
    cases ruleType_unique hf h2 h2'
    cases ih h4 h4'
    have e := (operatorMeans_unique hf h3 h3').1
    cases e
    cases v with
    | atom b => rw [h5, h5']
    | _ =>
      obtain ⟨o, g1, rfl⟩ := h5
      obtain ⟨o', g1', rfl⟩ := h5'
      rw [target_unique hf g1 g1']

theorem bodyOf_unique {r m m' : Nat} (h : BodyOf f r m) (h' : BodyOf f r m') : m = m' := by
  rcases h with h | ⟨h, b, h1, h2⟩ <;> rcases h' with h' | ⟨h', b', h1', h2'⟩
  · exact attribute_unique hf h h'
  · exact absurd h (h' m)
  · exact absurd h' (h m')
  · rw [firstChild_unique h1' h1] at h2'
    exact target_unique hf h2 h2'

omit hf in
theorem attribute_type {r a : Nat} {name : String} (h : Attribute f r name a) :
    OfType f 145 a ∧ Ident f a (ascii name) := by
  obtain ⟨as, -, h⟩ := h
  exact (firstChild_child h).2

/-- An attribute belongs to one rule. -/
theorem attribute_rule {r r' a : Nat} {name name' : String} (h : Attribute f r name a) (h' : Attribute f r' name' a) :
    r = r' := by
  obtain ⟨as, h1, h⟩ := h
  obtain ⟨as', h1', h'⟩ := h'
  have e := child_unique hf (firstChild_child h).1 (firstChild_child h').1
  subst e
  exact child_unique hf (firstChild_child h1).1 (firstChild_child h1').1

end

/-- Closes the cases in which a node would have two types. -/
macro "other_type" h:ident : tactic => `(tactic| first
  | exact (clash ‹OfType _ 137 _› $h (by decide)).elim
  | exact (clash ‹OfType _ 136 _› $h (by decide)).elim
  | exact (clash ‹OfType _ 135 _› $h (by decide)).elim
  | exact (clash ‹OfType _ 140 _› $h (by decide)).elim
  | exact (clash ‹OfType _ 138 _› $h (by decide)).elim
  | exact (clash ‹OfType _ 139 _› $h (by decide)).elim
  | exact (clash (attribute_type ‹Attribute _ _ "pratt" _›).1 $h (by decide)).elim
  | exact (clash (attribute_type ‹Attribute _ _ "cached" _›).1 $h (by decide)).elim
  | exact (clash ‹OfType _ 132 _› $h (by decide)).elim)

section
variable {f : File UInt8} {n : Nat} {e : Expr} (h : Says f n e)
include h

theorem says_block (ht : OfType f 137 n) :
    ∃ alts ts, ChildrenWith f n (IsExpr f) alts ∧ Pointwise (Target f) alts ts ∧ e = .or ts := by
  cases h with
  | block h1 h2 h3 => exact ⟨_, _, h2, h3, rfl⟩
  | _ => other_type ht

theorem says_seq (ht : OfType f 136 n) :
    ∃ parts c kept ts, ChildrenWith f n (IsExpr f) parts ∧ CommitAt f parts c ∧
      ChildrenWith f n (fun p => IsExpr f p ∧ ¬ IsCommit f p) kept ∧ Pointwise (Target f) kept ts ∧ e = .and ts c := by
  cases h with
  | seq h1 h2 h3 h4 h5 => exact ⟨_, _, _, _, h2, h3, h4, h5, rfl⟩
  | _ => other_type ht

theorem says_ref (ht : OfType f 135 n) :
    (∃ t s k, RefersTo f n (some (.token t)) ∧ Ident f t s ∧ TypeNumber f s k ∧ (∀ a, ¬ Attribute f t "contextual" a) ∧
      e = .token k) ∨
    (∃ t s k a lit text, RefersTo f n (some (.token t)) ∧ Ident f t s ∧ TypeNumber f s k ∧
      Attribute f t "contextual" a ∧ Labelled f t 147 lit ∧ Quoted lit text ∧
      e = .contextualToken k (text.map (·.toNat))) ∨
    (∃ p i, RefersTo f n (some (.param p)) ∧ ParamNumber f p i ∧ e = .var i) := by
  cases h with
  | token h1 h2 h3 h4 h5 => exact .inl ⟨_, _, _, h2, h3, h4, h5, rfl⟩
  | contextual h1 h2 h3 h4 h5 h6 h7 h8 => exact .inr (.inl ⟨_, _, _, _, _, _, h2, h3, h4, h5, h6, h8, rfl⟩)
  | param h1 h2 h3 => exact .inr (.inr ⟨_, _, h2, h3, rfl⟩)
  | _ => other_type ht

theorem says_call (ht : OfType f 140 n) :
    ∃ name args kind ds, Ident f n name ∧ ChildrenWith f n (IsExpr f) args ∧ CallMeans f n args name (some kind) ds ∧
      CallSays f kind e := by
  cases h with
  | call h1 h2 h3 h4 h5 => exact ⟨_, _, _, _, h2, h3, h4, h5⟩
  | _ => other_type ht

theorem says_opt (ht : OfType f 138 n) : ∃ b t, FirstChild f n (IsExpr f) b ∧ Target f b t ∧ e = .opt t := by
  cases h with
  | opt h1 h2 h3 => exact ⟨_, _, h2, h3, rfl⟩
  | _ => other_type ht

theorem says_rep (ht : OfType f 139 n) : ∃ b t, FirstChild f n (IsExpr f) b ∧ Target f b t ∧ e = .rep t := by
  cases h with
  | rep h1 h2 h3 => exact ⟨_, _, h2, h3, rfl⟩
  | _ => other_type ht

theorem says_attribute (ht : OfType f 145 n) :
    (∃ r b alts table, Attribute f r "pratt" n ∧ FirstChild f r (IsExpr f) b ∧ OfType f 137 b ∧
      ChildrenWith f b (IsExpr f) alts ∧ TableSays f alts table ∧ e = .pratt table) ∨
    (∃ r t, Attribute f r "cached" n ∧ BodyOf f r t ∧ e = .cached t) := by
  cases h with
  | table h1 h2 h3 h4 h5 h6 => exact .inl ⟨_, _, _, _, h2, h3, h4, h5, h6, rfl⟩
  | memory h1 h2 h3 => exact .inr ⟨_, _, h2, h3, rfl⟩
  | _ => other_type ht

theorem says_rule (ht : OfType f 132 n) :
    (∃ k a t, RuleType f n k ∧ Attribute f n "replaces" a ∧ BodyOf f n t ∧ e = .pubReplace k t) ∨
    (∃ k t b, RuleType f n k ∧ (∀ a, ¬ Attribute f n "replaces" a) ∧ (∀ a, ¬ Attribute f n "cached" a) ∧ BodyOf f n t ∧
      (b = true ↔ ∃ a, Attribute f n "replaceable" a) ∧ e = .pub k t b) ∨
    (∃ k a b, RuleType f n k ∧ (∀ a, ¬ Attribute f n "replaces" a) ∧ Attribute f n "cached" a ∧
      (b = true ↔ ∃ a, Attribute f n "replaceable" a) ∧ e = .pub k a b) ∨
    (∃ a t, (∀ k, ¬ RuleType f n k) ∧ (∀ a, ¬ Attribute f n "replaces" a) ∧ Attribute f n "cached" a ∧ BodyOf f n t ∧
      e = .cached t) ∨
    (∃ t, (∀ k, ¬ RuleType f n k) ∧ (∀ a, ¬ Attribute f n "replaces" a) ∧ (∀ a, ¬ Attribute f n "cached" a) ∧
      BodyOf f n t ∧ Says f t e) := by
  cases h with
  | replaces h1 h2 h3 h4 => exact .inl ⟨_, _, _, h2, h3, h4, rfl⟩
  | pub h1 h2 h3 h4 h5 h6 => exact .inr (.inl ⟨_, _, _, h2, h3, h4, h5, h6, rfl⟩)
  | pubCached h1 h2 h3 h4 h5 => exact .inr (.inr (.inl ⟨_, _, _, h2, h3, h4, h5, rfl⟩))
  | cached h1 h2 h3 h4 h5 => exact .inr (.inr (.inr (.inl ⟨_, _, h2, h3, h4, h5, rfl⟩)))
  | plain h1 h2 h3 h4 h5 h6 => exact .inr (.inr (.inr (.inr ⟨_, h2, h3, h4, h5, h6⟩)))
  | _ => other_type ht

end

/-- What is written at a node is unique. -/
theorem says_unique {f : File UInt8} (hf : ConsistentFile f) {n : Nat} {e e' : Expr} (h : Says f n e)
    (h' : Says f n e') : e = e' := by
  have pointwise : ∀ {xs ys zs}, Pointwise (Target f) xs ys → Pointwise (Target f) xs zs → ys = zs :=
    fun h h' => h.unique h' fun _ _ _ _ => target_unique hf
  have bools : ∀ {b b' : Bool} {p : Prop}, (b = true ↔ p) → (b' = true ↔ p) → b = b' := by
    intro b b' p h h'
    have := h.trans h'.symm
    cases b <;> cases b' <;> simp_all
  induction h generalizing e' with
  | block h1 h2 h3 =>
    obtain ⟨alts', ts', g2, g3, rfl⟩ := says_block h' h1
    cases childrenWith_unique hf (ofType_isNode h1) h2 g2
    rw [pointwise h3 g3]
  | seq h1 h2 h3 h4 h5 =>
    obtain ⟨parts, c, kept, ts, g2, g3, g4, g5, rfl⟩ := says_seq h' h1
    cases childrenWith_unique hf (ofType_isNode h1) h2 g2
    cases childrenWith_unique hf (ofType_isNode h1) h4 g4
    rw [commitAt_unique h3 g3, pointwise h5 g5]
  | token h1 h2 h3 h4 h5 =>
    rcases says_ref h' h1 with ⟨t, s, k, g2, g3, g4, g5, rfl⟩ | ⟨t, s, k, a, lit, text, g2, g3, g4, g5, g6, g7, rfl⟩ |
      ⟨p, i, g2, g3, rfl⟩
    all_goals have := refersTo_unique hf h2 g2; simp only [Option.some.injEq, RefKind.token.injEq, reduceCtorEq] at this
    · subst this
      cases labelled_unique h3 g3
      rw [typeNumber_unique hf h4 g4]
    · subst this
      exact absurd g5 (h5 a)
  | contextual h1 h2 h3 h4 h5 h6 h7 h8 =>
    rcases says_ref h' h1 with ⟨t, s, k, g2, g3, g4, g5, rfl⟩ | ⟨t, s, k, a, lit, text, g2, g3, g4, g5, g6, g7, rfl⟩ |
      ⟨p, i, g2, g3, rfl⟩
    all_goals have := refersTo_unique hf h2 g2; simp only [Option.some.injEq, RefKind.token.injEq, reduceCtorEq] at this
    · subst this
      exact absurd h5 (g5 _)
    · subst this
      cases labelled_unique h3 g3
      cases labelled_unique h6 g6
      cases quoted_unique h8 g7
      rw [typeNumber_unique hf h4 g4]
  | param h1 h2 h3 =>
    rcases says_ref h' h1 with ⟨t, s, k, g2, g3, g4, g5, rfl⟩ | ⟨t, s, k, a, lit, text, g2, g3, g4, g5, g6, g7, rfl⟩ |
      ⟨p, i, g2, g3, rfl⟩
    all_goals have := refersTo_unique hf h2 g2; simp only [Option.some.injEq, RefKind.param.injEq, reduceCtorEq] at this
    subst this
    rw [paramNumber_unique hf h3 g3]
  | call h1 h2 h3 h4 h5 =>
    obtain ⟨name, args, kind, ds, g2, g3, g4, g5⟩ := says_call h' h1
    cases labelled_unique h2 g2
    cases childrenWith_unique hf (ofType_isNode h1) h3 g3
    have := (callMeans_unique hf h4 g4 rfl).1
    rw [Option.some.injEq] at this
    subst this
    exact callSays_unique hf h5 g5
  | opt h1 h2 h3 =>
    obtain ⟨b, t, g2, g3, rfl⟩ := says_opt h' h1
    cases firstChild_unique h2 g2
    rw [target_unique hf h3 g3]
  | rep h1 h2 h3 =>
    obtain ⟨b, t, g2, g3, rfl⟩ := says_rep h' h1
    cases firstChild_unique h2 g2
    rw [target_unique hf h3 g3]
  | table h1 h2 h3 h4 h5 h6 =>
    rcases says_attribute h' (attribute_type h2).1 with ⟨r, b, alts, t, g2, g3, g4, g5, g6, rfl⟩ | ⟨r, t, g2, g3, rfl⟩
    · cases attribute_rule hf h2 g2
      cases firstChild_unique h3 g3
      cases childrenWith_unique hf (ofType_isNode h4) h5 g5
      rw [tableSays_unique hf h6 g6]
    · have := labelled_unique (attribute_type h2).2 (attribute_type g2).2
      exact absurd this (by decide)
  | memory h1 h2 h3 =>
    rcases says_attribute h' (attribute_type h2).1 with ⟨r, b, alts, t, g2, g3, g4, g5, g6, rfl⟩ | ⟨r, t, g2, g3, rfl⟩
    · have := labelled_unique (attribute_type h2).2 (attribute_type g2).2
      exact absurd this (by decide)
    · cases attribute_rule hf h2 g2
      rw [bodyOf_unique hf h3 g3]
  | replaces h1 h2 h3 h4 =>
    rcases says_rule h' h1 with ⟨k, a, t, g1, g2, g3, rfl⟩ | ⟨k, t, b, g1, g2, g3, g4, g5, rfl⟩ |
      ⟨k, a, b, g1, g2, g3, g4, rfl⟩ | ⟨a, t, g1, g2, g3, g4, rfl⟩ | ⟨t, g1, g2, g3, g4, g5⟩
    · rw [ruleType_unique hf h2 g1, bodyOf_unique hf h4 g3]
    all_goals exact absurd h3 (g2 _)
  | pub h1 h2 h3 h4 h5 h6 =>
    rcases says_rule h' h1 with ⟨k, a, t, g1, g2, g3, rfl⟩ | ⟨k, t, b, g1, g2, g3, g4, g5, rfl⟩ |
      ⟨k, a, b, g1, g2, g3, g4, rfl⟩ | ⟨a, t, g1, g2, g3, g4, rfl⟩ | ⟨t, g1, g2, g3, g4, g5⟩
    · exact absurd g2 (h3 _)
    · rw [ruleType_unique hf h2 g1, bodyOf_unique hf h5 g4, bools h6 g5]
    · exact absurd g3 (h4 _)
    · exact absurd h2 (g1 _)
    · exact absurd h2 (g1 _)
  | pubCached h1 h2 h3 h4 h5 =>
    rcases says_rule h' h1 with ⟨k, a, t, g1, g2, g3, rfl⟩ | ⟨k, t, b, g1, g2, g3, g4, g5, rfl⟩ |
      ⟨k, a, b, g1, g2, g3, g4, rfl⟩ | ⟨a, t, g1, g2, g3, g4, rfl⟩ | ⟨t, g1, g2, g3, g4, g5⟩
    · exact absurd g2 (h3 _)
    · exact absurd h4 (g3 _)
    · rw [ruleType_unique hf h2 g1, attribute_unique hf h4 g3, bools h5 g4]
    · exact absurd h2 (g1 _)
    · exact absurd h2 (g1 _)
  | cached h1 h2 h3 h4 h5 =>
    rcases says_rule h' h1 with ⟨k, a, t, g1, g2, g3, rfl⟩ | ⟨k, t, b, g1, g2, g3, g4, g5, rfl⟩ |
      ⟨k, a, b, g1, g2, g3, g4, rfl⟩ | ⟨a, t, g1, g2, g3, g4, rfl⟩ | ⟨t, g1, g2, g3, g4, g5⟩
    · exact absurd g2 (h3 _)
    · exact absurd g1 (h2 _)
    · exact absurd g1 (h2 _)
    · rw [bodyOf_unique hf h5 g4]
    · exact absurd h4 (g3 _)
  | plain h1 h2 h3 h4 h5 _ ih =>
    rcases says_rule h' h1 with ⟨k, a, t, g1, g2, g3, rfl⟩ | ⟨k, t, b, g1, g2, g3, g4, g5, rfl⟩ |
      ⟨k, a, b, g1, g2, g3, g4, rfl⟩ | ⟨a, t, g1, g2, g3, g4, rfl⟩ | ⟨t, g1, g2, g3, g4, g5⟩
    · exact absurd g2 (h3 _)
    · exact absurd g1 (h2 _)
    · exact absurd g1 (h2 _)
    · exact absurd g3 (h4 _)
    · cases bodyOf_unique hf h5 g4
      exact ih g5

end Fall
