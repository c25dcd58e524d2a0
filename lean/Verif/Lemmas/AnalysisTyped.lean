import Verif.Lemmas.AnalysisCalls

namespace Fall

open Spec AProg

/-! ## Numbers -/

/-- The value of a text of digits. -/
def digitsValue (s : List UInt8) : Nat := s.foldl (fun n b => 10 * n + (b.toNat - 48)) 0

theorem digit_iff (b : UInt8) : (decide (48 ≤ b) && decide (b ≤ 57)) = true ↔
    ∃ d, d < 10 ∧ b = UInt8.ofNat (48 + d) ∧ b.toNat - 48 = d := by
  simp only [Bool.and_eq_true, decide_eq_true_eq, UInt8.le_iff_toNat_le]
  constructor
  · rintro ⟨h1, h2⟩
    have h1 : 48 ≤ b.toNat := h1
    have h2 : b.toNat ≤ 57 := h2
    refine ⟨b.toNat - 48, by omega, ?_, rfl⟩
    rw [show 48 + (b.toNat - 48) = b.toNat by omega]
    simp
  · rintro ⟨d, h1, rfl, -⟩
    have : (UInt8.ofNat (48 + d)).toNat = 48 + d := by
      rw [UInt8.toNat_ofNat']
      omega
    rw [this]
    exact ⟨by show 48 ≤ 48 + d; omega, by show 48 + d ≤ 57; omega⟩

theorem digits_iff (s : List UInt8) (n : Nat) : Digits s n ↔
    s ≠ [] ∧ s.all (fun b => decide (48 ≤ b) && decide (b ≤ 57)) = true ∧ digitsValue s = n := by
  constructor
  · intro h
    induction h with
    | one d hd =>
      have := (digit_iff (UInt8.ofNat (48 + d))).2 ⟨d, hd, rfl, by rw [UInt8.toNat_ofNat']; omega⟩
      refine ⟨by simp, by simpa using this, ?_⟩
      simp only [digitsValue, List.foldl_cons, List.foldl_nil, UInt8.toNat_ofNat']
      omega
    | @more s n d hd _ ih =>
      have := (digit_iff (UInt8.ofNat (48 + d))).2 ⟨d, hd, rfl, by rw [UInt8.toNat_ofNat']; omega⟩
      obtain ⟨-, h2, h3⟩ := ih
      refine ⟨by simp, ?_, ?_⟩
      · rw [List.all_append, h2]
        simpa using this
      · unfold digitsValue at *
        rw [List.foldl_append, h3]
        simp only [List.foldl_cons, List.foldl_nil, UInt8.toNat_ofNat']
        omega
  · rintro ⟨h1, h2, h3⟩
    induction hl : s.length generalizing s n with
    | zero => exact absurd (List.length_eq_zero_iff.1 hl) h1
    | succ k ih =>
      obtain ⟨t, b, rfl⟩ : ∃ t b, s = t ++ [b] := ⟨s.dropLast, s.getLast h1, (List.dropLast_concat_getLast h1).symm⟩
      rw [List.all_append, Bool.and_eq_true] at h2
      have hb := h2.2
      rw [List.all_cons, List.all_nil, Bool.and_true, digit_iff] at hb
      obtain ⟨d, hd, rfl, hv⟩ := hb
      unfold digitsValue at h3
      rw [List.foldl_append] at h3
      simp only [List.foldl_cons, List.foldl_nil, hv] at h3
      subst h3
      by_cases ht : t = []
      · subst ht
        simpa using Digits.one d hd
      · exact .more d hd (ih t _ ht h2.1 rfl (by simpa using hl))

theorem parseU32_iff (s : List UInt8) (n : Nat) : parseU32 s = some n ↔ Decimal s n := by
  have key : ∀ t : List UInt8, (if t.isEmpty || !t.all (fun b => decide (48 ≤ b) && decide (b ≤ 57)) then none
      else if digitsValue t < 2 ^ 32 then some (digitsValue t) else none) = some n ↔ n < 2 ^ 32 ∧ Digits t n := by
    intro t
    rw [digits_iff]
    by_cases he : t = []
    · simp [he]
    · by_cases ha : t.all (fun b => decide (48 ≤ b) && decide (b ≤ 57)) = true
      · simp only [ha, Bool.not_true, Bool.or_false, List.isEmpty_iff, he, if_false, ne_eq, not_false_eq_true, true_and]
        split
        · rw [Option.some.injEq]
          constructor
          · rintro rfl; exact ⟨‹_›, rfl⟩
          · exact fun h => h.2
        · constructor
          · intro h; cases h
          · rintro ⟨h1, rfl⟩; exact absurd h1 ‹_›
      · have ha' : t.all (fun b => decide (48 ≤ b) && decide (b ≤ 57)) = false := by
          cases h : t.all (fun b => decide (48 ≤ b) && decide (b ≤ 57)) with
          | true => exact absurd h ha
          | false => rfl
        simp [ha']
  unfold Decimal
  show (let digits := if startsWithByte 43 s then s.drop 1 else s
    if digits.isEmpty || !digits.all (fun b => decide (48 ≤ b) && decide (b ≤ 57)) then none
    else if digitsValue digits < 2 ^ 32 then some (digitsValue digits) else none) = some n ↔ _
  by_cases hp : startsWithByte 43 s = true
  · rw [if_pos hp]
    obtain ⟨t, rfl⟩ : ∃ t, s = 43 :: t := by
      cases s with
      | nil => simp [startsWithByte] at hp
      | cons a t => exact ⟨t, by simpa [startsWithByte] using hp⟩
    simp only [List.drop_succ_cons, List.drop_zero]
    rw [key]
    constructor
    · rintro ⟨h1, h2⟩
      exact ⟨h1, .inr ⟨t, rfl, h2⟩⟩
    · rintro ⟨h1, h2 | ⟨t', e, h2⟩⟩
      · have := ((digits_iff _ _).1 h2).2.1
        rw [List.all_cons] at this
        exact absurd this (by simp)
      · cases e
        exact ⟨h1, h2⟩
  · rw [if_neg hp]
    simp only
    rw [key]
    constructor
    · rintro ⟨h1, h2⟩
      exact ⟨h1, .inl h2⟩
    · rintro ⟨h1, h2 | ⟨t, rfl, h2⟩⟩
      · exact ⟨h1, h2⟩
      · simp [startsWithByte] at hp

section
variable {f : File UInt8} (hf : ConsistentFile f)
include hf

/-! ## Operator rules -/

theorem attrNumber_eval {a : Nat} (hn : IsNode f a) {o : Option (List UInt8)} (h : f.attrText a = some o) (n : Nat) :
    o.bind parseU32 = some n ↔ AttrNumber f a n := by
  have := attrText_eval hf hn h
  unfold AttrNumber
  rw [Option.bind_eq_some_iff]
  exact exists_congr fun s => and_congr (this s) (parseU32_iff s n)

theorem prattAttr_eval {rule : Nat} (hn : IsNode f rule) {attrs : List Nat} (ha : f.attributesOf rule = some (some attrs))
    {kinds pre : List String} (hk : operatorKinds = pre ++ kinds) (hpre : ∀ k ∈ pre, ∀ a, ¬ Attribute f rule k a)
    {o : Option (String × Option Nat)} (h : prattAttr f attrs kinds = some o) :
    (o = none ∧ ∀ k ∈ operatorKinds, ∀ a, ¬ Attribute f rule k a) ∨
    ∃ kind prio a, o = some (kind, prio) ∧ OperatorKind f rule kind a ∧ ∀ n, prio = some n ↔ AttrNumber f a n := by
  induction kinds generalizing pre with
  | nil =>
    simp only [prattAttr, Option.some.injEq] at h
    subst h
    refine .inl ⟨rfl, ?_⟩
    rw [hk, List.append_nil]
    exact hpre
  | cons k ks ih =>
    simp only [prattAttr, Option.bind_eq_bind, Option.bind_eq_some_iff] at h
    obtain ⟨c, hc, h⟩ := h
    have hc := attribute_eval hf hn ha hc
    cases c with
    | none =>
      refine ih (pre := pre ++ [k]) (by simpa using hk) ?_ h
      intro k' hk' a
      rw [List.mem_append, List.mem_singleton] at hk'
      rcases hk' with hk' | rfl
      · exact hpre k' hk' a
      · intro ha'
        have := (hc a).2 ha'
        cases this
    | some a =>
      have haa := (hc a).1 rfl
      simp only [Option.bind_eq_some_iff, Option.pure_def, Option.some.injEq] at h
      obtain ⟨v, hv, rfl⟩ := h
      exact .inr ⟨k, _, a, rfl, ⟨pre, ks, hk, haa, hpre⟩, attrNumber_eval hf (attribute_isNode hf haa) hv⟩

theorem ruleBody_iff {rule b : Nat} (hn : IsNode f rule) : f.ruleBody rule = some b ↔ FirstChild f rule (IsExpr f) b := by
  have : FirstChild f rule (IsExpr f) b ↔
      FirstChild f rule (fun c => ∃ ty, f.ty c = some ty ∧ isFallExpr ty = true) b := by
    simp only [IsExpr, fallExpr_eq]
    rfl
  rw [this, firstChild_find hf hn]
  simp [File.ruleBody, firstChild_eq hf hn]

omit hf in
theorem operatorKind_cases {rule a : Nat} {kind : String} (h : OperatorKind f rule kind a) :
    kind = "atom" ∨ kind = "postfix" ∨ kind = "prefix" ∨ kind = "bin" := by
  obtain ⟨pre, post, h, -⟩ := h
  have : kind ∈ operatorKinds := by rw [h]; simp
  simpa [operatorKinds] using this

theorem prattVariant_eval {rule : Nat} (hn : IsNode f rule) {k : Option PrattVariant} {ds : List Diagnostic}
    {body : (q : Query) → AProg (Value q)} (h : Eval body (prattVariant f rule) (some k) ds) :
    OperatorMeans f rule k ds := by
  unfold prattVariant at h
  rw [eval_bind_some] at h
  obtain ⟨i, _, _, h1, h, rfl⟩ := h
  obtain ⟨hi, rfl⟩ := eval_lift.1 h1
  have hi := (childOfType_some hf hn 130).1 hi
  simp only [List.nil_append]
  cases i with
  | none =>
    obtain ⟨h2, rfl⟩ := eval_pure.1 h
    cases h2
    exact .noName hi
  | some ident =>
  simp only at h hi
  rw [eval_bind_some] at h
  obtain ⟨as, _, _, h2, h, rfl⟩ := h
  obtain ⟨has, rfl⟩ := eval_lift.1 h2
  simp only [List.nil_append]
  cases as with
  | none =>
    obtain ⟨h2, rfl⟩ := eval_pure.1 h
    cases h2
    refine .noKind fun k _ a ha => ?_
    obtain ⟨as, ha, -⟩ := ha
    exact attributesOf_eval hf hn has as ha
  | some attrs =>
  simp only at h
  rw [eval_bind_some] at h
  obtain ⟨o, _, _, h3, h, rfl⟩ := h
  obtain ⟨ho, rfl⟩ := eval_lift.1 h3
  simp only [List.nil_append]
  rcases prattAttr_eval hf hn has (pre := []) rfl (by simp) ho with ⟨rfl, hno⟩ | ⟨kind, prio, a, rfl, hkind, hprio⟩
  · obtain ⟨h2, rfl⟩ := eval_pure.1 h
    cases h2
    exact .noKind hno
  have hbody : ∀ {β : Type} {p : Nat → AProg β} {v : β} {ds : List Diagnostic},
      Eval body (do let b ← lift (f.ruleBody rule); p b) (some v) ds →
      ∃ b, FirstChild f rule (IsExpr f) b ∧ Eval body (p b) (some v) ds := by
    intro β p v ds h
    rw [eval_bind_some] at h
    obtain ⟨b, _, _, h1, h, rfl⟩ := h
    obtain ⟨hb, rfl⟩ := eval_lift.1 h1
    exact ⟨b, (ruleBody_iff hf hn).1 hb, h⟩
  have hnp : prio = none ↔ ∀ n, ¬ AttrNumber f a n := by
    constructor
    · rintro rfl n hn
      have := (hprio n).2 hn
      cases this
    · intro hno
      cases prio with
      | none => rfl
      | some n => exact absurd ((hprio n).1 rfl) (hno n)
  simp only at h
  by_cases hatom : kind = "atom"
  · subst hatom
    rw [if_pos (by simp)] at h
    cases prio with
    | some n =>
      simp only [Option.isSome_some, if_true] at h
      rw [eval_bind_some] at h
      obtain ⟨_, _, _, h1', h, rfl⟩ := h
      obtain ⟨r, hr, rfl⟩ := eval_error.1 h1'
      obtain ⟨b, hb, h⟩ := hbody h
      obtain ⟨h2, rfl⟩ := eval_pure.1 h
      cases h2
      exact .atom hi hkind hb (.inl ⟨⟨n, (hprio n).1 rfl⟩, by simpa using reports_cons hr reports_nil⟩)
    | none =>
      simp only [Option.isSome_none, Bool.false_eq_true, if_false] at h
      obtain ⟨b, hb, h⟩ := hbody h
      obtain ⟨h2, rfl⟩ := eval_pure.1 h
      cases h2
      exact .atom hi hkind hb (.inr ⟨hnp.1 rfl, rfl⟩)
  · rw [if_neg (by simpa using hatom)] at h
    obtain ⟨b, hb, h4⟩ := hbody h
    clear h
    have h := h4
    clear h4
    have hbn := first_isNode hf hb
    rw [eval_bind_some] at h
    obtain ⟨ty, _, _, h1', h, rfl⟩ := h
    obtain ⟨hty, rfl⟩ := eval_lift.1 h1'
    simp only [List.nil_append]
    by_cases htb : ty = 137
    · subst htb
      rw [if_pos (by simp [Ty.blockExpr])] at h
      have hblock : OfType f 137 b := hty
      rw [eval_bind_some] at h
      obtain ⟨alts, _, _, h1', h, rfl⟩ := h
      obtain ⟨halts, rfl⟩ := eval_lift.1 h1'
      have halts := childrenWith_expr hf hbn halts
      simp only [List.nil_append]
      have many : alts.length ≠ 1 → ∀ ds, Eval body (do
          error f b "Expression rule requires a single alternative"
          return (none : Option PrattVariant)) (some k) ds → OperatorMeans f rule k ds := by
        intro hl ds h
        rw [eval_bind_some] at h
        obtain ⟨_, _, _, h1', h, rfl⟩ := h
        obtain ⟨r, hr, rfl⟩ := eval_error.1 h1'
        obtain ⟨h2, rfl⟩ := eval_pure.1 h
        cases h2
        exact .alternatives hi hkind hatom hb hblock halts hl (by simpa using reports_cons hr reports_nil)
      rcases alts with _ | ⟨alt, _ | ⟨alt2, alts⟩⟩
      · exact many (by simp) _ h
      · simp only at h
        rw [eval_bind_some] at h
        obtain ⟨ty, _, _, h1', h, rfl⟩ := h
        obtain ⟨hty', rfl⟩ := eval_lift.1 h1'
        simp only [List.nil_append]
        by_cases hts : ty = 136
        · subst hts
          rw [if_pos (by simp [Ty.seqExpr])] at h
          have hseq : OfType f 136 alt := hty'
          rw [eval_bind_some] at h
          obtain ⟨parts, _, _, h1', h, rfl⟩ := h
          obtain ⟨hparts, rfl⟩ := eval_lift.1 h1'
          have hone : OneSequence f b parts :=
            ⟨hblock, alt, halts, hseq, childrenWith_expr hf (ofType_isNode hseq) hparts⟩
          simp only [List.nil_append]
          unfold prattOperator at h
          obtain ⟨b', hb', h⟩ := hbody h
          cases firstChild_unique hb' hb
          have h999 : PriorityOr999 f a (prio.getD 999) := by
            cases prio with
            | some n => exact .inl ((hprio n).1 rfl)
            | none => exact .inr ⟨hnp.1 rfl, rfl⟩
          have err : ∀ {n : Nat} {m : String} {ds}, Eval body (do error f n m; return (none : Option PrattVariant))
              (some k) ds → k = none ∧ Reports f true m [n] ds := by
            intro n m ds h
            rw [eval_bind_some] at h
            obtain ⟨_, _, _, h1', h, rfl⟩ := h
            obtain ⟨r, hr, rfl⟩ := eval_error.1 h1'
            obtain ⟨h2, rfl⟩ := eval_pure.1 h
            cases h2
            exact ⟨rfl, by simpa using reports_cons hr reports_nil⟩
          rcases operatorKind_cases hkind with rfl | rfl | rfl | rfl
          · exact absurd rfl hatom
          · rw [if_pos (by simp)] at h
            rcases parts with _ | ⟨p1, _ | ⟨p2, _ | ⟨p3, parts⟩⟩⟩
            · obtain ⟨rfl, hd⟩ := err h
              exact .wrongPostfix hi hkind hb hone (by simp) hd
            · obtain ⟨rfl, hd⟩ := err h
              exact .wrongPostfix hi hkind hb hone (by simp) hd
            · obtain ⟨h2, rfl⟩ := eval_pure.1 h
              cases h2
              exact .postfix hi hkind hb hone h999
            · obtain ⟨rfl, hd⟩ := err h
              exact .wrongPostfix hi hkind hb hone (by simp) hd
          · rw [if_neg (by simp), if_pos (by simp)] at h
            rcases parts with _ | ⟨p1, _ | ⟨p2, _ | ⟨p3, parts⟩⟩⟩
            · obtain ⟨rfl, hd⟩ := err h
              exact .wrongPrefix hi hkind hb hone (by simp) hd
            · obtain ⟨rfl, hd⟩ := err h
              exact .wrongPrefix hi hkind hb hone (by simp) hd
            · obtain ⟨h2, rfl⟩ := eval_pure.1 h
              cases h2
              exact .prefix hi hkind hb hone h999
            · obtain ⟨rfl, hd⟩ := err h
              exact .wrongPrefix hi hkind hb hone (by simp) hd
          · rw [if_neg (by simp), if_neg (by simp)] at h
            rcases parts with _ | ⟨p1, _ | ⟨p2, _ | ⟨p3, _ | ⟨p4, parts⟩⟩⟩⟩
            · obtain ⟨rfl, hd⟩ := err h
              exact .wrongBin hi hkind hb hone (by simp) hd
            · obtain ⟨rfl, hd⟩ := err h
              exact .wrongBin hi hkind hb hone (by simp) hd
            · obtain ⟨rfl, hd⟩ := err h
              exact .wrongBin hi hkind hb hone (by simp) hd
            · cases prio with
              | none =>
                obtain ⟨rfl, hd⟩ := err h
                exact .noPriority hi hkind hb hone (by simp) (hnp.1 rfl) hd
              | some n =>
                obtain ⟨h2, rfl⟩ := eval_pure.1 h
                cases h2
                exact .bin hi hkind hb hone ((hprio n).1 rfl)
            · obtain ⟨rfl, hd⟩ := err h
              exact .wrongBin hi hkind hb hone (by simp) hd
        · rw [if_neg (by rw [beq_iff_eq]; exact hts)] at h
          obtain ⟨h2, rfl⟩ := eval_pure.1 h
          cases h2
          refine .otherShape hi hkind hatom hb (.inr ⟨alt, halts, fun h => hts ?_⟩)
          rw [OfType, hty', Option.some.injEq] at h
          exact h
      · exact many (by simp) _ h
    · rw [if_neg (by rw [beq_iff_eq]; exact htb)] at h
      obtain ⟨h2, rfl⟩ := eval_pure.1 h
      cases h2
      refine .otherShape hi hkind hatom hb (.inl fun h => htb ?_)
      rw [OfType, hty, Option.some.injEq] at h
      exact h

/-! ## Typed trees -/

theorem namedNodes_eval {ns : List Nat} (hn : ∀ n ∈ ns, IsNode f n) {l : List (List UInt8 × Nat)}
    (h : namedNodes f ns = some l) (s : List UInt8) (t : Nat) :
    l.lookup s = some t ↔ Last ns (fun n => Ident f n s) t := by
  induction ns generalizing l t with
  | nil =>
    simp only [namedNodes, Option.some.injEq] at h
    subst h
    simp only [List.lookup_nil, reduceCtorEq, false_iff, last_reverse]
    exact fun h => absurd (first_mem h).1 (by simp)
  | cons n ns ih =>
    simp only [namedNodes, Option.bind_eq_bind, Option.bind_eq_some_iff, Option.pure_def, Option.some.injEq] at h
    obtain ⟨name, h1, rest, h2, rfl⟩ := h
    rw [ident_iff hf (hn n (by simp))] at h1
    have ih := fun t => ih (fun m hm => hn m (by simp [hm])) h2 t
    rw [last_cons]
    have : ∀ l : List (List UInt8 × Nat), (l ++ [(name, n)]).lookup s =
        (l.lookup s).or (if s = name then some n else none) := by
      intro l
      induction l with
      | nil =>
        simp only [List.nil_append, List.lookup_cons, List.lookup_nil, Option.none_or]
        by_cases e : s = name
        · simp [e]
        · rw [show (s == name) = false by simpa using e]
          simp [e]
      | cons e l ih =>
        obtain ⟨k, v⟩ := e
        rw [List.cons_append, List.lookup_cons, List.lookup_cons]
        by_cases h : s = k
        · simp [h]
        · rw [show (s == k) = false by simpa using h]
          simpa using ih
    rw [this]
    cases hr : rest.lookup s with
    | some t' =>
      have h3 := (ih t').1 hr
      rw [Option.some_or]
      constructor
      · intro e
        exact .inl (Option.some.inj e ▸ h3)
      · rintro (h4 | ⟨h4, -⟩)
        · exact hr ▸ (ih t).2 h4
        · rw [last_reverse] at h3
          have := first_mem h3
          exact absurd this.2 (h4 t' (by simpa using this.1))
    | none =>
      have h3 : ∀ t, ¬ Last ns (fun n => Ident f n s) t := fun t h => by
        have := (ih t).2 h
        rw [hr] at this
        cases this
      have h4 : ∀ y ∈ ns, ¬ Ident f y s := fun y hy h => by
        obtain ⟨t, ht⟩ := last_exists (P := fun n => Ident f n s) ⟨y, hy, h⟩
        exact h3 t ht
      rw [Option.none_or]
      constructor
      · intro h
        split at h
        · subst_vars
          exact .inr ⟨h4, h1, (Option.some.inj h).symm⟩
        · cases h
      · rintro (h | ⟨-, h, rfl⟩)
        · exact absurd h (h3 t)
        · rw [if_pos (labelled_unique h h1)]

theorem astDef_eval {o : Option Nat} (h : f.firstChild (· == Ty.astDef) f.root = some o) :
    match o with
    | none => ∀ ast, ¬ FirstChild f 0 (OfType f 149) ast
    | some ast => FirstChild f 0 (OfType f 149) ast := by
  have := (firstChild_some hf (zero_isNode hf) 149).1 h
  cases o <;> exact this

theorem astKids_isNode {n : Nat} (hn : IsNode f n) (ty : NodeType) :
    ∀ c ∈ (kids f n).filter (fun c => (dat f c).ty == ty), IsNode f c :=
  fun c hc => kids_isNode hf hn c (List.mem_filter.1 hc).1

theorem allTraits_eval {l : List (List UInt8 × Nat)} (h : allTraits f = some l) (s : List UInt8) (t : Nat) :
    l.lookup s = some t ↔ TraitNamed f s t := by
  simp only [allTraits, Option.bind_eq_bind, Option.bind_eq_some_iff] at h
  obtain ⟨o, ho, h⟩ := h
  have ho := astDef_eval hf ho
  cases o with
  | none =>
    simp only [Option.pure_def, Option.some.injEq] at h ho
    subst h
    constructor
    · intro h; cases h
    · rintro ⟨ast, ha, -⟩
      exact absurd ha (ho ast)
  | some ast =>
    simp only [Option.bind_eq_some_iff] at h ho
    have hn := first_isNode hf ho
    obtain ⟨ts, hts, h⟩ := h
    rw [astChildren_eq hf hn, Option.some.injEq] at hts
    subst hts
    have := namedNodes_eval hf (astKids_isNode hf hn Ty.astTraitDef) h s t
    rw [this, last_typed hf hn]
    constructor
    · intro h
      exact ⟨ast, ho, h⟩
    · rintro ⟨ast', h1, h2⟩
      cases firstChild_unique h1 ho
      exact h2

theorem mapM_ty {cs : List Nat} (hn : ∀ c ∈ cs, IsNode f c) : cs.mapM f.ty = some (cs.map fun c => (dat f c).ty) := by
  induction cs with
  | nil => rfl
  | cons c cs ih =>
    rw [List.mapM_cons, ty_dat (hn c (by simp)), ih fun c hc => hn c (by simp [hc])]
    rfl

theorem traitIdents_eval {node : Nat} (hn : IsNode f node) {ids : List Nat} (h : traitIdents f node = some ids) :
    NamesAfterColon f node ids := by
  simp only [traitIdents, Option.bind_eq_bind, Option.bind_eq_some_iff, Option.pure_def, Option.some.injEq] at h
  obtain ⟨cs, h1, tys, h2, rfl⟩ := h
  rw [children_kids hn, Option.some.injEq] at h1
  subst h1
  have hk := kids_isNode hf hn
  rw [mapM_ty hf hk, Option.some.injEq] at h2
  subst h2
  have key : ∀ cs : List Nat, (∀ c ∈ cs, IsNode f c) → ∃ pre post, cs = pre ++ post ∧ (∀ c ∈ pre, ¬ OfType f 117 c) ∧
      (∀ c, post.head? = some c → OfType f 117 c) ∧
      ((cs.zip (cs.map fun c => (dat f c).ty)).dropWhile fun c => c.2 != Ty.colon) =
        post.map fun c => (c, (dat f c).ty) := by
    intro cs hc
    induction cs with
    | nil => exact ⟨[], [], rfl, by simp, by simp, rfl⟩
    | cons c cs ih =>
      have hcn := hc c (by simp)
      by_cases ht : (dat f c).ty = 117
      · refine ⟨[], c :: cs, rfl, by simp, ?_, ?_⟩
        · simp only [List.head?_cons, Option.some.injEq]
          rintro _ rfl
          rw [OfType, ty_dat hcn, ht]
        · simp only [List.map_cons, List.zip_cons_cons]
          rw [List.dropWhile_cons_of_neg (by simp [ht, Ty.colon])]
          have : ∀ l : List Nat, l.zip (l.map fun c => (dat f c).ty) = l.map fun c => (c, (dat f c).ty) := by
            intro l
            induction l with
            | nil => rfl
            | cons a l ih => simp [ih]
          rw [this]
      · obtain ⟨pre, post, h1, h2, h3, h4⟩ := ih fun c hc' => hc c (by simp [hc'])
        refine ⟨c :: pre, post, by rw [h1]; rfl, ?_, h3, ?_⟩
        · intro x hx
          rcases List.mem_cons.1 hx with rfl | hx
          · rw [OfType, ty_dat hcn]
            simpa using ht
          · exact h2 x hx
        · rw [← h4]
          simp only [List.map_cons, List.zip_cons_cons]
          rw [List.dropWhile_cons_of_pos (by simpa [Ty.colon] using ht)]
  obtain ⟨pre, post, h1, h2, h3, h4⟩ := key _ hk
  refine ⟨pre, post, by rw [children_kids hn, h1], h2, h3, ?_, ?_⟩
  · rw [h4, List.filter_map, List.map_map]
    simp only [Function.comp_def, List.map_id']
    exact List.filter_sublist
  · intro c hc
    have hcn : IsNode f c := hk c (by rw [h1]; simp [hc])
    rw [h4, List.filter_map, List.map_map]
    simp only [Function.comp_def, List.map_id']
    rw [List.mem_filter, OfType, ty_dat hcn]
    simp [hc, Ty.ident]

theorem namesAfterColon_isNode {node : Nat} {ids : List Nat} (h : NamesAfterColon f node ids) (hn : IsNode f node) :
    ∀ i ∈ ids, IsNode f i := by
  obtain ⟨pre, post, h1, -, -, h2, -⟩ := h
  intro i hi
  rw [children_kids hn, Option.some.injEq] at h1
  exact kids_isNode hf hn i (by rw [h1]; simp [h2.subset hi])

theorem traitRefs_eval {traits : List (List UInt8 × Nat)} (ht : ∀ s t, traits.lookup s = some t ↔ TraitNamed f s t)
    {body : (q : Query) → AProg (Value q)} {ids ts : List Nat} {ds : List Diagnostic}
    (h : Eval body (traitRefs f traits ids) (some ts) ds) :
    ∃ bad, TraitsOf f ids ts bad ∧ Reports f true "Unresolved trait" bad ds := by
  induction ids generalizing ts ds with
  | nil =>
    obtain ⟨h2, rfl⟩ := eval_pure.1 h
    cases h2
    exact ⟨[], .nil, reports_nil⟩
  | cons i is ih =>
    unfold traitRefs at h
    rw [eval_bind_some] at h
    obtain ⟨s, _, _, h1, h, rfl⟩ := h
    obtain ⟨hs, rfl⟩ := eval_lift.1 h1
    cases hl : traits.lookup s with
    | some t =>
      rw [hl] at h
      simp only at h
      rw [eval_bind_some] at h
      obtain ⟨rest, _, _, h2, h, rfl⟩ := h
      obtain ⟨h3, rfl⟩ := eval_pure.1 h
      cases h3
      obtain ⟨bad, h4, h5⟩ := ih h2
      exact ⟨bad, .good hs ((ht s t).1 hl) h4, by simpa using h5⟩
    | none =>
      rw [hl] at h
      simp only at h
      rw [eval_bind_some] at h
      obtain ⟨_, _, _, h2, h, rfl⟩ := h
      obtain ⟨r, hr, rfl⟩ := eval_error.1 h2
      obtain ⟨bad, h4, h5⟩ := ih h
      refine ⟨i :: bad, .bad hs (fun t h => ?_) h4, by simpa using reports_cons hr h5⟩
      rw [← ht, hl] at h
      cases h

theorem astNodeTraits_eval {node : Nat} (hn : IsNode f node) {body : (q : Query) → AProg (Value q)} {ts : List Nat}
    {ds : List Diagnostic} (h : Eval body (astNodeTraits f node) (some ts) ds) :
    ∃ ids bad, NamesAfterColon f node ids ∧ TraitsOf f ids ts bad ∧ Reports f true "Unresolved trait" bad ds := by
  unfold astNodeTraits at h
  rw [eval_bind_some] at h
  obtain ⟨l, _, _, h1, h, rfl⟩ := h
  obtain ⟨hl, rfl⟩ := eval_lift.1 h1
  rw [eval_bind_some] at h
  obtain ⟨ids, _, _, h2, h, rfl⟩ := h
  obtain ⟨hids, rfl⟩ := eval_lift.1 h2
  obtain ⟨bad, h3, h4⟩ := traitRefs_eval hf (allTraits_eval hf hl) h
  exact ⟨ids, bad, traitIdents_eval hf hn hids, h3, by simpa using h4⟩

/-! ## Methods -/

theorem findNamed_items {n sel : Nat} (hn : IsNode f n) (hs : IsNode f sel) (ty : NodeType) {o : Option Nat}
    (h : File.findNamed (fun n => f.childText n Ty.ident) (f.childText sel Ty.ident)
      ((kids f n).filter fun c => (dat f c).ty == ty) = some o) :
    (∀ x, o = some x → ∃ s, Ident f sel s ∧ FirstChild f n (fun c => OfType f ty c ∧ Ident f c s) x) ∧
    (o = none → ∀ s, Ident f sel s → ∀ x, ¬ FirstChild f n (fun c => OfType f ty c ∧ Ident f c s) x) := by
  cases hc : f.childText sel Ty.ident with
  | some s =>
    rw [hc] at h
    have hi := (ident_iff hf hs).1 hc
    have h := findNamed_some h
    have key : ∀ x, o = some x ↔ FirstChild f n (fun c => OfType f ty c ∧ Ident f c s) x := by
      intro x
      rw [h x, ← first_typed hf hn]
      exact first_congr fun y hy => ident_iff hf (astKids_isNode hf hn ty y hy)
    refine ⟨fun x hx => ⟨s, hi, (key x).1 hx⟩, ?_⟩
    rintro rfl s' hs' x hx
    cases labelled_unique hs' hi
    have := (key x).2 hx
    cases this
  | none =>
    rw [hc] at h
    have hno : ∀ s, ¬ Ident f sel s := fun s hi => by
      rw [(ident_iff hf hs).2 hi] at hc
      cases hc
    refine ⟨?_, fun _ s hi => absurd hi (hno s)⟩
    rintro x rfl
    exfalso
    cases hl : (kids f n).filter fun c => (dat f c).ty == ty with
    | nil =>
      rw [hl] at h
      simp [File.findNamed] at h
    | cons c cs =>
      rw [hl] at h
      simp [File.findNamed] at h

theorem childKind_eval {sel : Nat} (hs : IsNode f sel) {ar : ChildArity} {o : Option MethodKind}
    (h : childKind f (f.childText sel Ty.ident) ar = some o) :
    (o = none ∧ ((∀ ast, ¬ FirstChild f 0 (OfType f 149) ast) ∨
      ∀ s, Ident f sel s → (∀ n, ¬ AstItem f 150 s n) ∧ (∀ n, ¬ AstItem f 151 s n) ∧ ∀ t, ¬ TokenTyped f s t)) ∨
    (∃ ast s, FirstChild f 0 (OfType f 149) ast ∧ Ident f sel s ∧
      ((∃ n, o = some (.astNode n ar) ∧ AstItem f 150 s n) ∨
       (∃ n, o = some (.astClass n ar) ∧ (∀ n, ¬ AstItem f 150 s n) ∧ AstItem f 151 s n) ∨
       (∃ t, o = some (.token t ar) ∧ (∀ n, ¬ AstItem f 150 s n) ∧ (∀ n, ¬ AstItem f 151 s n) ∧
         TokenTyped f s t))) := by
  simp only [childKind, Option.bind_eq_bind, Option.bind_eq_some_iff] at h
  obtain ⟨a, ha, h⟩ := h
  have ha := astDef_eval hf ha
  cases a with
  | none =>
    simp only [Option.pure_def, Option.some.injEq] at h ha
    exact .inl ⟨h.symm, .inl ha⟩
  | some ast =>
  simp only [Option.bind_eq_some_iff] at h ha
  have hn := first_isNode hf ha
  have item : ∀ {ty s x}, FirstChild f ast (fun c => OfType f ty c ∧ Ident f c s) x ↔ AstItem f ty s x := by
    intro ty s x
    constructor
    · exact fun h => ⟨ast, ha, h⟩
    · rintro ⟨ast', h1, h2⟩
      cases firstChild_unique h1 ha
      exact h2
  obtain ⟨nodes, h1, a, h2, h⟩ := h
  rw [astChildren_eq hf hn, Option.some.injEq] at h1
  subst h1
  have f1 := findNamed_items hf hn hs 150 h2
  simp only [item] at f1
  cases a with
  | some n =>
    simp only [Option.pure_def, Option.some.injEq] at h
    obtain ⟨s, hi, h3⟩ := f1.1 n rfl
    exact .inr ⟨ast, s, ha, hi, .inl ⟨n, h.symm, h3⟩⟩
  | none =>
  have f1 := f1.2 rfl
  simp only [Option.bind_eq_some_iff] at h
  obtain ⟨classes, h1, a, h2, h⟩ := h
  rw [astChildren_eq hf hn, Option.some.injEq] at h1
  subst h1
  have f2 := findNamed_items hf hn hs 151 h2
  simp only [item] at f2
  cases a with
  | some n =>
    simp only [Option.pure_def, Option.some.injEq] at h
    obtain ⟨s, hi, h3⟩ := f2.1 n rfl
    exact .inr ⟨ast, s, ha, hi, .inr (.inl ⟨n, h.symm, f1 s hi, h3⟩)⟩
  | none =>
  have f2 := f2.2 rfl
  simp only [Option.bind_eq_some_iff] at h
  obtain ⟨rules, h1, a, h2, h⟩ := h
  simp only [File.lexRules, Option.bind_eq_bind, Option.bind_eq_some_iff] at h1
  obtain ⟨td, htd, h1⟩ := h1
  have htd := (firstChild_some hf (zero_isNode hf) 141).1 htd
  cases td with
  | none =>
    simp only [Option.pure_def, Option.some.injEq] at h1 htd
    subst h1
    simp only [File.findNamed, Option.some.injEq] at h2
    subst h2
    simp only [Option.pure_def, Option.some.injEq] at h
    refine .inl ⟨h.symm, .inr fun s hi => ⟨f1 s hi, f2 s hi, ?_⟩⟩
    rintro t ⟨d, h1, -⟩
    exact htd d h1
  | some d =>
    simp only at htd h1
    have hd := first_isNode hf htd
    rw [astChildren_eq hf hd, Option.some.injEq] at h1
    subst h1
    have f3 := findNamed_items hf hd hs 142 h2
    have tok : ∀ {s x}, FirstChild f d (fun c => OfType f 142 c ∧ Ident f c s) x ↔ TokenTyped f s x := by
      intro s x
      constructor
      · exact fun h => ⟨d, htd, h⟩
      · rintro ⟨d', h1, h2⟩
        cases firstChild_unique h1 htd
        exact h2
    simp only [tok] at f3
    cases a with
    | some t =>
      simp only [Option.pure_def, Option.some.injEq] at h
      obtain ⟨s, hi, h3⟩ := f3.1 t rfl
      exact .inr ⟨ast, s, ha, hi, .inr (.inr ⟨t, h.symm, f1 s hi, f2 s hi, h3⟩)⟩
    | none =>
      simp only [Option.pure_def, Option.some.injEq] at h
      exact .inl ⟨h.symm, .inr fun s hi => ⟨f1 s hi, f2 s hi, f3.2 rfl s hi⟩⟩

theorem resolveMethod_eval {m : Nat} (hn : IsNode f m) {body : (q : Query) → AProg (Value q)}
    {k : Option MethodKind} {ds : List Diagnostic} (h : Eval body (resolveMethod f m) (some k) ds) :
    MethodMeans f m k ∧ ds = [] := by
  unfold resolveMethod at h
  rw [eval_bind_some] at h
  obtain ⟨o, _, _, h1, h, rfl⟩ := h
  obtain ⟨ho, rfl⟩ := eval_lift.1 h1
  have ho := (firstChild_some hf hn 154).1 ho
  rw [eval_bind_some] at h
  obtain ⟨sel, _, _, h2, h, rfl⟩ := h
  obtain ⟨rfl, rfl⟩ := eval_lift.1 h2
  have hsel : FirstChild f m (OfType f 154) sel := ho
  have hs := first_isNode hf hsel
  rw [eval_bind_some] at h
  obtain ⟨q, _, _, h3, h, rfl⟩ := h
  obtain ⟨hq, rfl⟩ := eval_lift.1 h3
  have hq := (childOfType_some hf hs 114).1 hq
  rw [eval_bind_some] at h
  obtain ⟨st, _, _, h4, h, rfl⟩ := h
  obtain ⟨hst, rfl⟩ := eval_lift.1 h4
  have hst := (childOfType_some hf hs 113).1 hst
  have har : SelectorArity f sel (if q.isSome then ChildArity.optional else if st.isSome then .many else .single) := by
    cases q with
    | some c => exact ⟨c, hq⟩
    | none =>
      cases st with
      | some c => exact ⟨hq, c, hst⟩
      | none => exact ⟨hq, hst⟩
  revert h
  generalize (if q.isSome then ChildArity.optional else if st.isSome then .many else .single) = ar at har
  intro h
  simp only at h
  rw [eval_bind_some] at h
  obtain ⟨o, _, ds, h5, h, rfl⟩ := h
  obtain ⟨ho', rfl⟩ := eval_lift.1 h5
  have hk := childKind_eval hf hs ho'
  simp only [List.nil_append]
  rcases hk with ⟨rfl, hk⟩ | ⟨ast, s, hast, hi, hk⟩
  · obtain ⟨h6, rfl⟩ := eval_pure.1 h
    cases h6
    rcases hk with hk | hk
    · exact ⟨.unknown hsel hk, rfl⟩
    · exact ⟨.unresolved hsel hk, rfl⟩
  · have dot : ∀ {kind}, o = some kind → ∃ c : Option Nat,
        (match c with
          | some c => FirstChild f sel (OfType f 115) c
          | none => ∀ c, ¬ FirstChild f sel (OfType f 115) c) ∧
        k = (if c.isSome then (match kind with | .token rule arity => some (.text rule arity) | _ => none) else some kind) ∧
        ds = [] := by
      rintro kind rfl
      simp only at h
      rw [eval_bind_some] at h
      obtain ⟨c, _, _, h6, h, rfl⟩ := h
      obtain ⟨hc, rfl⟩ := eval_lift.1 h6
      refine ⟨c, (childOfType_some hf hs 115).1 hc, ?_⟩
      cases c with
      | none =>
        simp only [Option.isSome_none, Bool.false_eq_true, if_false] at h
        obtain ⟨h7, rfl⟩ := eval_pure.1 h
        cases h7
        exact ⟨rfl, rfl⟩
      | some c =>
        simp only [Option.isSome_some, if_true] at h
        cases kind <;>
        · obtain ⟨h7, rfl⟩ := eval_pure.1 h
          cases h7
          exact ⟨rfl, rfl⟩
    rcases hk with ⟨n, ho, h1⟩ | ⟨n, ho, h1, h2⟩ | ⟨t, ho, h1, h2, h3⟩
    · obtain ⟨c, hc, rfl, hd⟩ := dot ho
      refine ⟨?_, hd⟩
      cases c with
      | none => exact .astNode hsel har hi h1 hc
      | some c => exact .noText hsel hi (.inl ⟨n, h1⟩) hc
    · obtain ⟨c, hc, rfl, hd⟩ := dot ho
      refine ⟨?_, hd⟩
      cases c with
      | none => exact .astClass hsel har hi h1 h2 hc
      | some c => exact .noText hsel hi (.inr ⟨n, h2⟩) hc
    · obtain ⟨c, hc, rfl, hd⟩ := dot ho
      refine ⟨?_, hd⟩
      cases c with
      | none => exact .token hsel har hi hast h1 h2 h3 hc
      | some c => exact .text hsel har hi hast h1 h2 h3 hc

end

end Fall
