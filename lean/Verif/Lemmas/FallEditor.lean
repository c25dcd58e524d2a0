import Verif.Lemmas.AnalysisSafe
import Verif.Lemmas.Editor
import Verif.Lemmas.TreeWalk
import Verif.Spec.FallEditor
import Verif.Spec.Codegen

/-! Lemmas about the editor features for Fall grammars. -/

namespace Fall

open Spec AProg

/-! ## Programs -/

theorem eval_bind_any {body : (q : Q) → Prog Q V D (V q)} {p : Prog Q V D α} {k : α → Prog Q V D β} {o : Option β}
    {ds : List D} : Eval body (p >>= k) o ds ↔
      (∃ v ds1 ds2, Eval body p (some v) ds1 ∧ Eval body (k v) o ds2 ∧ ds = ds1 ++ ds2) ∨
      (o = none ∧ Eval body p none ds) := eval_bind

section
variable {body : (q : Query) → AProg (Value q)} {τ : Type} {g : NodeId → AProg (Option τ)} {xs : List Nat}
  {ds : List Diagnostic}

theorem firstOver_none (h : Eval body (firstOver g xs) (some none) ds) :
    ∀ x ∈ xs, ∃ ds, Eval body (g x) (some none) ds := by
  induction xs generalizing ds with
  | nil => simp
  | cons x xs ih =>
    unfold firstOver at h
    rw [eval_bind_some] at h
    obtain ⟨v, ds1, ds2, h1, h2, rfl⟩ := h
    cases v with
    | some v => cases (eval_pure.1 h2).1
    | none =>
      intro z hz
      rcases List.mem_cons.1 hz with rfl | hz
      · exact ⟨_, h1⟩
      · exact ih h2 z hz

theorem firstOver_some {v : τ} (h : Eval body (firstOver g xs) (some (some v)) ds) :
    ∃ pre x post, xs = pre ++ x :: post ∧ (∃ ds, Eval body (g x) (some (some v)) ds) ∧
      ∀ y ∈ pre, ∃ ds, Eval body (g y) (some none) ds := by
  induction xs generalizing ds with
  | nil => cases (eval_pure.1 h).1
  | cons x xs ih =>
    unfold firstOver at h
    rw [eval_bind_some] at h
    obtain ⟨w, ds1, ds2, h1, h2, rfl⟩ := h
    cases w with
    | some w =>
      have := (eval_pure.1 h2).1
      cases this
      exact ⟨[], x, xs, rfl, ⟨_, h1⟩, by simp⟩
    | none =>
      obtain ⟨pre, y, post, e, h, h'⟩ := ih h2
      refine ⟨x :: pre, y, post, by simp [e], h, ?_⟩
      intro z hz
      rcases List.mem_cons.1 hz with rfl | hz
      · exact ⟨_, h1⟩
      · exact h' z hz

theorem firstOver_panic (h : Eval body (firstOver g xs) none ds) :
    ∃ pre x post, xs = pre ++ x :: post ∧ (∃ ds, Eval body (g x) none ds) ∧
      ∀ y ∈ pre, ∃ ds, Eval body (g y) (some none) ds := by
  induction xs generalizing ds with
  | nil => cases (eval_pure.1 h).1
  | cons x xs ih =>
    unfold firstOver at h
    rw [eval_bind_any] at h
    rcases h with ⟨v, ds1, ds2, h1, h2, rfl⟩ | ⟨-, h1⟩
    · cases v with
      | some v => cases (eval_pure.1 h2).1
      | none =>
        obtain ⟨pre, y, post, e, h, h'⟩ := ih h2
        refine ⟨x :: pre, y, post, by simp [e], h, ?_⟩
        intro z hz
        rcases List.mem_cons.1 hz with rfl | hz
        · exact ⟨_, h1⟩
        · exact h' z hz
    · exact ⟨[], x, xs, rfl, ⟨_, h1⟩, by simp⟩

end

section
variable {f : File UInt8} (hf : ConsistentFile f)
include hf

/-! ## The caret -/

theorem caretLeaf {isWs : NodeType → Bool} {offset : Nat} (h : offset ≤ f.text.length) :
    ∃ o, nonWsNodeAtOffset f isWs offset = some o ∧ (∀ l, o = some l ↔ CaretLeaf f isWs offset l) ∧
      ∀ l, o = some l → IsNode f l := by
  obtain ⟨res, e, hmem, hpw, hne, hnode⟩ := leaves_at hf h
  have hpick : ∀ l ∈ res.toList, f.ty l = some (dat f l).ty := fun l hl => ty_dat (hnode l hl)
  have hlr : ∀ (P : Nat → Prop) l, Leftmost f P l → ∀ l', Leftmost f P l' → IsNode f l → IsNode f l' →
      (rng f l).start = (rng f l').start := by
    intro P l h l' h' i i'
    have h1 := h.2 l' h'.1 _ _ (range_rng i) (range_rng i')
    have h2 := h'.2 l h.1 _ _ (range_rng i') (range_rng i)
    omega
  match res, e, hmem, hpw, hnode, hpick with
  | .none, e, hmem, _, _, _ =>
    refine ⟨none, by simp [nonWsNodeAtOffset, File.root, e, LeafAtOffset.leftBiased], ?_, by simp⟩
    intro l
    simp only [reduceCtorEq, false_iff]
    rintro ⟨left, ty, ⟨h1, -⟩, -⟩
    have := (hmem left).2 h1
    simp [LeafAtOffset.toList] at this
  | .single a, e, hmem, _, hnode, hpick =>
    have ha : a ∈ (LeafAtOffset.single a).toList := by simp [LeafAtOffset.toList]
    have honly : ∀ l, LeafAt f offset l ↔ l = a := by
      intro l; rw [← hmem]; simp [LeafAtOffset.toList]
    have hL : ∀ l, Leftmost f (LeafAt f offset) l ↔ l = a := by
      intro l
      refine ⟨fun h => (honly l).1 h.1, ?_⟩
      rintro rfl
      refine ⟨(honly l).2 rfl, fun l' h' r r' hr hr' => ?_⟩
      rw [(honly l').1 h', hr] at hr'
      cases hr'
      exact Nat.le_refl _
    have hR : ∀ l, Rightmost f (LeafAt f offset) l ↔ l = a := by
      intro l
      refine ⟨fun h => (honly l).1 h.1, ?_⟩
      rintro rfl
      refine ⟨(honly l).2 rfl, fun l' h' r r' hr hr' => ?_⟩
      rw [(honly l').1 h', hr] at hr'
      cases hr'
      exact Nat.le_refl _
    refine ⟨some a, ?_, ?_, ?_⟩
    · simp [nonWsNodeAtOffset, File.root, e, LeafAtOffset.leftBiased, hpick a ha, LeafAtOffset.rightBiased]
    · intro l
      simp only [Option.some.injEq]
      constructor
      · rintro rfl
        refine ⟨a, _, (hL a).2 rfl, hpick a ha, ?_⟩
        cases isWs (dat f a).ty
        · exact .inl ⟨rfl, rfl⟩
        · exact .inr ⟨rfl, (hR a).2 rfl⟩
      · rintro ⟨left, ty, h1, -, ⟨-, rfl⟩ | ⟨-, h2⟩⟩
        · exact ((hL _).1 h1).symm
        · exact ((hR _).1 h2).symm
    · rintro l h
      cases h
      exact hnode a ha
  | .between a b, e, hmem, hpw, hnode, hpick =>
    have ha : a ∈ (LeafAtOffset.between a b).toList := by simp [LeafAtOffset.toList]
    have hb : b ∈ (LeafAtOffset.between a b).toList := by simp [LeafAtOffset.toList]
    have hlt : (rng f a).start < (rng f b).start := by
      simpa [LeafAtOffset.toList] using hpw
    have honly : ∀ l, LeafAt f offset l ↔ l = a ∨ l = b := by
      intro l; rw [← hmem]; simp [LeafAtOffset.toList]
    have ra := range_rng (hnode a ha)
    have rb := range_rng (hnode b hb)
    have hL : ∀ l, Leftmost f (LeafAt f offset) l ↔ l = a := by
      intro l
      constructor
      · rintro ⟨h1, h2⟩
        rcases (honly l).1 h1 with rfl | rfl
        · rfl
        · have := h2 a ((honly a).2 (.inl rfl)) _ _ rb ra
          omega
      · rintro rfl
        refine ⟨(honly l).2 (.inl rfl), fun l' h' r r' hr hr' => ?_⟩
        rw [ra] at hr
        cases hr
        rcases (honly l').1 h' with rfl | rfl
        · rw [ra] at hr'; cases hr'; exact Nat.le_refl _
        · rw [rb] at hr'; cases hr'; exact Nat.le_of_lt hlt
    have hR : ∀ l, Rightmost f (LeafAt f offset) l ↔ l = b := by
      intro l
      constructor
      · rintro ⟨h1, h2⟩
        rcases (honly l).1 h1 with rfl | rfl
        · have := h2 b ((honly b).2 (.inr rfl)) _ _ ra rb
          omega
        · rfl
      · rintro rfl
        refine ⟨(honly l).2 (.inr rfl), fun l' h' r r' hr hr' => ?_⟩
        rw [rb] at hr
        cases hr
        rcases (honly l').1 h' with rfl | rfl
        · rw [ra] at hr'; cases hr'; exact Nat.le_of_lt hlt
        · rw [rb] at hr'; cases hr'; exact Nat.le_refl _
    refine ⟨if isWs (dat f a).ty then some b else some a, ?_, ?_, ?_⟩
    · simp [nonWsNodeAtOffset, File.root, e, LeafAtOffset.leftBiased, hpick a ha, LeafAtOffset.rightBiased]
    · intro l
      constructor
      · intro h
        refine ⟨a, _, (hL a).2 rfl, hpick a ha, ?_⟩
        cases hw : isWs (dat f a).ty
        · rw [hw] at h; simp at h; exact .inl ⟨rfl, h.symm⟩
        · rw [hw] at h; simp at h; exact .inr ⟨rfl, (hR l).2 h.symm⟩
      · rintro ⟨left, ty, h1, hty, h2⟩
        obtain rfl := (hL _).1 h1
        rw [hpick _ ha] at hty
        cases hty
        rcases h2 with ⟨hw, rfl⟩ | ⟨hw, h2⟩
        · simp [hw]
        · simp [hw, (hR _).1 h2]
    · intro l h
      split at h <;> cases h
      · exact hnode b hb
      · exact hnode a ha

theorem rightLeaf {offset : Nat} (h : offset ≤ f.text.length) :
    ∃ res, f.findLeafAtOffset 0 offset = some res ∧
      (∀ l, res.rightBiased = some l ↔ Rightmost f (LeafAt f offset) l) ∧
      ∀ l, res.rightBiased = some l → IsNode f l := by
  obtain ⟨res, e, hmem, -⟩ := leaves_at hf h
  obtain ⟨o, h1, h2, h3⟩ := caretLeaf hf (isWs := fun _ => true) h
  have ho : o = res.rightBiased := by
    unfold nonWsNodeAtOffset at h1
    rw [File.root, e] at h1
    cases hl : res.leftBiased with
    | none =>
      cases res <;> simp_all [LeafAtOffset.leftBiased, LeafAtOffset.rightBiased]
    | some l =>
      simp only [Option.bind_eq_bind, Option.bind_some, hl, if_true, Option.bind_eq_some_iff, pure, Option.some.injEq] at h1
      obtain ⟨_, -, h1⟩ := h1
      exact h1.symm
  subst ho
  refine ⟨res, e, fun l => (h2 l).trans ?_, h3⟩
  constructor
  · rintro ⟨left, ty, -, -, ⟨h, -⟩ | ⟨-, h⟩⟩
    · cases h
    · exact h
  · intro hl
    cases hr : res.rightBiased with
    | none =>
      have := (hmem l).2 hl.1
      cases res <;> simp_all [LeafAtOffset.rightBiased, LeafAtOffset.toList]
    | some l' =>
      obtain ⟨left, ty, g1, g2, -⟩ := (h2 l').1 hr
      exact ⟨left, ty, g1, g2, .inr ⟨rfl, hl⟩⟩

theorem innermost_first {l : Nat} {as : List Nat}
    (hsuf : ∀ pre p post, as = pre ++ p :: post → ∀ a, a ∈ p :: post ↔ Desc f a p)
    (hmem : ∀ a, a ∈ as ↔ Desc f a l) {P : Nat → Prop} {n : Nat} : First as P n ↔ Innermost f l P n := by
  have one : ∀ n, First as P n → Innermost f l P n := by
    rintro n ⟨pre, post, e, h1, h2⟩
    refine ⟨(hmem n).1 (by simp [e]), h1, fun m hm hp => ?_⟩
    rw [← hmem, e] at hm
    rcases List.mem_append.1 hm with hm | hm
    · exact absurd hp (h2 m hm)
    · exact (hsuf pre n post e m).1 hm
  refine ⟨one n, fun h => ?_⟩
  obtain ⟨m, hm⟩ := first_exists (P := P) ⟨n, (hmem n).2 h.1, h.2.1⟩
  have h' := one m hm
  have h1 := desc_le hf.nodes (h.2.2 m h'.1 h'.2.1)
  have h2 := desc_le hf.nodes (h'.2.2 n h.1 h.2.1)
  have : m = n := Nat.le_antisymm h1 h2
  exact this ▸ hm

/-! ## Declarations -/

theorem defProvider_some {n : Nat} {d : Declaration} (h : defProvider f n = some (some d)) :
    d.node = n ∧ Shown f n (d.nameIdent.getD d.node) ∧ IsNode f n := by
  unfold defProvider at h
  simp only [Option.bind_eq_bind, Option.bind_eq_some_iff] at h
  obtain ⟨ty, hty, h⟩ := h
  have hn : IsNode f n := ofType_isNode hty
  split at h
  · rename_i ht
    have ht : ty = 132 := by simpa [Ty.synRule] using ht
    subst ht
    simp only [ruleDeclaration, File.ruleIdent, Option.bind_eq_bind, Option.bind_eq_some_iff, Option.pure_def,
      Option.some.injEq] at h
    obtain ⟨d', ⟨i, hi, rfl⟩, rfl⟩ := h
    refine ⟨rfl, ?_, hn⟩
    have := (childOfType_some hf hn Ty.ident).1 hi
    cases i with
    | some i => exact .inl ⟨.inl hty, this⟩
    | none => exact .inr ⟨.inr (.inr ⟨hty, this⟩), rfl⟩
  · split at h
    · rename_i ht
      simp only [Option.pure_def, Option.some.injEq] at h
      subst h
      refine ⟨rfl, .inr ⟨?_, rfl⟩, hn⟩
      simp only [Bool.or_eq_true, beq_iff_eq, Ty.lexRule, Ty.parameter] at ht
      rcases ht with rfl | rfl
      · exact .inr (.inl hty)
      · exact .inl hty
    · split at h
      · rename_i ht
        simp only [itemDeclaration, File.childOfTypeExn, Option.bind_eq_bind, Option.bind_eq_some_iff, Option.pure_def,
          Option.some.injEq] at h
        obtain ⟨d', ⟨i, ⟨c, hi, rfl⟩, rfl⟩, rfl⟩ := h
        refine ⟨rfl, .inl ⟨?_, (childOfType_some hf hn Ty.ident).1 hi⟩, hn⟩
        simp only [Bool.or_eq_true, beq_iff_eq, Ty.astNodeDef, Ty.astClassDef] at ht
        rcases ht with rfl | rfl
        · exact .inr (.inl hty)
        · exact .inr (.inr hty)
      · cases h

omit hf in
theorem defProvider_none {n : Nat} (h : defProvider f n = some none) : ∀ i, ¬ Shown f n i := by
  unfold defProvider at h
  simp only [Option.bind_eq_bind, Option.bind_eq_some_iff] at h
  obtain ⟨ty, hty, h⟩ := h
  split at h
  · simp [Option.bind_eq_some_iff] at h
  · split at h
    · simp at h
    · split at h
      · simp [Option.bind_eq_some_iff] at h
      · rename_i h1 h2 h3
        simp only [Bool.or_eq_true, beq_iff_eq, Ty.astNodeDef, Ty.astClassDef, Ty.lexRule, Ty.parameter, Ty.synRule,
          not_or] at h1 h2 h3
        rintro i (⟨hd, -⟩ | ⟨hd, -⟩)
        · rcases hd with hd | hd | hd <;> rw [OfType, hty] at hd <;> cases hd <;> simp_all
        · rcases hd with hd | hd | ⟨hd, -⟩ <;> rw [OfType, hty] at hd <;> cases hd <;> simp_all

/-- Looking for a declaration in a node panics only for a node or class of the tree without a name. -/
theorem defProvider_total {n : Nat} (hn : IsNode f n)
    (hi : OfType f 150 n ∨ OfType f 151 n → ∃ s, Ident f n s) : ∃ o, defProvider f n = some o := by
  have hty := ty_dat hn
  unfold defProvider
  rw [hty]
  simp only [Option.bind_eq_bind, Option.bind_some]
  split
  · obtain ⟨o, ho⟩ := childOfType_total hf hn Ty.ident
    simp [ruleDeclaration, File.ruleIdent, ho]
  · split
    · exact ⟨_, rfl⟩
    · split
      · rename_i h
        simp only [Bool.or_eq_true, beq_iff_eq, Ty.astNodeDef, Ty.astClassDef] at h
        obtain ⟨s, c, hc, -⟩ := hi (by
          rcases h with h | h
          · exact .inl (by rw [OfType, hty, h])
          · exact .inr (by rw [OfType, hty, h]))
        have := (childOfType_some hf hn Ty.ident (o := some c)).2 hc
        simp [itemDeclaration, File.childOfTypeExn, this]
      · exact ⟨_, rfl⟩

theorem shown_range {d i : Nat} (h : Shown f d i) : IsNode f i := by
  rcases h with ⟨-, h⟩ | ⟨h, rfl⟩
  · exact first_isNode hf h
  · rcases h with h | h | ⟨h, -⟩ <;> exact ofType_isNode h

/-! ## References -/

/-- How a reference that is found at a node is resolved. -/
def RefOf (f : File UInt8) (n : NodeId) (r : Reference) : Prop :=
  IsReference f n r.node ∧
    match r.resolve with
    | .refExpr => OfType f 135 n ∧ r.node = n
    | .method => OfType f 153 n
    | .call => OfType f 130 n ∧ r.node = n ∧ ∃ c, Child f c n ∧ OfType f 140 c

theorem parent_of_child {n c : Nat} (hn : IsNode f n) : f.parent n = some (some c) ↔ Child f c n := by
  rw [parent_dat hn]
  simp only [Option.some.injEq]
  constructor
  · intro h
    obtain ⟨h1, h2, -⟩ := parent_spec hf.nodes hn h
    exact child_iff.2 ⟨h1, h2⟩
  · intro h
    exact (child_spec hf.nodes h).2.2.2

theorem child_parent_unique {n c d : Nat} (h : Child f c n) (h' : Child f d n) : c = d := by
  have hn := child_isNode hf h
  have h1 := (parent_of_child hf hn).2 h
  have h2 := (parent_of_child hf hn).2 h'
  rw [h1] at h2
  cases h2
  rfl

theorem refProvider_eval {n : Nat} {o : Option Reference} {ds : List Diagnostic}
    (h : Eval (analysisBody f) (refProvider f n) (some o) ds) :
    match (motive := Option Reference → Prop) o with
    | some r => RefOf f n r
    | none => ∀ ref, ¬ IsReference f n ref := by
  unfold refProvider at h
  rw [eval_bind_some] at h
  obtain ⟨ty, _, _, h1, h, -⟩ := h
  obtain ⟨hty, -⟩ := eval_lift.1 h1
  have hn : IsNode f n := ofType_isNode hty
  have other : ∀ {t : Nat}, OfType f t n → t = ty := by
    intro t ht
    rw [OfType, hty] at ht
    cases ht
    rfl
  split at h
  · rename_i ht
    have ht : ty = 135 := by simpa [Ty.refExpr] using ht
    subst ht
    cases (eval_pure.1 h).1
    exact ⟨.expr hty, hty, rfl⟩
  · rename_i ht1
    split at h
    · rename_i ht
      have ht : ty = 153 := by simpa [Ty.methodDef] using ht
      subst ht
      rw [eval_bind_some] at h
      obtain ⟨sel, _, _, h1, h, -⟩ := h
      obtain ⟨hs, -⟩ := eval_lift.1 h1
      have hs := (firstChild_some hf hn 154).1 hs
      cases sel with
      | none => cases h
      | some sel =>
        cases (eval_pure.1 h).1
        exact ⟨.method hty hs, hty⟩
    · rename_i ht2
      split at h
      · rename_i ht
        have ht : ty = 130 := by simpa [Ty.ident] using ht
        subst ht
        rw [eval_bind_some] at h
        obtain ⟨p, _, _, h1, h, -⟩ := h
        obtain ⟨hp, -⟩ := eval_lift.1 h1
        cases p with
        | none =>
          cases (eval_pure.1 h).1
          rintro ref (h | ⟨h, -⟩ | ⟨-, h, -⟩)
          · cases other h
          · cases other h
          · rw [(parent_of_child hf hn).2 h] at hp
            cases hp
        | some p =>
          have hc := (parent_of_child hf hn).1 hp
          simp only at h
          rw [eval_bind_some] at h
          obtain ⟨pty, _, _, h1, h, -⟩ := h
          obtain ⟨hpt, -⟩ := eval_lift.1 h1
          split at h
          · rename_i ht
            have ht : pty = 140 := by simpa [Ty.callExpr] using ht
            subst ht
            rw [eval_bind_some] at h
            obtain ⟨k, _, _, h1, h, -⟩ := h
            obtain ⟨⟨ds', h1⟩, -⟩ := eval_get.1 h1
            obtain ⟨name, args, hname, -, hm⟩ := resolveCall_eval hf hpt h1
            split at h
            · rename_i rule as _
              cases (eval_pure.1 h).1
              obtain ⟨name, pl, g1, g2, g3, g4⟩ := (callMeans_rule hname hm rule).1 ⟨_, rfl⟩
              exact ⟨.call hty hc hpt g1 g2 g3 g4, hty, rfl, p, hc, hpt⟩
            · rename_i k' hk
              cases (eval_pure.1 h).1
              rintro ref (h | ⟨h, -⟩ | ⟨-, h, h0, h1, h2, h3, h4⟩)
              · cases other h
              · cases other h
              · cases child_parent_unique hf h hc
                obtain ⟨as, rfl⟩ := (callMeans_rule hname hm _).2 ⟨_, _, h1, h2, h3, h4⟩
                exact hk _ _ rfl
          · rename_i ht
            cases (eval_pure.1 h).1
            rintro ref (h | ⟨h, -⟩ | ⟨-, h, h0, -⟩)
            · cases other h
            · cases other h
            · cases child_parent_unique hf h hc
              rw [OfType, hpt] at h0
              cases h0
              simp [Ty.callExpr] at ht
      · rename_i ht3
        cases (eval_pure.1 h).1
        rintro ref (h | ⟨h, -⟩ | ⟨h, -⟩)
        · cases other h; simp [Ty.refExpr] at ht1
        · cases other h; simp [Ty.methodDef] at ht2
        · cases other h; simp [Ty.ident] at ht3

/-! ## Targets -/

omit hf in
theorem firstChild_prop {n c : Nat} {P : Nat → Prop} (h : FirstChild f n P c) : P c := by
  obtain ⟨_, _, _, _, _, h, -⟩ := h
  exact h

omit hf in
theorem ruleNamed_type {s : List UInt8} {r : Nat} (h : RuleNamed f s r) : OfType f 132 r := (firstChild_prop h).1

omit hf in
theorem paramNamed_type {rule : Nat} {s : List UInt8} {p : Nat} (h : ParamNamed f rule s p) : OfType f 134 p := by
  obtain ⟨_, -, h⟩ := h
  exact (firstChild_prop h).1

omit hf in
theorem tokenNamed_type {s : List UInt8} {t : Nat} (h : TokenNamed f s t) : OfType f 142 t := by
  obtain ⟨_, -, _, _, _, _, _, h, -⟩ := h
  exact h.1

omit hf in
theorem tokenTyped_type {s : List UInt8} {t : Nat} (h : TokenTyped f s t) : OfType f 142 t := by
  obtain ⟨_, -, h⟩ := h
  exact (firstChild_prop h).1

omit hf in
theorem defProvider_rule {r : Nat} {d : Declaration} (h : OfType f 132 r) (hd : ruleDeclaration f r = some d) :
    d.node = r ∧ defProvider f d.node = some (some d) := by
  have : d.node = r := by
    simp only [ruleDeclaration, Option.bind_eq_bind, Option.bind_eq_some_iff, Option.pure_def, Option.some.injEq] at hd
    obtain ⟨_, -, rfl⟩ := hd
    rfl
  rw [OfType] at h
  refine ⟨this, ?_⟩
  simp [this, defProvider, h, Ty.synRule, hd]

omit hf in
theorem defProvider_plain {n : Nat} (h : OfType f 134 n ∨ OfType f 142 n) :
    defProvider f n = some (some (plainDeclaration n)) := by
  rcases h with h | h <;> rw [OfType] at h <;> simp [defProvider, h, Ty.synRule, Ty.lexRule, Ty.parameter]

omit hf in
theorem defProvider_item {n : Nat} {d : Declaration} (h : OfType f 150 n ∨ OfType f 151 n)
    (hd : itemDeclaration f n = some d) : d.node = n ∧ defProvider f d.node = some (some d) := by
  have : d.node = n := by
    simp only [itemDeclaration, Option.bind_eq_bind, Option.bind_eq_some_iff, Option.pure_def, Option.some.injEq] at hd
    obtain ⟨_, -, rfl⟩ := hd
    rfl
  refine ⟨this, ?_⟩
  rcases h with h | h <;> rw [OfType] at h <;>
    simp [this, defProvider, h, hd, Ty.synRule, Ty.lexRule, Ty.parameter, Ty.astNodeDef, Ty.astClassDef]

theorem itemDeclaration_total {ty : NodeType} {s : List UInt8} {n : Nat} (h : AstItem f ty s n) :
    ∃ d, itemDeclaration f n = some d := by
  obtain ⟨_, -, h⟩ := h
  obtain ⟨hty, c, hc, -⟩ := firstChild_prop h
  have := (childOfType_some hf (ofType_isNode hty) Ty.ident (o := some c)).2 hc
  simp [itemDeclaration, File.childOfTypeExn, this]

theorem ruleDeclaration_total {r : Nat} (h : IsNode f r) : ∃ d, ruleDeclaration f r = some d := by
  obtain ⟨o, ho⟩ := childOfType_total hf h Ty.ident
  simp [ruleDeclaration, File.ruleIdent, ho]

/-- The declaration that a reference resolves to is that of its target. -/
theorem refKindDeclaration_spec {rule : Nat} {s : List UInt8} {k : RefKind} (h : Means f rule s (some k)) :
    ∃ d, refKindDeclaration f k = some d ∧ d.node = refTarget k ∧ defProvider f d.node = some (some d) := by
  cases k with
  | rule r =>
    have ht := ruleNamed_type h.2
    obtain ⟨d, hd⟩ := ruleDeclaration_total hf (ofType_isNode ht)
    exact ⟨d, hd, defProvider_rule ht hd⟩
  | param p => exact ⟨_, rfl, rfl, defProvider_plain (.inl (paramNamed_type h))⟩
  | token t => exact ⟨_, rfl, rfl, defProvider_plain (.inr (tokenNamed_type h.2.2))⟩

theorem methodDeclaration_spec {m : Nat} {k : MethodKind} (h : MethodMeans f m (some k)) :
    ∃ o, methodDeclaration f k = some o ∧ o.map (·.node) = methodTarget k ∧
      ∀ d, o = some d → defProvider f d.node = some (some d) := by
  cases h with
  | astNode _ _ _ h _ =>
    obtain ⟨d, hd⟩ := itemDeclaration_total hf h
    obtain ⟨_, -, h⟩ := h
    obtain ⟨h1, h2⟩ := defProvider_item (.inl (firstChild_prop h).1) hd
    refine ⟨some d, by simp [methodDeclaration, hd], by simp [methodTarget, h1], ?_⟩
    rintro d' h; cases h; exact h2
  | astClass _ _ _ _ h _ =>
    obtain ⟨d, hd⟩ := itemDeclaration_total hf h
    obtain ⟨_, -, h⟩ := h
    obtain ⟨h1, h2⟩ := defProvider_item (.inr (firstChild_prop h).1) hd
    refine ⟨some d, by simp [methodDeclaration, hd], by simp [methodTarget, h1], ?_⟩
    rintro d' h; cases h; exact h2
  | token _ _ _ _ _ _ h _ =>
    refine ⟨_, rfl, rfl, ?_⟩
    rintro d' h'; cases h'; exact defProvider_plain (.inr (tokenTyped_type h))
  | text _ _ _ _ _ _ h _ => exact ⟨none, rfl, rfl, by simp⟩

theorem selector_method {n sel : Nat} (h : OfType f 153 n) (hs : FirstChild f n (OfType f 154) sel) :
    f.astAncestor (· == Ty.methodDef) sel = some (some n) := by
  have hsel := first_isNode hf hs
  have hchild : Child f n sel := by
    obtain ⟨cs, h1, h2⟩ := hs
    exact ⟨cs, h1, (first_mem h2).1⟩
  obtain ⟨res, h1, h2, h3⟩ := astAncestor_spec hf.nodes hsel (· == Ty.methodDef)
  have hd : Desc f n sel := firstChild_desc hs
  cases res with
  | none =>
    have := h3 rfl n 153 hd h
    simp [Ty.methodDef] at this
  | some r =>
    obtain ⟨h4, ⟨t, h5, h6⟩, h7⟩ := h2 r rfl
    have ht : t = 153 := by simpa [Ty.methodDef] using h6
    subst ht
    have hle := desc_le hf.nodes (h7 n 153 hd h (by simp [Ty.methodDef]))
    have hne : r ≠ sel := by
      rintro rfl
      have := firstChild_prop hs
      rw [OfType, h5] at this
      cases this
    have : r ≤ n := by
      rcases desc_cases hf.nodes h4 with e | ⟨p, hp, hrp⟩
      · exact absurd e hne
      · rw [(child_spec hf.nodes hchild).2.2.2] at hp
        cases hp
        exact desc_le hf.nodes hrp
    rw [h1]
    have : r = n := Nat.le_antisymm this hle
    rw [this]

theorem resolveDeclaration_eval {n : Nat} {r : Reference} (hr : RefOf f n r) {o : Option Declaration}
    {ds : List Diagnostic} (h : Eval (analysisBody f) (resolveDeclaration f r) (some o) ds) :
    LeadsTo f n (o.map (·.node)) ∧ ∀ d, o = some d → defProvider f d.node = some (some d) := by
  obtain ⟨href, hr⟩ := hr
  unfold resolveDeclaration at h
  split at h
  · rename_i e
    rw [e] at hr
    obtain ⟨ht, rfl⟩ := hr
    rw [eval_bind_some] at h
    obtain ⟨k, _, _, h1, h, -⟩ := h
    obtain ⟨⟨_, h1⟩, -⟩ := eval_get.1 h1
    obtain ⟨s, rule, g1, g2, g3, -⟩ := resolveRef_eval hf (ofType_isNode ht) h1
    have ht := LeadsTo.expr ht ⟨s, rule, g1, g2, g3⟩
    cases k with
    | none =>
      cases (eval_pure.1 h).1
      exact ⟨ht, by simp⟩
    | some k =>
      simp only at h
      rw [eval_bind_some] at h
      obtain ⟨d, _, _, h1, h, -⟩ := h
      obtain ⟨h1, -⟩ := eval_lift.1 h1
      cases (eval_pure.1 h).1
      obtain ⟨d', h2, h3, h4⟩ := refKindDeclaration_spec hf g3
      rw [h1] at h2
      cases h2
      refine ⟨by simpa [h3] using ht, ?_⟩
      rintro _ h; cases h; exact h4
  · rename_i e
    rw [e] at hr
    have hsel : FirstChild f n (OfType f 154) r.node := by
      cases href with
      | expr h => rw [OfType, hr] at h; cases h
      | method _ h => exact h
      | call h => rw [OfType, hr] at h; cases h
    rw [eval_bind_some] at h
    obtain ⟨m, _, _, h1, h, -⟩ := h
    obtain ⟨h1, -⟩ := eval_lift.1 h1
    rw [selector_method hf hr hsel] at h1
    cases h1
    simp only at h
    rw [eval_bind_some] at h
    obtain ⟨k, _, _, h1, h, -⟩ := h
    obtain ⟨⟨_, h1⟩, -⟩ := eval_get.1 h1
    obtain ⟨hm, -⟩ := resolveMethod_eval hf (ofType_isNode hr) h1
    have ht := LeadsTo.method hr hm
    cases k with
    | none =>
      cases (eval_pure.1 h).1
      exact ⟨ht, by simp⟩
    | some k =>
      obtain ⟨h1, -⟩ := eval_lift.1 h
      obtain ⟨o', h2, h3, h4⟩ := methodDeclaration_spec hf hm
      rw [h1] at h2
      cases h2
      exact ⟨by simpa [h3] using ht, h4⟩
  · rename_i e
    rw [e] at hr
    obtain ⟨ht, rfl, c, hc, hct⟩ := hr
    rw [eval_bind_some] at h
    obtain ⟨p, _, _, h1, h, -⟩ := h
    obtain ⟨h1, -⟩ := eval_lift.1 h1
    rw [(parent_of_child hf (ofType_isNode ht)).2 hc] at h1
    cases h1
    simp only at h
    rw [eval_bind_some] at h
    obtain ⟨k, _, _, h1, h, -⟩ := h
    obtain ⟨⟨_, h1⟩, -⟩ := eval_get.1 h1
    obtain ⟨name, args, hname, -, hm⟩ := resolveCall_eval hf hct h1
    split at h
    · rename_i rule as _
      obtain ⟨name, pl, g1, g2, g3, g4⟩ := (callMeans_rule hname hm rule).1 ⟨_, rfl⟩
      rw [eval_bind_some] at h
      obtain ⟨d, _, _, h1, h, -⟩ := h
      obtain ⟨h1, -⟩ := eval_lift.1 h1
      cases (eval_pure.1 h).1
      obtain ⟨h3, h4⟩ := defProvider_rule (ruleNamed_type g3) h1
      refine ⟨?_, ?_⟩
      · rw [Option.map_some, h3]
        exact .call ht hc hct g1 g2 g3 g4
      · rintro _ h; cases h; exact h4
    · cases h

theorem leadsTo_unique {n : Nat} {t t' : Option Nat} (h : LeadsTo f n t) (h' : LeadsTo f n t') : t = t' := by
  have other : ∀ {a b : NodeType}, OfType f a n → OfType f b n → a = b := by
    intro a b ha hb
    rw [OfType, ha] at hb
    cases hb
    rfl
  cases h with
  | expr h1 h2 =>
    cases h' with
    | expr _ h3 => rw [refersTo_unique hf h2 h3]
    | method h3 => cases other h1 h3
    | call h3 => cases other h1 h3
  | method h1 h2 =>
    cases h' with
    | expr h3 => cases other h1 h3
    | method _ h3 => rw [methodMeans_unique h2 h3]
    | call h3 => cases other h1 h3
  | call h1 h2 h3 h4 h5 h6 h7 =>
    cases h' with
    | expr g1 => cases other h1 g1
    | method g1 => cases other h1 g1
    | call g1 g2 g3 g4 g5 g6 g7 =>
      cases child_parent_unique hf h2 g2
      cases labelled_unique h4 g4
      rw [firstChild_unique h6 g6]

omit hf in
theorem leadsTo_isNode {n : Nat} {t : Option Nat} (h : LeadsTo f n t) : IsNode f n := by
  cases h with
  | expr h => exact ofType_isNode h
  | method h => exact ofType_isNode h
  | call h => exact ofType_isNode h

omit hf in
/-- Uses are what has a target. -/
theorem target_reference {n : Nat} {t : Option Nat} (h : LeadsTo f n t) : ∃ ref, IsReference f n ref := by
  cases h with
  | expr h => exact ⟨n, .expr h⟩
  | method h h' =>
    cases h' <;> rename_i hs _ <;> exact ⟨_, .method h (by assumption)⟩
  | call h1 h2 h3 h4 h5 h6 h7 => exact ⟨n, .call h1 h2 h3 h4 h5 h6 h7⟩

omit hf in
theorem isReference_unique {n r r' : Nat} (h : IsReference f n r) (h' : IsReference f n r') : r = r' := by
  have other : ∀ {a b : NodeType}, OfType f a n → OfType f b n → a = b := by
    intro a b ha hb
    rw [OfType, ha] at hb
    cases hb
    rfl
  cases h with
  | expr h1 => cases h' with
    | expr => rfl
    | method h3 => cases other h1 h3
    | call => rfl
  | method h1 h2 => cases h' with
    | expr h3 => cases other h1 h3
    | method _ h3 => exact firstChild_unique h2 h3
    | call h3 => cases other h1 h3
  | call h1 => cases h' with
    | expr => rfl
    | method h3 => cases other h1 h3
    | call => rfl

end

/-! ## Panics -/

section
variable {f : File UInt8} (hf : ConsistentFile f) (hs : Shaped f)
include hf hs

theorem safe_refProvider {n : Nat} (hn : IsNode f n) : Safe (analysisBody f) (refProvider f n) := by
  unfold refProvider
  refine safe_bind (safe_lift (by simp [ty_dat hn])) fun ty _ hty => ?_
  obtain ⟨hty, -⟩ := eval_lift.1 hty
  split
  · exact safe_pure _
  · split
    · rename_i ht
      have ht : ty = 153 := by simpa [Ty.methodDef] using ht
      subst ht
      obtain ⟨sel, s, h1, -⟩ := hs.method n hty
      have h1 := (firstChild_some hf hn 154 (o := some sel)).2 h1
      refine safe_bind (safe_lift (by simp [h1, Ty.astSelector])) fun o _ ho => ?_
      obtain ⟨ho, -⟩ := eval_lift.1 ho
      simp only [Ty.astSelector] at ho
      rw [h1] at ho
      cases ho
      exact safe_pure _
    · split
      · refine safe_bind (safe_lift (by simp [parent_dat hn])) fun o _ ho => ?_
        obtain ⟨ho, -⟩ := eval_lift.1 ho
        cases o with
        | none => exact safe_pure _
        | some p =>
          have hp := parent_isNode hf ho
          refine safe_bind (safe_lift (by simp [ty_dat hp])) fun ty _ hty => ?_
          obtain ⟨hty, -⟩ := eval_lift.1 hty
          split
          · rename_i ht
            have ht : ty = 140 := by simpa [Ty.callExpr] using ht
            subst ht
            refine safe_bind (safe_get (safe_resolveCall hf hs hty)) fun k _ hk => ?_
            split <;> exact safe_pure _
          · exact safe_pure _
      · exact safe_pure _

theorem resolveDeclaration_panic {n : Nat} {r : Reference} (hr : RefOf f n r) :
    (∃ ds, Eval (analysisBody f) (resolveDeclaration f r) none ds) ↔ OfType f 153 n ∧ NamelessItem f n := by
  have hro := hr
  obtain ⟨href, hr⟩ := hr
  unfold resolveDeclaration
  split
  · rename_i e
    rw [e] at hr
    obtain ⟨ht, rfl⟩ := hr
    constructor
    · rintro ⟨ds, h⟩
      exfalso
      revert ds
      change Safe _ _
      refine safe_bind (safe_get (safe_resolveRef hf hs ht)) fun k _ hk => ?_
      obtain ⟨⟨_, hk⟩, -⟩ := eval_get.1 hk
      obtain ⟨s, rule, g1, g2, g3, -⟩ := resolveRef_eval hf (ofType_isNode ht) hk
      cases k with
      | none => exact safe_pure _
      | some k =>
        obtain ⟨d', h2, h3, h4⟩ := refKindDeclaration_spec hf g3
        exact safe_bind (safe_lift (by simp [h2])) fun _ _ _ => safe_pure _
    · rintro ⟨h, -⟩
      rw [OfType, ht] at h
      cases h
  · rename_i e
    rw [e] at hr
    have hsel : FirstChild f n (OfType f 154) r.node := by
      cases href with
      | expr h => rw [OfType, hr] at h; cases h
      | method _ h => exact h
      | call h => rw [OfType, hr] at h; cases h
    have hanc := selector_method hf hr hsel
    rw [← resolveMethod_none hf hs hr]
    constructor
    · rintro ⟨ds, h⟩
      refine ⟨hr, ?_⟩
      rw [eval_bind_any] at h
      rcases h with ⟨m, _, _, h1, h, -⟩ | ⟨-, h⟩
      · obtain ⟨h1, -⟩ := eval_lift.1 h1
        rw [hanc] at h1
        cases h1
        simp only at h
        rw [eval_bind_any] at h
        rcases h with ⟨k, _, _, h1, h, -⟩ | ⟨-, h⟩
        · obtain ⟨⟨_, h1⟩, -⟩ := eval_get.1 h1
          obtain ⟨hm, -⟩ := resolveMethod_eval hf (ofType_isNode hr) h1
          cases k with
          | none => cases (eval_pure.1 h).1
          | some k =>
            obtain ⟨h1, -⟩ := eval_lift.1 h
            obtain ⟨o', h2, -⟩ := methodDeclaration_spec hf hm
            rw [h1] at h2
            cases h2
        · exact (eval_get.1 h).1
      · obtain ⟨h1, -⟩ := eval_lift.1 h
        rw [hanc] at h1
        cases h1
    · rintro ⟨-, ds, h⟩
      refine ⟨[], eval_bind_any.2 (.inl ⟨some n, [], [], eval_lift.2 ⟨hanc, rfl⟩, ?_, rfl⟩)⟩
      exact eval_bind_any.2 (.inr ⟨rfl, eval_get.2 ⟨⟨ds, h⟩, rfl⟩⟩)
  · rename_i e
    rw [e] at hr
    obtain ⟨ht, rfl, c, hc, hct⟩ := hr
    have hpar := (parent_of_child hf (ofType_isNode ht)).2 hc
    constructor
    · rintro ⟨ds, h⟩
      exfalso
      revert ds
      change Safe _ _
      refine safe_bind (safe_lift (by simp [hpar])) fun p _ hp => ?_
      obtain ⟨hp, -⟩ := eval_lift.1 hp
      rw [hpar] at hp
      cases hp
      refine safe_bind (safe_get (safe_resolveCall hf hs hct)) fun k _ hk => ?_
      obtain ⟨⟨_, hk⟩, -⟩ := eval_get.1 hk
      obtain ⟨name, args, hname, -, hm⟩ := resolveCall_eval hf hct hk
      cases href with
      | expr h => rw [OfType, ht] at h; cases h
      | method h => rw [OfType, ht] at h; cases h
      | call g1 g2 g3 g4 g5 g6 g7 =>
        cases child_parent_unique hf hc g2
        obtain ⟨as, rfl⟩ := (callMeans_rule hname hm _).2 ⟨_, _, g4, g5, g6, g7⟩
        obtain ⟨d, hd⟩ := ruleDeclaration_total hf (ofType_isNode (ruleNamed_type g6))
        exact safe_bind (safe_lift (by simp [hd])) fun _ _ _ => safe_pure _
    · rintro ⟨h, -⟩
      rw [OfType, ht] at h
      cases h

end

/-! ## Looking around the caret -/

section
variable {f : File UInt8} (hf : ConsistentFile f) {isWs : NodeType → Bool} {offset : Nat}
  (hoff : offset ≤ f.text.length) {τ : Type} {g : NodeId → AProg (Option τ)} {ds : List Diagnostic}
include hf hoff

theorem caretLeaf_isNode {l : Nat} (h : CaretLeaf f isWs offset l) : IsNode f l := by
  obtain ⟨o, -, h1, h2⟩ := caretLeaf hf (isWs := isWs) hoff
  exact h2 l ((h1 l).2 h)

/-- The outcome of a search around the caret: either the outcome at the innermost node where it is not `some none`, or
`some none`. -/
theorem tryFind_eval {o : Option (Option τ)} (h : Eval (analysisBody f) (tryFindAtOffset f isWs offset g) o ds) :
    (o = some none ∧ ∀ l, CaretLeaf f isWs offset l → ∀ n, Desc f n l → ∃ ds, Eval (analysisBody f) (g n) (some none) ds) ∨
    ∃ l n, CaretLeaf f isWs offset l ∧ (∀ l', CaretLeaf f isWs offset l' → l' = l) ∧
      Innermost f l (fun n => ∃ o ds, Eval (analysisBody f) (g n) o ds ∧ o ≠ some none) n ∧
      (∃ ds, Eval (analysisBody f) (g n) o ds) ∧ o ≠ some none := by
  obtain ⟨c, hc, hcl, hcn⟩ := caretLeaf hf (isWs := isWs) hoff
  unfold tryFindAtOffset at h
  rw [eval_bind_any] at h
  rcases h with ⟨v, _, _, h1, h, -⟩ | ⟨-, h⟩
  · obtain ⟨h1, -⟩ := eval_lift.1 h1
    rw [hc] at h1
    cases h1
    cases c with
    | none =>
      refine .inl ⟨(eval_pure.1 h).1, fun l hl => ?_⟩
      have := (hcl l).2 hl
      cases this
    | some l =>
      have hn := hcn l rfl
      have hl := (hcl l).1 rfl
      have huniq : ∀ l', CaretLeaf f isWs offset l' → l' = l := by
        intro l' h'
        have := (hcl l').2 h'
        cases this
        rfl
      obtain ⟨as, e, -, hmem, -, hsuf⟩ := ancestors_spec hf.nodes l hn
      simp only at h
      rw [eval_bind_any] at h
      rcases h with ⟨v, _, _, h1, h, -⟩ | ⟨-, h⟩
      · obtain ⟨h1, -⟩ := eval_lift.1 h1
        rw [e] at h1
        cases h1
        have key : ∀ n, First (l :: as) (fun n => ∃ o ds, Eval (analysisBody f) (g n) o ds ∧ o ≠ some none) n →
            (∃ ds, Eval (analysisBody f) (g n) o ds) → o ≠ some none →
            ∃ l n, CaretLeaf f isWs offset l ∧ (∀ l', CaretLeaf f isWs offset l' → l' = l) ∧
              Innermost f l (fun n => ∃ o ds, Eval (analysisBody f) (g n) o ds ∧ o ≠ some none) n ∧
              (∃ ds, Eval (analysisBody f) (g n) o ds) ∧ o ≠ some none := fun n h1 h2 h3 =>
          ⟨l, n, hl, huniq, (innermost_first hf hsuf hmem).1 h1, h2, h3⟩
        have quiet : ∀ y, (∃ ds, Eval (analysisBody f) (g y) (some none) ds) →
            ¬ ∃ o ds, Eval (analysisBody f) (g y) o ds ∧ o ≠ some none := by
          rintro y ⟨ds, h⟩ ⟨o, ds', h', hne⟩
          exact hne (Eval.det h' h).1
        match o, h with
        | none, h =>
          obtain ⟨pre, x, post, e, hx, hpre⟩ := firstOver_panic h
          obtain ⟨ds, hx⟩ := hx
          exact .inr (key x ⟨pre, post, e, ⟨_, _, hx, by simp⟩, fun y hy => quiet y (hpre y hy)⟩ ⟨_, hx⟩ (by simp))
        | some none, h =>
          refine .inl ⟨rfl, fun l' hl' n hn => ?_⟩
          rw [huniq l' hl'] at hn
          exact firstOver_none h n ((hmem n).2 hn)
        | some (some v), h =>
          obtain ⟨pre, x, post, e, hx, hpre⟩ := firstOver_some h
          obtain ⟨ds, hx⟩ := hx
          exact .inr (key x ⟨pre, post, e, ⟨_, _, hx, by simp⟩, fun y hy => quiet y (hpre y hy)⟩ ⟨_, hx⟩ (by simp))
      · obtain ⟨h1, -⟩ := eval_lift.1 h
        rw [e] at h1
        cases h1
  · obtain ⟨h1, -⟩ := eval_lift.1 h
    rw [hc] at h1
    cases h1

end

section
variable {f : File UInt8} (hf : ConsistentFile f)
include hf

omit hf in
theorem innermost_congr {l n : Nat} {P Q : Nat → Prop} (h : ∀ m, Desc f m l → (P m ↔ Q m)) :
    Innermost f l P n ↔ Innermost f l Q n := by
  constructor
  · rintro ⟨h1, h2, h3⟩
    exact ⟨h1, (h n h1).1 h2, fun m hm hq => h3 m hm ((h m hm).2 hq)⟩
  · rintro ⟨h1, h2, h3⟩
    exact ⟨h1, (h n h1).2 h2, fun m hm hq => h3 m hm ((h m hm).1 hq)⟩

theorem innermost_unique {l n n' : Nat} {P : Nat → Prop} (h : Innermost f l P n) (h' : Innermost f l P n') : n = n' :=
  Nat.le_antisymm (desc_le hf.nodes (h'.2.2 n h.1 h.2.1)) (desc_le hf.nodes (h.2.2 n' h'.1 h'.2.1))

theorem desc_isNode' {n m : Nat} (h : Desc f n m) (hm : IsNode f m) : IsNode f n :=
  Nat.lt_of_le_of_lt (desc_le hf.nodes h) hm

omit hf in
theorem touches_contains {i offset : Nat} {r : TextRange} (h : f.range i = some r) :
    r.containsOffsetNonstrict offset = true ↔ Touches f i offset := by
  simp [TextRange.containsOffsetNonstrict, Touches, h]

omit hf in
theorem shown_unique {d i j : Nat} (h : Shown f d i) (h' : Shown f d j) : i = j := by
  have other : ∀ {a b : NodeType}, OfType f a d → OfType f b d → a = b := by
    intro a b ha hb
    rw [OfType, ha] at hb
    cases hb
    rfl
  rcases h with ⟨h1, h2⟩ | ⟨h1, rfl⟩ <;> rcases h' with ⟨g1, g2⟩ | ⟨g1, rfl⟩
  · exact firstChild_unique h2 g2
  · rcases h1 with h1 | h1 | h1 <;> rcases g1 with g1 | g1 | ⟨g1, g2⟩ <;> cases other h1 g1
    exact absurd h2 (g2 i)
  · rcases h1 with h1 | h1 | ⟨h1, h2⟩ <;> rcases g1 with g1 | g1 | g1 <;> cases other h1 g1
    exact absurd g2 (h2 j)
  · rfl

omit hf in
/-- A declaration is not a use. -/
theorem shown_target {n i : Nat} {t : Option Nat} (h : Shown f n i) (h' : LeadsTo f n t) : False := by
  have other : ∀ {a b : NodeType}, OfType f a n → OfType f b n → a = b := by
    intro a b ha hb
    rw [OfType, ha] at hb
    cases hb
    rfl
  rcases h with ⟨h1, -⟩ | ⟨h1, -⟩
  · cases h' with
    | expr g => rcases h1 with h1 | h1 | h1 <;> cases other h1 g
    | method g => rcases h1 with h1 | h1 | h1 <;> cases other h1 g
    | call g => rcases h1 with h1 | h1 | h1 <;> cases other h1 g
  · cases h' with
    | expr g => rcases h1 with h1 | h1 | ⟨h1, -⟩ <;> cases other h1 g
    | method g => rcases h1 with h1 | h1 | ⟨h1, -⟩ <;> cases other h1 g
    | call g => rcases h1 with h1 | h1 | ⟨h1, -⟩ <;> cases other h1 g

theorem about_unique {offset n d d' : Nat} (h : About f offset n d) (h' : About f offset n d') : d = d' := by
  rcases h with ⟨rfl, i, hi, -⟩ | h <;> rcases h' with ⟨rfl, j, hj, -⟩ | h'
  · rfl
  · exact (shown_target hi h').elim
  · exact (shown_target hj h).elim
  · have := leadsTo_unique hf h h'
    cases this
    rfl

theorem providedTarget_eval {n : Nat} {o : Option Declaration} {ds : List Diagnostic}
    (h : Eval (analysisBody f) (providedTarget f n) (some o) ds) :
    (∀ d, o = some d → LeadsTo f n (some d.node) ∧ defProvider f d.node = some (some d)) ∧
    (o = none → ∀ d, ¬ LeadsTo f n (some d)) := by
  unfold providedTarget at h
  rw [eval_bind_some] at h
  obtain ⟨r, _, _, h1, h, -⟩ := h
  have hr := refProvider_eval hf h1
  cases r with
  | none =>
    cases (eval_pure.1 h).1
    refine ⟨by simp, fun _ d hd => ?_⟩
    obtain ⟨ref, href⟩ := target_reference hd
    exact hr ref href
  | some r =>
    obtain ⟨g1, g2⟩ := resolveDeclaration_eval hf hr h
    refine ⟨fun d hd => ?_, ?_⟩
    · subst hd
      exact ⟨g1, g2 d rfl⟩
    · rintro rfl d hd
      have := leadsTo_unique hf g1 hd
      cases this

theorem declarationAt_eval {offset n : Nat} {o : Option Declaration} {ds : List Diagnostic}
    (h : Eval (analysisBody f) (declarationAt f offset n) (some o) ds) :
    (∀ d, o = some d → About f offset n d.node ∧ defProvider f d.node = some (some d)) ∧
    (o = none → ∀ d, ¬ About f offset n d) := by
  unfold declarationAt at h
  rw [eval_bind_some] at h
  obtain ⟨v, _, _, h1, h, -⟩ := h
  obtain ⟨h1, -⟩ := eval_lift.1 h1
  cases v with
  | some d =>
    obtain ⟨e, hsh, hn⟩ := defProvider_some hf h1
    simp only at h
    rw [eval_bind_some] at h
    obtain ⟨r, _, _, h2, h, -⟩ := h
    obtain ⟨h2, -⟩ := eval_lift.1 h2
    have ht := touches_contains h2 (offset := offset)
    split at h
    · rename_i hc
      cases (eval_pure.1 h).1
      refine ⟨?_, by simp⟩
      rintro d' h'
      cases h'
      exact ⟨.inl ⟨e, _, e ▸ hsh, ht.1 hc⟩, e ▸ h1⟩
    · rename_i hc
      obtain ⟨g1, g2⟩ := providedTarget_eval hf h
      refine ⟨fun d' h' => ⟨.inr (g1 d' h').1, (g1 d' h').2⟩, ?_⟩
      rintro ho d' (⟨rfl, i, hi, hti⟩ | h')
      · cases shown_unique hi hsh
        exact hc (ht.2 hti)
      · exact g2 ho d' h'
  | none =>
    have hsh := defProvider_none h1
    obtain ⟨g1, g2⟩ := providedTarget_eval hf h
    refine ⟨fun d' h' => ⟨.inr (g1 d' h').1, (g1 d' h').2⟩, ?_⟩
    rintro ho d' (⟨rfl, i, hi, hti⟩ | h')
    · exact hsh i hi
    · exact g2 ho d' h'

theorem usagesOf_eval {d : Declaration} (hd : defProvider f d.node = some (some d)) {nodes : List Nat}
    {res : List TextRange} {ds : List Diagnostic}
    (h : Eval (analysisBody f) (usagesOf f d nodes) (some res) ds) :
    ∃ uses refs : List Nat, uses.Sublist nodes ∧ (∀ m ∈ nodes, m ∈ uses ↔ LeadsTo f m (some d.node)) ∧
      Pointwise (IsReference f) uses refs ∧ refs.mapM f.range = some res := by
  induction nodes generalizing res ds with
  | nil =>
    cases (eval_pure.1 h).1
    exact ⟨[], [], .slnil, by simp, .nil, rfl⟩
  | cons n ns ih =>
    unfold usagesOf at h
    rw [eval_bind_some] at h
    obtain ⟨r, _, _, h1, h, -⟩ := h
    have hr := refProvider_eval hf h1
    have skip : ∀ {ds}, ¬ LeadsTo f n (some d.node) → Eval (analysisBody f) (usagesOf f d ns) (some res) ds →
        ∃ uses refs : List Nat, uses.Sublist (n :: ns) ∧ (∀ m ∈ n :: ns, m ∈ uses ↔ LeadsTo f m (some d.node)) ∧
          Pointwise (IsReference f) uses refs ∧ refs.mapM f.range = some res := by
      intro ds ht h
      obtain ⟨uses, refs, g1, g2, g3, g4⟩ := ih h
      refine ⟨uses, refs, g1.cons _, ?_, g3, g4⟩
      intro m hm
      by_cases e : m ∈ ns
      · exact g2 m e
      · have : m = n := by simpa [e] using hm
        subst this
        exact ⟨fun h => absurd (g1.subset h) e, fun h => absurd h ht⟩
    cases r with
    | none =>
      refine skip (fun ht => ?_) h
      obtain ⟨ref, href⟩ := target_reference ht
      exact hr ref href
    | some r =>
      simp only at h
      rw [eval_bind_some] at h
      obtain ⟨t, _, _, h2, h, -⟩ := h
      obtain ⟨g1, g2⟩ := resolveDeclaration_eval hf hr h2
      split at h
      · rename_i ht
        have ht : t = some d := by simpa using ht
        subst ht
        rw [eval_bind_some] at h
        obtain ⟨range, _, _, h3, h, -⟩ := h
        obtain ⟨h3, -⟩ := eval_lift.1 h3
        rw [eval_bind_some] at h
        obtain ⟨rest, _, _, h4, h, -⟩ := h
        cases (eval_pure.1 h).1
        obtain ⟨uses, refs, k1, k2, k3, k4⟩ := ih h4
        refine ⟨n :: uses, r.node :: refs, k1.cons_cons _, ?_, .cons hr.1 k3, by simp [h3, k4]⟩
        intro m hm
        by_cases e : m = n
        · subst e
          simp only [List.mem_cons, true_or, true_iff]
          exact g1
        · simp only [List.mem_cons, e, false_or]
          exact k2 m (by simpa [e] using hm)
      · rename_i hne
        refine skip (fun ht => hne ?_) h
        have e := leadsTo_unique hf g1 ht
        cases t with
        | none => cases e
        | some t =>
          simp only [Option.map_some, Option.some.injEq] at e
          have h1 := g2 t rfl
          rw [e, hd] at h1
          simp only [Option.some.injEq] at h1
          simp [h1]

end

/-! ## Finding usages does not panic -/

section
variable {f : File UInt8} (hf : ConsistentFile f) (hs : Shaped f)
  (hnames : ∀ n, OfType f 150 n ∨ OfType f 151 n → ∃ s, Ident f n s)
include hf hs hnames

omit hf hs in
theorem not_namelessItem {m : Nat} : ¬ NamelessItem f m := by
  rintro ⟨sel, s, ast, -, -, -, ⟨n, h1, h2⟩ | ⟨-, n, h1, h2⟩⟩
  · obtain ⟨s, hs⟩ := hnames n (.inl (firstChild_prop h1).1)
    exact h2 s hs
  · obtain ⟨s, hs⟩ := hnames n (.inr (firstChild_prop h1).1)
    exact h2 s hs

theorem safe_resolveDeclaration {n : Nat} {r : Reference} (hr : RefOf f n r) :
    Safe (analysisBody f) (resolveDeclaration f r) := by
  intro ds h
  exact not_namelessItem hnames ((resolveDeclaration_panic hf hs hr).1 ⟨ds, h⟩).2

theorem safe_providedTarget {n : Nat} (hn : IsNode f n) : Safe (analysisBody f) (providedTarget f n) := by
  refine safe_bind (safe_refProvider hf hs hn) fun r _ hr => ?_
  have hr := refProvider_eval hf hr
  cases r with
  | none => exact safe_pure _
  | some r => exact safe_resolveDeclaration hf hs hnames hr

theorem safe_declarationAt {n : Nat} (hn : IsNode f n) (offset : Nat) :
    Safe (analysisBody f) (declarationAt f offset n) := by
  obtain ⟨o, ho⟩ := defProvider_total hf hn (hnames n)
  refine safe_bind (safe_lift (by simp [ho])) fun v _ hv => ?_
  obtain ⟨hv, -⟩ := eval_lift.1 hv
  cases v with
  | none => exact safe_providedTarget hf hs hnames hn
  | some d =>
    obtain ⟨e, hsh, -⟩ := defProvider_some hf hv
    obtain ⟨r, hr⟩ := range_total (shown_range hf hsh)
    refine safe_bind (safe_lift (by simp [navigationRange, hr])) fun _ _ _ => ?_
    split
    · exact safe_pure _
    · exact safe_providedTarget hf hs hnames hn

theorem safe_usagesOf (d : Declaration) {nodes : List Nat} (hn : ∀ n ∈ nodes, IsNode f n) :
    Safe (analysisBody f) (usagesOf f d nodes) := by
  induction nodes with
  | nil => exact safe_pure _
  | cons n ns ih =>
    have ih := ih fun m hm => hn m (by simp [hm])
    refine safe_bind (safe_refProvider hf hs (hn n (by simp))) fun r _ hr => ?_
    have hr := refProvider_eval hf hr
    cases r with
    | none => exact ih
    | some r =>
      have hrn : IsNode f r.node := by
        cases hr.1 with
        | expr h => exact ofType_isNode h
        | method _ h => exact first_isNode hf h
        | call h => exact ofType_isNode h
      obtain ⟨range, hrange⟩ := range_total hrn
      refine safe_bind (safe_resolveDeclaration hf hs hnames hr) fun t _ ht => ?_
      split
      · exact safe_bind (safe_lift (by simp [hrange])) fun _ _ _ => safe_bind ih fun _ _ _ => safe_pure _
      · exact ih

end

end Fall
