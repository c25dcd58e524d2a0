import Verif.Lemmas.GenerateNames

/-! The meaning of the generated module. -/

namespace Fall

open Spec AProg

theorem inAst_mono {f : File UInt8} {tys tys' : List NodeType} {i : Nat} (h : InAst f tys i)
    (hs : ∀ t ∈ tys, t ∈ tys') : InAst f tys' i := by
  obtain ⟨ast, ty, h1, h2, h3, h4⟩ := h
  exact ⟨ast, ty, h1, h2, hs ty h3, h4⟩

theorem inAst_one {f : File UInt8} {ty : NodeType} {i : Nat} (h : InAst f [ty] i) :
    ∃ ast, FirstChild f 0 (OfType f 149) ast ∧ Child f ast i ∧ OfType f ty i := by
  obtain ⟨ast, ty, h1, h2, h3, h4⟩ := h
  rw [List.mem_singleton] at h3
  subst h3
  exact ⟨ast, h1, h2, h4⟩

theorem childrenWith_has {f : File UInt8} {n c : Nat} {P : Nat → Prop} {cs : List Nat} (h : ChildrenWith f n P cs)
    (hc : Child f n c) (hp : P c) : c ∈ cs := by
  obtain ⟨all, h1, h2, h3⟩ := h
  obtain ⟨all', e, hc⟩ := hc
  rw [h1, Option.some.injEq] at e
  subst e
  exact (h3 c hc).2 hp

section
variable {t : File UInt8} (ht : ConsistentFile t)
include ht

theorem astChildren_wrap {n : Nat} (hn : IsNode t n) {wrap : NodeType → Bool} {P : NodeType → Prop}
    (hw : ∀ ty, wrap ty = true ↔ P ty) {xs : List Nat} :
    t.astChildren wrap n = some xs ↔ ChildrenWith t n (fun x => ∃ ty, OfType t ty x ∧ P ty) xs := by
  have key : ∀ {xs}, t.astChildren wrap n = some xs → ChildrenWith t n (fun x => ∃ ty, OfType t ty x ∧ P ty) xs := by
    intro xs h
    obtain ⟨all, h1, h2, h3⟩ := childrenWith_of ht hn h
    refine ⟨all, h1, h2, fun c hc => (h3 c hc).trans ?_⟩
    exact ⟨fun ⟨ty, h1, h2⟩ => ⟨ty, h1, (hw ty).1 h2⟩, fun ⟨ty, h1, h2⟩ => ⟨ty, h1, (hw ty).2 h2⟩⟩
  refine ⟨key, fun h => ?_⟩
  have e := astChildren_eq ht hn wrap
  rw [e, childrenWith_unique ht hn h (key e)]

end

section
variable {f : File UInt8} {g : GenFile} {upper escape : List UInt8 → List UInt8} (hf : ConsistentFile f)
  (hT : f.genTypes = some g.types) (hR : RestSays f escape g.rest) (hp : PlainNames f) (hu : UpperOn upper)

include hf hT hp in
theorem types_plain : ∀ t ∈ g.types, PlainName t.1 := fun t h =>
  hp.types _ t.1 (genTypes_names hf hT) (List.mem_map_of_mem h)

include hf hT hp hu in
theorem const_iff {s : List UInt8} (hs : PlainName s) {ty : NodeType} :
    g.const upper (scream s) = some ty ↔ ∃ k, TypeNumber f s k ∧ ty = 99 + k := by
  rw [const_eq hu (types_plain hf hT hp) hs, Option.map_eq_some_iff]
  constructor
  · rintro ⟨k, h, rfl⟩
    exact ⟨k, (typeNumber_iff hf hT).1 h, rfl⟩
  · rintro ⟨k, h, rfl⟩
    exact ⟨k, (typeNumber_iff hf hT).2 h, rfl⟩

theorem typeNumber_plain (hp : PlainNames f) {s : List UInt8} {k : Nat} (h : TypeNumber f s k) : PlainName s := by
  obtain ⟨a, b, h, -⟩ := h
  exact hp.types _ s h (by simp)

include hf hT hp hu in
theorem const_upper {s : List UInt8} {k : Nat} (h : TypeNumber f s k) : g.const upper (upper s) = some (99 + k) := by
  have hs := typeNumber_plain hp h
  rw [upper_eq hu hs, const_iff hf hT hp hu hs]
  exact ⟨k, h, rfl⟩

/-! ## Skipped types -/

include hf hT in
theorem find_skip {s : List UInt8} {b : Bool} (h : g.types.find? (·.1 == s) = some (s, b)) :
    b = true ↔ SkippedType f s := by
  have hT := hT
  simp only [File.genTypes, Option.bind_eq_bind, Option.bind_eq_some_iff, Option.pure_def, Option.some.injEq] at hT
  obtain ⟨ts, hts, toks, htoks, rules, hrules, rs, hrs, names, hnames, e⟩ := hT
  have hT := lexRules_tokens hf hts
  have hty := tokens_isNode hT
  rw [← e, List.find?_append, Option.or_eq_some_iff] at h
  have key : ∀ {ts toks}, (∀ t ∈ ts, OfType f 142 t) → (ts.mapM fun r => do
      return ((← f.lexNodeType r), (← f.hasAttr r (ascii "skip")))) = some toks →
      (∀ b, toks.find? (·.1 == s) = some (s, b) → ∃ t, First ts (fun t => Ident f t s) t ∧
        (b = true ↔ ∃ a, Attribute f t "skip" a)) ∧
      (toks.find? (·.1 == s) = none → ∀ t ∈ ts, ¬ Ident f t s) := by
    intro ts
    induction ts with
    | nil =>
      intro toks _ h
      simp only [List.mapM_nil, Option.pure_def, Option.some.injEq] at h
      subst h
      simp
    | cons t ts ih =>
      intro toks hty h
      simp only [List.mapM_cons, Option.bind_eq_bind, Option.bind_eq_some_iff, Option.pure_def, Option.some.injEq] at h
      obtain ⟨x, ⟨s', hs', b', hb', rfl⟩, xs, hxs, rfl⟩ := h
      have hn := ofType_isNode (hty t (by simp))
      have hi := (ident_iff hf hn).1 hs'
      have ih := ih (toks := xs) (fun t ht => hty t (by simp [ht])) (by simpa using hxs)
      rw [List.find?_cons]
      by_cases e : s' = s
      · subst e
        simp only [beq_self_eq_true, Option.some.injEq, Prod.mk.injEq, true_and, reduceCtorEq, false_implies, and_true]
        rintro b rfl
        exact ⟨t, ⟨[], ts, rfl, hi, by simp⟩, hasAttr_eval hf hn hb'⟩
      · have no : ¬ Ident f t s := fun h => e (labelled_unique hi h)
        simp only [beq_false_of_ne e]
        refine ⟨fun b h => ?_, fun h t' ht' => ?_⟩
        · obtain ⟨t', ⟨pre, post, h1, h2, h3⟩, h4⟩ := ih.1 b h
          refine ⟨t', ⟨t :: pre, post, by rw [h1]; rfl, h2, fun y hy => ?_⟩, h4⟩
          rcases List.mem_cons.1 hy with rfl | hy
          · exact no
          · exact h3 y hy
        · rcases List.mem_cons.1 ht' with rfl | ht'
          · exact no
          · exact ih.2 h t' ht'
  obtain ⟨k1, k2⟩ := key hty htoks
  rcases h with h | ⟨h, h'⟩
  · obtain ⟨t, h1, h2⟩ := k1 b h
    rw [h2]
    constructor
    · rintro ⟨a, ha⟩
      exact ⟨ts, t, a, hT, h1, ha⟩
    · rintro ⟨ts', t', a, g1, g2, g3⟩
      cases tokens_unique hf hT g1
      cases first_unique h1 g2
      exact ⟨a, g3⟩
  · have hb : b = false := by
      obtain ⟨x, hx, e⟩ := List.mem_map.1 (List.mem_of_find?_eq_some h')
      rw [Prod.mk.injEq] at e
      exact e.2.symm
    rw [hb]
    simp only [Bool.false_eq_true, false_iff]
    rintro ⟨ts', t', a, g1, ⟨pre, post, rfl, g2, -⟩, g3⟩
    cases tokens_unique hf hT g1
    exact k2 h t' (by simp) g2

include hf hT hp hu in
theorem typeInfo_iff {s : List UInt8} {k : Nat} (h : TypeNumber f s k) :
    ∃ b, g.typeInfo upper (99 + k) = some (upper s, b) ∧ (b = true ↔ SkippedType f s) := by
  have hs := typeNumber_plain hp h
  have h0 : 99 + k ≠ 0 := by omega
  have e : g.types.find? (fun t => g.const upper (upper t.1) == some (99 + k)) = g.types.find? (·.1 == s) := by
    have all := types_plain hf hT hp
    have : ∀ t ∈ g.types, (g.const upper (upper t.1) == some (99 + k)) = (t.1 == s) := by
      intro t ht
      rw [Bool.eq_iff_iff, beq_iff_eq, beq_iff_eq, upper_eq hu (all t ht), const_iff hf hT hp hu (all t ht)]
      constructor
      · rintro ⟨k', h1, h2⟩
        obtain rfl : k = k' := Nat.add_left_cancel h2
        have key : ∀ {s}, TypeNumber f s k → (g.types.map (·.1))[k - 1]? = some s := by
          rintro s ⟨ss1, ss2, g1, g2, rfl⟩
          rw [typeNames_unique hf (genTypes_names hf hT) g1]
          simp
        have := (key h1).symm.trans (key h)
        simpa using this
      · intro e
        exact ⟨k, e ▸ h, rfl⟩
    clear all
    generalize g.types = l at this
    induction l with
    | nil => rfl
    | cons x l ih =>
      rw [List.find?_cons, List.find?_cons, this x (by simp), ih fun t ht => this t (by simp [ht])]
  have hm : ∃ x, g.types.find? (·.1 == s) = some x := by
    obtain ⟨a, b, h, -⟩ := h
    have hN := typeNames_unique hf h (genTypes_names hf hT)
    have : s ∈ g.types.map (·.1) := by rw [← hN]; simp
    obtain ⟨x, hx, e⟩ := List.mem_map.1 this
    cases hfnd : g.types.find? (·.1 == s) with
    | some x => exact ⟨x, rfl⟩
    | none =>
      rw [List.find?_eq_none] at hfnd
      exact absurd (by simp [e]) (hfnd x hx)
  obtain ⟨⟨s', b⟩, hx⟩ := hm
  have e' : s' = s := by simpa using List.find?_some hx
  subst e'
  refine ⟨b, ?_, find_skip hf hT hx⟩
  rw [GenFile.typeInfo, if_neg h0, e, hx]
  rfl

/-! ## Wrapped types -/

theorem camelName_plain (hp : PlainNames f) {i : Nat} (hi : InAst f [150, 151, 152] i) {c s : List UInt8}
    (hc : CamelName f i c) (hs : PlainName s) (h : CamelCase s c) : Ident f i s := by
  obtain ⟨s', h1, h2⟩ := hc
  cases camel_inj hs (hp.items i s' hi h1) h h2
  exact h1

include hf hT hR hp hu in
theorem wraps_iff {s c : List UInt8} (hs : PlainName s) (h : CamelCase s c) {ty : NodeType} :
    g.Wraps upper c ty ↔ Denotes f s ty := by
  have hA := hR.ast
  constructor
  · intro hw
    induction hw generalizing s with
    | @node ast n ty h1 h2 h3 =>
      rw [h1] at hA
      obtain ⟨a, ns, cs, ts, k1, k2, k3, -⟩ := hA
      obtain ⟨i, hi, j1, ⟨s', j2, j3⟩, -⟩ := k3.mem h2
      obtain ⟨c1, c2⟩ := childrenWith_mem k2 i hi
      have hin : InAst f [150] i := ⟨a, 150, k1, c1, by simp, c2⟩
      have hid := camelName_plain hp (inAst_mono hin (by decide)) j1 hs h
      cases labelled_unique hid j2
      rw [screaming_iff.1 j3, const_iff hf hT hp hu hs] at h3
      obtain ⟨k, hk, rfl⟩ := h3
      exact .node hin hid hk
    | @variant ast cl v ty h1 h2 h3 h4 ih =>
      rw [h1] at hA
      obtain ⟨a, ns, cs, ts, k1, -, -, k2, k3, -⟩ := hA
      obtain ⟨i, hi, j1, names, j2, j3⟩ := k3.mem h2
      obtain ⟨c1, c2⟩ := childrenWith_mem k2 i hi
      have hin : InAst f [151] i := ⟨a, 151, k1, c1, by simp, c2⟩
      have hid := camelName_plain hp (inAst_mono hin (by decide)) j1 hs h
      obtain ⟨nm, hm, -, hc⟩ := j3.mem h3
      exact .variant hin hid j2 hm (ih (hp.variants i names nm hin j2 hm) hc)
  · intro hd
    induction hd generalizing c with
    | @node i s k hin hid hk =>
      obtain ⟨a, h1, h2, h3⟩ := inAst_one hin
      cases hg : g.rest.ast with
      | none =>
        rw [hg] at hA
        exact absurd h1 (hA a)
      | some ast =>
        rw [hg] at hA
        obtain ⟨a', ns, cs, ts, k1, k2, k3, -⟩ := hA
        cases firstChild_unique h1 k1
        obtain ⟨n, hn, ⟨s1, j1, j1'⟩, ⟨s2, j2, j2'⟩, -⟩ := pointwise_mem k3 (childrenWith_has k2 h2 h3)
        cases labelled_unique hid j1
        cases labelled_unique hid j2
        cases camelCase_unique h j1'
        refine .node hg hn ?_
        rw [screaming_iff.1 j2', const_iff hf hT hp hu hs]
        exact ⟨k, hk, rfl⟩
    | @variant i s vs v ty hin hid hv hm _ ih =>
      obtain ⟨a, h1, h2, h3⟩ := inAst_one hin
      cases hg : g.rest.ast with
      | none =>
        rw [hg] at hA
        exact absurd h1 (hA a)
      | some ast =>
        rw [hg] at hA
        obtain ⟨a', ns, cs, ts, k1, -, -, k2, k3, -⟩ := hA
        cases firstChild_unique h1 k1
        obtain ⟨n, hn, ⟨s1, j1, j1'⟩, names, j2, j3⟩ := pointwise_mem k3 (childrenWith_has k2 h2 h3)
        cases labelled_unique hid j1
        cases camelCase_unique h j1'
        obtain ⟨i1, is1, e1, e2⟩ := hv
        obtain ⟨i2, is2, e1', e2'⟩ := id j2
        cases childrenWith_unique hf (ofType_isNode h3) e1 e1'
        cases e2.unique e2' fun _ _ _ _ h h' => by rw [h] at h'; exact Option.some.inj h'
        obtain ⟨w, hw, -, hc⟩ := pointwise_mem j3 hm
        exact .variant hg hn hw (ih (hp.variants i vs v hin j2 hm) hc)

/-! ## Methods -/

include hf hT hp hu in
theorem tokenType_iff {tok : Nat} {s c : List UInt8} (hi : Ident f tok s) (hs : PlainName s) (hc : Screaming s c)
    {ty : NodeType} : g.const upper c = some ty ↔ TokenType f tok ty := by
  rw [screaming_iff.1 hc, const_iff hf hT hp hu hs]
  constructor
  · rintro ⟨k, h1, h2⟩
    exact ⟨s, k, hi, h1, h2⟩
  · rintro ⟨s', k, h1, h2, h3⟩
    cases labelled_unique hi h1
    exact ⟨k, h2, h3⟩

/-- Tokens that methods select have a type. -/
theorem tokenTyped_names {ss : List (List UInt8)} (hss : TypeNames f ss) {s' s : List UInt8} {tok : Nat}
    (h : TokenTyped f s' tok) (hi : Ident f tok s) : s ∈ ss := by
  obtain ⟨ts, rs, ss1, ss2, h1, h2, h3, h4, rfl⟩ := hss
  obtain ⟨d, hd, cs, hcs, pre, post, hsplit, ⟨hty, -⟩, -⟩ := h
  have hm : tok ∈ ts := by
    rcases h1 with ⟨d', hd', h1⟩ | ⟨hno, -⟩
    · cases firstChild_unique hd hd'
      exact childrenWith_has h1 ⟨cs, hcs, by simp [hsplit]⟩ hty
    · exact absurd hd (hno d)
  obtain ⟨s1, hm1, hi1⟩ := pointwise_mem h3 hm
  cases labelled_unique hi hi1
  simp [hm1]

/-- Names of what a method selects are usual ones. -/
def PlainKind (f : File UInt8) : MethodKind → Prop
  | .text t _ | .token t _ => ∀ s, Ident f t s → PlainName s ∧ ∃ k, TypeNumber f s k
  | .astNode n _ | .astClass n _ => ∀ s, Ident f n s → PlainName s

include hf hT hp in
theorem methodMeans_plain {m : Nat} {k : MethodKind} (h : MethodMeans f m (some k)) : PlainKind f k := by
  have hN := genTypes_names hf hT
  have hin := methodMeans_inAst h
  have tok : ∀ {s' t}, TokenTyped f s' t → ∀ s, Ident f t s → PlainName s ∧ ∃ k, TypeNumber f s k := by
    intro s' t h s hi
    have := tokenTyped_names hN h hi
    exact ⟨hp.types _ s hN this, typeNumber_of hN this⟩
  cases h with
  | astNode => exact fun s hi => hp.items _ s hin hi
  | astClass => exact fun s hi => hp.items _ s hin hi
  | token _ _ _ _ _ _ h _ => exact tok h
  | text _ _ _ _ _ _ h _ => exact tok h

section
variable {t : File UInt8} (ht : ConsistentFile t)
include hf hT hR hp hu ht

theorem runs_nodes {n i : Nat} (hn : IsNode t n) {s c : List UInt8} (hi : Ident f i s) (hs : PlainName s)
    (hc : CamelCase s c) {xs : List Nat} :
    (∃ wrap : NodeType → Bool, (∀ ty, wrap ty = true ↔ g.Wraps upper c ty) ∧ t.astChildren wrap n = some xs) ↔
      Selects f t n i xs := by
  classical
  constructor
  · rintro ⟨wrap, h1, h2⟩
    refine ⟨s, hi, (astChildren_wrap ht hn fun ty => (h1 ty).trans (wraps_iff hf hT hR hp hu hs hc)).1 h2⟩
  · rintro ⟨s', hi', h⟩
    cases labelled_unique hi hi'
    refine ⟨fun ty => decide (g.Wraps upper c ty), fun ty => decide_eq_true_iff, ?_⟩
    exact (astChildren_wrap ht hn fun ty => decide_eq_true_iff.trans (wraps_iff hf hT hR hp hu hs hc)).2 h

theorem runs_iff {n : Nat} (hn : IsNode t n) {k : MethodKind} (hk : PlainKind f k) {b : GenBody} (hb : BodySays f k b)
    {v : Option (MethodValue UInt8)} : MethodRuns g upper t n b v ↔ Accesses f t n k v := by
  have child : ∀ {ty x}, t.childOfType n ty = some (some x) ↔ FirstChild t n (OfType t ty) x :=
    fun {ty x} => childOfType_some ht hn ty (o := some x)
  have no : ∀ {ty}, t.childOfType n ty = some none ↔ ∀ x, ¬ FirstChild t n (OfType t ty) x :=
    fun {ty} => childOfType_some ht hn ty (o := none)
  cases hb with
  | text hi hc =>
    have e := fun ty => tokenType_iff hf hT hp hu hi (hk _ hi).1 hc (ty := ty)
    constructor
    · intro h
      cases h with
      | text h1 h2 h3 => exact .text ((e _).1 h1) (child.1 h2) h3
      | textPanic h1 h2 => exact .textPanic ((e _).1 h1) (no.1 h2)
    · intro h
      cases h with
      | text h1 h2 h3 => exact .text ((e _).2 h1) (child.2 h2) h3
      | textPanic h1 h2 => exact .textPanic ((e _).2 h1) (no.2 h2)
      | nodes h | optional h | single h | singlePanic h => simp at h
  | optionalText hi hc =>
    have e := fun ty => tokenType_iff hf hT hp hu hi (hk _ hi).1 hc (ty := ty)
    constructor
    · intro h
      cases h with
      | text h1 h2 h3 => exact .text ((e _).1 h1) (child.1 h2) h3
      | noText h1 h2 => exact .noText ((e _).1 h1) (no.1 h2)
    · intro h
      cases h with
      | text h1 h2 h3 => exact .text ((e _).2 h1) (child.2 h2) h3
      | noText h1 h2 => exact .noText ((e _).2 h1) (no.2 h2)
      | nodes h | optional h | single h | singlePanic h => simp at h
  | token hi hc =>
    have e := fun ty => tokenType_iff hf hT hp hu hi (hk _ hi).1 hc (ty := ty)
    constructor
    · intro h
      cases h with
      | token h1 h2 => exact .token ((e _).1 h1) (child.1 h2)
      | tokenPanic h1 h2 => exact .tokenPanic ((e _).1 h1) (no.1 h2)
    · intro h
      cases h with
      | token h1 h2 => exact .token ((e _).2 h1) (child.2 h2)
      | tokenPanic h1 h2 => exact .tokenPanic ((e _).2 h1) (no.2 h2)
      | nodes h | optional h | single h | singlePanic h => simp at h
  | optionalToken hi hc =>
    have e := fun ty => tokenType_iff hf hT hp hu hi (hk _ hi).1 hc (ty := ty)
    constructor
    · intro h
      cases h with
      | token h1 h2 => exact .token ((e _).1 h1) (child.1 h2)
      | noToken h1 h2 => exact .noToken ((e _).1 h1) (no.1 h2)
    · intro h
      cases h with
      | token h1 h2 => exact .token ((e _).2 h1) (child.2 h2)
      | noToken h1 h2 => exact .noToken ((e _).2 h1) (no.2 h2)
      | nodes h | optional h | single h | singlePanic h => simp at h
  | node hi hc =>
    have e := fun xs => runs_nodes hf hT hR hp hu ht hn hi (hk _ hi) hc (xs := xs)
    constructor
    · intro h
      cases h with
      | nodes h1 h2 => exact .nodes (by simp) ((e _).1 ⟨_, h1, h2⟩)
      | optional h1 h2 => exact .optional (by simp) ((e _).1 ⟨_, h1, h2⟩)
      | single h1 h2 => exact .single (by simp) ((e _).1 ⟨_, h1, h2⟩)
      | singlePanic h1 h2 => exact .singlePanic (by simp) ((e _).1 ⟨_, h1, h2⟩)
    · intro h
      cases h with
      | nodes h h2 =>
        simp only [List.mem_cons, MethodKind.astNode.injEq, reduceCtorEq, List.not_mem_nil, or_false] at h
        obtain ⟨rfl, rfl⟩ := h
        obtain ⟨w, h3, h4⟩ := (e _).2 h2
        exact .nodes h3 h4
      | optional h h2 =>
        simp only [List.mem_cons, MethodKind.astNode.injEq, reduceCtorEq, List.not_mem_nil, or_false] at h
        obtain ⟨rfl, rfl⟩ := h
        obtain ⟨w, h3, h4⟩ := (e _).2 h2
        exact .optional h3 h4
      | single h h2 =>
        simp only [List.mem_cons, MethodKind.astNode.injEq, reduceCtorEq, List.not_mem_nil, or_false] at h
        obtain ⟨rfl, rfl⟩ := h
        obtain ⟨w, h3, h4⟩ := (e _).2 h2
        exact .single h3 h4
      | singlePanic h h2 =>
        simp only [List.mem_cons, MethodKind.astNode.injEq, reduceCtorEq, List.not_mem_nil, or_false] at h
        obtain ⟨rfl, rfl⟩ := h
        obtain ⟨w, h3, h4⟩ := (e _).2 h2
        exact .singlePanic h3 h4
  | «class» hi hc =>
    have e := fun xs => runs_nodes hf hT hR hp hu ht hn hi (hk _ hi) hc (xs := xs)
    constructor
    · intro h
      cases h with
      | nodes h1 h2 => exact .nodes (by simp) ((e _).1 ⟨_, h1, h2⟩)
      | optional h1 h2 => exact .optional (by simp) ((e _).1 ⟨_, h1, h2⟩)
      | single h1 h2 => exact .single (by simp) ((e _).1 ⟨_, h1, h2⟩)
      | singlePanic h1 h2 => exact .singlePanic (by simp) ((e _).1 ⟨_, h1, h2⟩)
    · intro h
      cases h with
      | nodes h h2 =>
        simp only [List.mem_cons, MethodKind.astClass.injEq, reduceCtorEq, List.not_mem_nil, or_false, false_or] at h
        obtain ⟨rfl, rfl⟩ := h
        obtain ⟨w, h3, h4⟩ := (e _).2 h2
        exact .nodes h3 h4
      | optional h h2 =>
        simp only [List.mem_cons, MethodKind.astClass.injEq, reduceCtorEq, List.not_mem_nil, or_false, false_or] at h
        obtain ⟨rfl, rfl⟩ := h
        obtain ⟨w, h3, h4⟩ := (e _).2 h2
        exact .optional h3 h4
      | single h h2 =>
        simp only [List.mem_cons, MethodKind.astClass.injEq, reduceCtorEq, List.not_mem_nil, or_false, false_or] at h
        obtain ⟨rfl, rfl⟩ := h
        obtain ⟨w, h3, h4⟩ := (e _).2 h2
        exact .single h3 h4
      | singlePanic h h2 =>
        simp only [List.mem_cons, MethodKind.astClass.injEq, reduceCtorEq, List.not_mem_nil, or_false, false_or] at h
        obtain ⟨rfl, rfl⟩ := h
        obtain ⟨w, h3, h4⟩ := (e _).2 h2
        exact .singlePanic h3 h4

end

/-- A method has exactly one value at each node. -/
theorem accesses_total {t : File UInt8} (ht : ConsistentFile t) {n : Nat} (hn : IsNode t n) {k : MethodKind}
    (hk : PlainKind f k) (hi : ∃ s, Ident f (match k with
      | .text t _ => t | .token t _ => t | .astNode t _ => t | .astClass t _ => t) s)
    (hm : ∀ t, k ≠ .token t .many ∧ k ≠ .text t .many) : ∃ v, Accesses f t n k v := by
  have sel : ∀ {i s}, Ident f i s → ∃ xs, Selects f t n i xs := by
    intro i s hi
    obtain ⟨xs, h⟩ := childrenWith_total ht hn fun x => ∃ ty, OfType t ty x ∧ Denotes f s ty
    exact ⟨xs, s, hi, h⟩
  obtain ⟨s, hi⟩ := hi
  have nodes : ∀ {k i} {ar : ChildArity}, (k = .astNode i ar ∨ k = .astClass i ar) → Ident f i s →
      ∃ v, Accesses f t n k v := by
    intro k i ar e hi
    obtain ⟨xs, hx⟩ := sel hi
    cases ar with
    | many => exact ⟨_, .nodes (by rcases e with rfl | rfl <;> simp <;> rfl) hx⟩
    | optional => exact ⟨_, .optional (by rcases e with rfl | rfl <;> simp <;> rfl) hx⟩
    | single =>
      cases xs with
      | nil => exact ⟨_, .singlePanic (by rcases e with rfl | rfl <;> simp <;> rfl) hx⟩
      | cons x xs => exact ⟨_, .single (by rcases e with rfl | rfl <;> simp <;> rfl) hx⟩
  cases k with
  | astNode i ar => exact nodes (.inl rfl) hi
  | astClass i ar => exact nodes (.inr rfl) hi
  | text tok ar =>
    obtain ⟨-, k, hk⟩ := hk s hi
    have hty : TokenType f tok (99 + k) := ⟨s, k, hi, hk, rfl⟩
    by_cases hx : ∃ x, FirstChild t n (OfType t (99 + k)) x
    · obtain ⟨x, hx⟩ := hx
      obtain ⟨txt, htx⟩ := textOf_some ht (first_isNode ht hx)
      exact ⟨_, .text hty hx htx⟩
    · have hx : ∀ x, ¬ FirstChild t n (OfType t (99 + k)) x := fun x h => hx ⟨x, h⟩
      cases ar with
      | many => exact absurd rfl (hm tok).2
      | optional => exact ⟨_, .noText hty hx⟩
      | single => exact ⟨_, .textPanic hty hx⟩
  | token tok ar =>
    obtain ⟨-, k, hk⟩ := hk s hi
    have hty : TokenType f tok (99 + k) := ⟨s, k, hi, hk, rfl⟩
    by_cases hx : ∃ x, FirstChild t n (OfType t (99 + k)) x
    · obtain ⟨x, hx⟩ := hx
      exact ⟨_, .token hty hx⟩
    · have hx : ∀ x, ¬ FirstChild t n (OfType t (99 + k)) x := fun x h => hx ⟨x, h⟩
      cases ar with
      | many => exact absurd rfl (hm tok).1
      | optional => exact ⟨_, .noToken hty hx⟩
      | single => exact ⟨_, .tokenPanic hty hx⟩

theorem tokenType_unique (hf : ConsistentFile f) {tok : Nat} {ty ty' : NodeType} (h : TokenType f tok ty)
    (h' : TokenType f tok ty') : ty = ty' := by
  obtain ⟨s, k, h1, h2, rfl⟩ := h
  obtain ⟨s', k', h1', h2', rfl⟩ := h'
  cases labelled_unique h1 h1'
  rw [typeNumber_unique hf h2 h2']

theorem selects_unique {t : File UInt8} (ht : ConsistentFile t) {n i : Nat} (hn : IsNode t n) {xs xs' : List Nat}
    (h : Selects f t n i xs) (h' : Selects f t n i xs') : xs = xs' := by
  obtain ⟨s, h1, h2⟩ := h
  obtain ⟨s', h1', h2'⟩ := h'
  cases labelled_unique h1 h1'
  exact childrenWith_unique ht hn h2 h2'

theorem accesses_unique (hf : ConsistentFile f) {t : File UInt8} (ht : ConsistentFile t) {n : Nat} (hn : IsNode t n)
    {k : MethodKind} {v v' : Option (MethodValue UInt8)} (h : Accesses f t n k v) (h' : Accesses f t n k v') :
    v = v' := by
  cases h with
  | text h1 h2 h3 =>
    cases h' with
    | text g1 g2 g3 =>
      cases tokenType_unique hf h1 g1
      cases firstChild_unique h2 g2
      rw [h3, Option.some.injEq] at g3
      rw [g3]
    | noText g1 g2 | textPanic g1 g2 =>
      cases tokenType_unique hf h1 g1
      exact absurd h2 (g2 _)
    | nodes h | optional h | single h | singlePanic h => simp at h
  | noText h1 h2 =>
    cases h' with
    | text g1 g2 =>
      cases tokenType_unique hf h1 g1
      exact absurd g2 (h2 _)
    | noText => rfl
    | nodes h | optional h | single h | singlePanic h => simp at h
  | textPanic h1 h2 =>
    cases h' with
    | text g1 g2 =>
      cases tokenType_unique hf h1 g1
      exact absurd g2 (h2 _)
    | textPanic => rfl
    | nodes h | optional h | single h | singlePanic h => simp at h
  | token h1 h2 =>
    cases h' with
    | token g1 g2 =>
      cases tokenType_unique hf h1 g1
      cases firstChild_unique h2 g2
      rfl
    | noToken g1 g2 | tokenPanic g1 g2 =>
      cases tokenType_unique hf h1 g1
      exact absurd h2 (g2 _)
    | nodes h | optional h | single h | singlePanic h => simp at h
  | noToken h1 h2 =>
    cases h' with
    | token g1 g2 =>
      cases tokenType_unique hf h1 g1
      exact absurd g2 (h2 _)
    | noToken => rfl
    | nodes h | optional h | single h | singlePanic h => simp at h
  | tokenPanic h1 h2 =>
    cases h' with
    | token g1 g2 =>
      cases tokenType_unique hf h1 g1
      exact absurd g2 (h2 _)
    | tokenPanic => rfl
    | nodes h | optional h | single h | singlePanic h => simp at h
  | @nodes _ i xs hm h =>
    simp only [List.mem_cons, List.not_mem_nil, or_false] at hm
    cases h' with
    | nodes hm' h' =>
      rcases hm with rfl | rfl <;> simp at hm' <;> subst hm' <;> rw [selects_unique ht hn h h']
    | optional hm' h' | single hm' h' | singlePanic hm' h' => rcases hm with rfl | rfl <;> simp at hm'
    | _ => simp at hm
  | @optional _ i xs hm h =>
    simp only [List.mem_cons, List.not_mem_nil, or_false] at hm
    cases h' with
    | optional hm' h' =>
      rcases hm with rfl | rfl <;> simp at hm' <;> subst hm' <;> rw [selects_unique ht hn h h']
    | nodes hm' h' | single hm' h' | singlePanic hm' h' => rcases hm with rfl | rfl <;> simp at hm'
    | _ => simp at hm
  | @single _ i x xs hm h =>
    simp only [List.mem_cons, List.not_mem_nil, or_false] at hm
    cases h' with
    | single hm' h' =>
      rcases hm with rfl | rfl <;> simp at hm' <;> subst hm' <;> cases selects_unique ht hn h h' <;> rfl
    | singlePanic hm' h' =>
      rcases hm with rfl | rfl <;> simp at hm' <;> subst hm' <;> cases selects_unique ht hn h h'
    | nodes hm' h' | optional hm' h' => rcases hm with rfl | rfl <;> simp at hm'
    | _ => simp at hm
  | @singlePanic _ i hm h =>
    simp only [List.mem_cons, List.not_mem_nil, or_false] at hm
    cases h' with
    | single hm' h' =>
      rcases hm with rfl | rfl <;> simp at hm' <;> subst hm' <;> cases selects_unique ht hn h h'
    | singlePanic hm' h' => rfl
    | nodes hm' h' | optional hm' h' => rcases hm with rfl | rfl <;> simp at hm'
    | _ => simp at hm

end

end Fall
