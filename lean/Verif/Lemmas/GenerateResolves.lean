import Verif.Lemmas.GenerateModule

/-! When the names of the generated module are defined, and defined once. -/

namespace Fall

open Spec AProg

theorem pointwise_split {α β γ δ : Type} {R : α → β → Prop} {A : α → γ → Prop} {B : γ → δ → Prop} {φ : β → δ} {xs : List α} {ys : List β}
    (h : Pointwise R xs ys) (hs : ∀ x ∈ xs, ∀ y, R x y → ∃ z, A x z ∧ B z (φ y)) :
    ∃ zs, Pointwise A xs zs ∧ Pointwise B zs (ys.map φ) := by
  induction h with
  | nil => exact ⟨[], .nil, .nil⟩
  | cons h _ ih =>
    obtain ⟨z, h1, h2⟩ := hs _ (by simp) _ h
    obtain ⟨zs, h3, h4⟩ := ih fun x hx => hs x (by simp [hx])
    exact ⟨z :: zs, .cons h1 h3, .cons h2 h4⟩

theorem pointwise_appends {α β : Type} {R : α → β → Prop} {xs xs' : List α} {ys ys' : List β} (h : Pointwise R xs ys)
    (h' : Pointwise R xs' ys') : Pointwise R (xs ++ xs') (ys ++ ys') := by
  induction h with
  | nil => exact h'
  | cons h _ ih => exact .cons h ih

theorem pointwise_self {α β : Type} {R : α → β → Prop} {φ : α → β} {xs : List α} (h : ∀ x ∈ xs, R x (φ x)) :
    Pointwise R xs (xs.map φ) := by
  induction xs with
  | nil => exact .nil
  | cons x xs ih => exact .cons (h x (by simp)) (ih fun x hx => h x (by simp [hx]))

/-- A usual name and the name of its type. -/
def PlainCamel (s c : List UInt8) : Prop := PlainName s ∧ CamelCase s c

theorem plainCamel_iff {s s' c c' : List UInt8} (h : PlainCamel s c) (h' : PlainCamel s' c') : s = s' ↔ c = c' := by
  constructor
  · rintro rfl
    exact camelCase_unique h.2 h'.2
  · rintro rfl
    exact camel_inj h.1 h'.1 h.2 h'.2

/-- Whether the name is a usual one. -/
def plainName (s : List UInt8) : Bool :=
  (splitAtByte 95 s).all fun w =>
    match w with
    | [] => false
    | a :: rest => (97 ≤ a.toNat && a.toNat ≤ 122) &&
        rest.all fun b => (97 ≤ b.toNat && b.toNat ≤ 122) || (48 ≤ b.toNat && b.toNat ≤ 57)

theorem plain_of {s : List UInt8} (h : plainName s = true) : PlainName s := by
  refine ⟨_, words_iff.2 rfl, fun w hw => ?_⟩
  have := List.all_eq_true.1 h w hw
  cases w with
  | nil => cases this
  | cons a rest =>
    simp only [Bool.and_eq_true, List.all_eq_true, Bool.or_eq_true, decide_eq_true_iff] at this
    exact ⟨a, rest, rfl, this.1, this.2⟩

theorem plain_error : PlainName (ascii "error") := plain_of (by decide)

theorem plain_astNode : PlainName (ascii "ast_node") := plain_of (by decide)

section
variable {f : File UInt8} {g : GenFile} {upper escape : List UInt8 → List UInt8} (hf : ConsistentFile f)
  (hT : f.genTypes = some g.types) (hR : RestSays f escape g.rest) (hp : PlainNames f) (hu : UpperOn upper)

include hf hT hp hu in
theorem constants_nodup {ss : List (List UInt8)} (hss : TypeNames f ss) :
    (ascii "ERROR" :: (g.constants upper).map (·.1)).Nodup ↔ (ascii "error" :: ss).Nodup := by
  have e : (g.constants upper).map (·.1) = ss.map upper := by
    rw [typeNames_unique hf hss (genTypes_names hf hT), GenFile.constants, List.map_map, List.map_map,
      ← List.zipIdx_map_fst 0 g.types, List.map_map]
    simp only [List.zipIdx_map_fst]
    rfl
  rw [e]
  refine (nodup_map (R := fun s c => PlainName s ∧ c = scream s) (.cons ⟨plain_error, by decide⟩ (pointwise_self fun s hs =>
    ⟨hp.types _ s hss hs, upper_eq hu (hp.types _ s hss hs)⟩)) ?_).symm
  rintro s - s' - c c' ⟨h1, rfl⟩ ⟨h1', rfl⟩
  exact ⟨fun e => by rw [e], scream_inj h1 h1'⟩

include hp in
theorem items_names {β : Type} {ast : Nat} {ns : List Nat} {gs : List β} {φ : β → List UInt8} {ty : NodeType}
    {R : Nat → β → Prop} (hty : ty ∈ [150, 151, 152]) (ha : FirstChild f 0 (OfType f 149) ast)
    (hns : ChildrenWith f ast (OfType f ty) ns) (h : Pointwise R ns gs) (hR : ∀ i y, R i y → CamelName f i (φ y)) :
    ∃ names, Pointwise (Ident f) ns names ∧ Pointwise PlainCamel names (gs.map φ) :=
  pointwise_split h fun i hi y hr => by
    obtain ⟨s, h1, h2⟩ := hR i y hr
    obtain ⟨c1, c2⟩ := childrenWith_mem hns i hi
    exact ⟨s, h1, hp.items i s ⟨ast, ty, ha, c1, hty, c2⟩ h1, h2⟩

theorem childrenWith_isNode {n : Nat} {P : Nat → Prop} {cs : List Nat} (h : ChildrenWith f n P cs) : IsNode f n := by
  obtain ⟨all, h, -⟩ := h
  rcases Nat.lt_or_ge n f.nodes.length with hn | hn
  · exact hn
  · simp [File.children, File.data, List.getElem?_eq_none hn] at h

theorem variantNames_unique (hf : ConsistentFile f) {c : Nat} {vs vs' : List (List UInt8)} (h : VariantNames f c vs)
    (h' : VariantNames f c vs') : vs = vs' := by
  obtain ⟨i1, is1, e1, e2⟩ := h
  obtain ⟨i2, is2, e1', e2'⟩ := h'
  have hn := childrenWith_isNode e1
  cases childrenWith_unique hf hn e1 e1'
  exact e2.unique e2' fun _ _ _ _ h h' => by rw [h] at h'; exact Option.some.inj h'

include hf hR hp in
theorem contains_iff {a b c d : List UInt8} (h : PlainCamel a c) (h' : PlainCamel b d) :
    g.Contains c d ↔ HasVariant f a b := by
  have hA := hR.ast
  constructor
  · rintro ⟨ast, cl, v, h1, h2, h3, rfl, rfl⟩
    rw [h1] at hA
    obtain ⟨x, ns, cs, ts, k1, -, -, k2, k3, -⟩ := hA
    obtain ⟨i, hi, j1, names, j2, j3⟩ := k3.mem h2
    obtain ⟨c1, c2⟩ := childrenWith_mem k2 i hi
    have hin : InAst f [151] i := ⟨x, 151, k1, c1, by simp, c2⟩
    have hid := camelName_plain hp (inAst_mono hin (by decide)) j1 h.1 h.2
    obtain ⟨nm, hm, -, hc⟩ := j3.mem h3
    cases camel_inj (hp.variants i names nm hin j2 hm) h'.1 hc h'.2
    exact ⟨i, names, hin, hid, j2, hm⟩
  · rintro ⟨i, vs, hin, hid, hv, hm⟩
    obtain ⟨x, h1, h2, h3⟩ := inAst_one hin
    cases hg : g.rest.ast with
    | none =>
      rw [hg] at hA
      exact absurd h1 (hA x)
    | some ast =>
      rw [hg] at hA
      obtain ⟨x', ns, cs, ts, k1, -, -, k2, k3, -⟩ := hA
      cases firstChild_unique h1 k1
      obtain ⟨n, hn, ⟨s1, j1, j1'⟩, names, j2, j3⟩ := pointwise_mem k3 (childrenWith_has k2 h2 h3)
      cases labelled_unique hid j1
      cases variantNames_unique hf hv j2
      obtain ⟨w, hw, -, hc⟩ := pointwise_mem j3 hm
      exact ⟨ast, n, w, hg, hn, hw, camelCase_unique h.2 j1', camelCase_unique h'.2 hc⟩

include hR hp in
theorem contains_plain {c d : List UInt8} (h : g.Contains c d) : ∃ a b, PlainCamel a c ∧ PlainCamel b d := by
  have hA := hR.ast
  obtain ⟨ast, cl, v, h1, h2, h3, rfl, rfl⟩ := h
  rw [h1] at hA
  obtain ⟨x, ns, cs, ts, k1, -, -, k2, k3, -⟩ := hA
  obtain ⟨i, hi, ⟨s, j1, j1'⟩, names, j2, j3⟩ := k3.mem h2
  obtain ⟨c1, c2⟩ := childrenWith_mem k2 i hi
  have hin : InAst f [151] i := ⟨x, 151, k1, c1, by simp, c2⟩
  obtain ⟨nm, hm, -, hc⟩ := j3.mem h3
  exact ⟨s, nm, ⟨hp.items i s (inAst_mono hin (by decide)) j1, j1'⟩, hp.variants i names nm hin j2 hm, hc⟩

include hp in
theorem hasVariant_plain {a b : List UInt8} (h : HasVariant f a b) : ∃ c d, PlainCamel a c ∧ PlainCamel b d := by
  obtain ⟨i, vs, hin, hid, hv, hm⟩ := h
  have h1 := hp.items i a (inAst_mono hin (by decide)) hid
  have h2 := hp.variants i vs b hin hv hm
  have camel : ∀ {s}, PlainName s → ∃ c, PlainCamel s c := by
    intro s hs
    obtain ⟨ws, hw, hp⟩ := id hs
    have hnm : Nameable s := fun ws' hw' w hm => by
      obtain rfl : ws = ws' := (words_iff.1 hw).trans (words_iff.1 hw').symm
      obtain ⟨a, rest, rfl, h1, -⟩ := hp w hm
      exact ⟨a, rest, rfl, by have := h1.2; omega⟩
    obtain ⟨c, hc⟩ := nameable_iff.1 hnm
    exact ⟨c, hs, hc⟩
  obtain ⟨c, hc⟩ := camel h1
  obtain ⟨d, hd⟩ := camel h2
  exact ⟨c, d, hc, hd⟩

include hf hR hp in
theorem finite_iff : (∀ a, ¬ Relation.TransGen g.Contains a a) ↔ ∀ a, ¬ Relation.TransGen (HasVariant f) a a := by
  have to : ∀ {c d}, Relation.TransGen g.Contains c d →
      ∃ a b, PlainCamel a c ∧ PlainCamel b d ∧ Relation.TransGen (HasVariant f) a b := by
    intro c d h
    induction h with
    | single h =>
      obtain ⟨a, b, h1, h2⟩ := contains_plain hR hp h
      exact ⟨a, b, h1, h2, .single ((contains_iff hf hR hp h1 h2).1 h)⟩
    | tail _ h ih =>
      obtain ⟨a, b, h1, h2, h3⟩ := ih
      obtain ⟨b', d, h4, h5⟩ := contains_plain hR hp h
      cases (plainCamel_iff h2 h4).2 rfl
      exact ⟨a, d, h1, h5, .tail h3 ((contains_iff hf hR hp h2 h5).1 h)⟩
  have back : ∀ {a b}, Relation.TransGen (HasVariant f) a b →
      ∃ c d, PlainCamel a c ∧ PlainCamel b d ∧ Relation.TransGen g.Contains c d := by
    intro c d h
    induction h with
    | single h =>
      obtain ⟨a, b, h1, h2⟩ := hasVariant_plain hp h
      exact ⟨a, b, h1, h2, .single ((contains_iff hf hR hp h1 h2).2 h)⟩
    | tail _ h ih =>
      obtain ⟨a, b, h1, h2, h3⟩ := ih
      obtain ⟨b', d, h4, h5⟩ := hasVariant_plain hp h
      cases (plainCamel_iff h2 h4).1 rfl
      exact ⟨a, d, h1, h5, .tail h3 ((contains_iff hf hR hp h2 h5).2 h)⟩
  constructor
  · intro h a ha
    obtain ⟨c, d, h1, h2, h3⟩ := back ha
    cases (plainCamel_iff h1 h2).1 rfl
    exact h c h3
  · intro h a ha
    obtain ⟨c, d, h1, h2, h3⟩ := to ha
    cases (plainCamel_iff h1 h2).2 rfl
    exact h c h3

theorem methods_nodup {i : Nat} {gs : List GenMethod} (h : MethodsSay f i gs) (hf : ConsistentFile f) :
    (gs.map (·.name)).Nodup ↔ ∀ ms names, ChildrenWith f i (OfType f 153) ms → Pointwise (Ident f) ms names →
      names.Nodup := by
  obtain ⟨ms, h1, h2⟩ := h
  have hn := childrenWith_isNode h1
  obtain ⟨zs, k1, k2⟩ := pointwise_split (A := Ident f) (B := Eq) (φ := GenMethod.name) h2
    fun m _ y hy => ⟨y.name, hy.1, rfl⟩
  have e : zs = gs.map (·.name) := by
    clear k1
    generalize gs.map (·.name) = l at k2
    induction k2 with
    | nil => rfl
    | cons h _ ih => rw [h, ih]
  rw [e] at k1
  constructor
  · intro h ms' names h1' h2'
    cases childrenWith_unique hf hn h1 h1'
    rw [h2'.unique k1 fun _ _ _ _ => labelled_unique]
    exact h
  · exact fun h => h ms _ h1 k1

include hf hT hR hp hu in
theorem resolves_iff : g.Resolves upper ↔ WellNamed f := by
  have hN := genTypes_names hf hT
  have hA := hR.ast
  have hfin := finite_iff hf hR hp (g := g)
  cases hg : g.rest.ast with
  | none =>
    rw [hg] at hA
    have no : ∀ {tys i}, ¬ InAst f tys i := fun ⟨ast, _, h, _⟩ => hA ast h
    have vac : ∀ {P : GenAst → Prop}, ∀ ast, g.rest.ast = some ast → P ast := fun ast h => by rw [hg] at h; cases h
    constructor
    · intro h
      refine ⟨fun ss hss => (constants_nodup hf hT hp hu hss).1 h.constants, fun ast _ _ _ _ ha => absurd ha (hA ast),
        fun n s hn => absurd hn no, fun c vs hc => absurd hc no, hfin.1 h.finite, fun i ms names hi => absurd hi no⟩
    · intro h
      exact ⟨(constants_nodup hf hT hp hu hN).2 (h.types _ hN), vac, vac, vac, hfin.2 h.finite, vac, vac⟩
  | some ast =>
    rw [hg] at hA
    obtain ⟨x, ns, cs, ts, k1, kn, kn', kc, kc', kt, kt'⟩ := hA
    obtain ⟨nn, n1, n2⟩ := items_names (φ := GenNode.structName) hp (by decide) k1 kn kn' fun i y h => h.1
    obtain ⟨cn, c1, c2⟩ := items_names (φ := GenClass.enumName) hp (by decide) k1 kc kc' fun i y h => h.1
    obtain ⟨tn, t1, t2⟩ := items_names (φ := GenTrait.traitName) hp (by decide) k1 kt kt' fun i y h => h.1
    have one : ∀ {ty : NodeType} {l : List Nat} {i : Nat}, ChildrenWith f x (OfType f ty) l → (InAst f [ty] i ↔ i ∈ l) := by
      intro ty l i hl
      constructor
      · intro h
        obtain ⟨x', g1, g2, g3⟩ := inAst_one h
        cases firstChild_unique g1 k1
        exact childrenWith_has hl g2 g3
      · intro h
        obtain ⟨g1, g2⟩ := childrenWith_mem hl i h
        exact ⟨x, ty, k1, g1, by simp, g2⟩
    have two : ∀ {a b : NodeType} {i : Nat}, InAst f [a, b] i ↔ InAst f [a] i ∨ InAst f [b] i := by
      intro a b i
      constructor
      · rintro ⟨y, ty, g1, g2, g3, g4⟩
        simp only [List.mem_cons, List.not_mem_nil, or_false] at g3
        rcases g3 with rfl | rfl
        · exact .inl ⟨y, ty, g1, g2, by simp, g4⟩
        · exact .inr ⟨y, ty, g1, g2, by simp, g4⟩
      · rintro (h | h)
        · exact inAst_mono h (by simp)
        · exact inAst_mono h (by simp)
    have items : (ascii "AstNode" ::
        (ast.nodes.map (·.structName) ++ ast.classes.map (·.enumName) ++ ast.traits.map (·.traitName))).Nodup ↔
        (ascii "ast_node" :: (nn ++ cn ++ tn)).Nodup :=
      (nodup_map (.cons ⟨plain_astNode, camelCase_iff.2 (by decide)⟩ (pointwise_appends (pointwise_appends n2 c2) t2))
        fun _ _ _ _ _ _ h h' => plainCamel_iff h h').symm
    have node : (∀ n ∈ ast.nodes, ∃ ty, g.const upper n.typeName = some ty) ↔
        ∀ n s, InAst f [150] n → Ident f n s → ∃ k, TypeNumber f s k := by
      constructor
      · intro h n s hn hi
        obtain ⟨y, hy, -, ⟨s', j2, j3⟩, -⟩ := pointwise_mem kn' ((one kn).1 hn)
        cases labelled_unique hi j2
        obtain ⟨ty, hty⟩ := h y hy
        rw [screaming_iff.1 j3, const_iff hf hT hp hu (hp.items n s (inAst_mono hn (by decide)) hi)] at hty
        obtain ⟨k, hk, -⟩ := hty
        exact ⟨k, hk⟩
      · intro h y hy
        obtain ⟨n, hn, -, ⟨s, j2, j3⟩, -⟩ := kn'.mem hy
        have hin := (one kn).2 hn
        obtain ⟨k, hk⟩ := h n s hin j2
        exact ⟨99 + k, by rw [screaming_iff.1 j3, const_iff hf hT hp hu (hp.items n s (inAst_mono hin (by decide)) j2)]
                          exact ⟨k, hk, rfl⟩⟩
    have named : ∀ {v c : List UInt8}, PlainCamel v c →
        (c ∈ ast.nodes.map (·.structName) ++ ast.classes.map (·.enumName) ↔ ∃ i, InAst f [150, 151] i ∧ Ident f i v) := by
      intro v c hv
      have hpw := pointwise_appends n2 c2
      have hid := pointwise_appends n1 c1
      constructor
      · intro hm
        obtain ⟨s, hs, hsc⟩ := hpw.mem hm
        cases (plainCamel_iff hsc hv).2 rfl
        obtain ⟨i, hi, hii⟩ := hid.mem hs
        refine ⟨i, two.2 ?_, hii⟩
        rcases List.mem_append.1 hi with hi | hi
        · exact .inl ((one kn).2 hi)
        · exact .inr ((one kc).2 hi)
      · rintro ⟨i, hin, hi⟩
        have hm : i ∈ ns ++ cs := List.mem_append.2 ((two.1 hin).imp (one kn).1 (one kc).1)
        obtain ⟨s, hs, hsi⟩ := pointwise_mem hid hm
        cases labelled_unique hi hsi
        obtain ⟨c', hc', hcc⟩ := pointwise_mem hpw hs
        rw [(plainCamel_iff hv hcc).1 rfl]
        exact hc'
    have variants : (∀ c ∈ ast.classes, (c.variants.map (·.2)).Nodup ∧
          ∀ v ∈ c.variants, v.2 ∈ ast.nodes.map (·.structName) ++ ast.classes.map (·.enumName)) ↔
        ∀ c vs, InAst f [151] c → VariantNames f c vs → vs.Nodup ∧ ∀ v ∈ vs, ∃ i, InAst f [150, 151] i ∧ Ident f i v := by
      have each : ∀ {i y vs}, i ∈ cs → ClassSays f i y → VariantNames f i vs → Pointwise PlainCamel vs (y.variants.map (·.2)) := by
        rintro i y vs hi ⟨-, names, j2, j3⟩ hv
        cases variantNames_unique hf hv j2
        obtain ⟨zs, h1, h2⟩ := pointwise_split (A := Eq) (B := PlainCamel) (φ := Prod.snd) j3
          fun s hs v hv => ⟨s, rfl, hp.variants i vs s ((one kc).2 hi) j2 hs, hv.2⟩
        have e : zs = vs := by
          clear h2 j3 j2 hv
          induction h1 with
          | nil => rfl
          | cons h _ ih => rw [h, ih]
        exact e ▸ h2
      constructor
      · intro h c vs hc hv
        have hi := (one kc).1 hc
        obtain ⟨y, hy, hs⟩ := pointwise_mem kc' hi
        have hpw := each hi hs hv
        obtain ⟨h1, h2⟩ := h y hy
        refine ⟨(nodup_map hpw fun _ _ _ _ _ _ h h' => plainCamel_iff h h').2 h1, fun v hv => ?_⟩
        obtain ⟨c', hc', hcc⟩ := pointwise_mem hpw hv
        obtain ⟨w, hw, rfl⟩ := List.mem_map.1 hc'
        exact (named hcc).1 (h2 w hw)
      · intro h y hy
        obtain ⟨i, hi, hs⟩ := kc'.mem hy
        obtain ⟨-, names, j2, -⟩ := id hs
        have hpw := each hi hs j2
        obtain ⟨h1, h2⟩ := h i names ((one kc).2 hi) j2
        refine ⟨(nodup_map hpw fun _ _ _ _ _ _ h h' => plainCamel_iff h h').1 h1, fun v hv => ?_⟩
        obtain ⟨s, hs, hsc⟩ := hpw.mem (List.mem_map_of_mem hv)
        exact (named hsc).2 (h2 s hs)
    have methods : ((∀ n ∈ ast.nodes, (n.methods.map (·.name)).Nodup) ∧ ∀ t ∈ ast.traits, (t.methods.map (·.name)).Nodup) ↔
        ∀ i ms names, InAst f [150, 152] i → ChildrenWith f i (OfType f 153) ms → Pointwise (Ident f) ms names →
          names.Nodup := by
      constructor
      · rintro ⟨h1, h2⟩ i ms names hi
        rcases two.1 hi with hi | hi
        · obtain ⟨y, hy, hs⟩ := pointwise_mem kn' ((one kn).1 hi)
          exact (methods_nodup hs.2.2 hf).1 (h1 y hy) ms names
        · obtain ⟨y, hy, hs⟩ := pointwise_mem kt' ((one kt).1 hi)
          exact (methods_nodup hs.2.1 hf).1 (h2 y hy) ms names
      · intro h
        refine ⟨fun y hy => ?_, fun y hy => ?_⟩
        · obtain ⟨i, hi, hs⟩ := kn'.mem hy
          exact (methods_nodup hs.2.2 hf).2 fun ms names => h i ms names (two.2 (.inl ((one kn).2 hi)))
        · obtain ⟨i, hi, hs⟩ := kt'.mem hy
          exact (methods_nodup hs.2.1 hf).2 fun ms names => h i ms names (two.2 (.inr ((one kt).2 hi)))
    constructor
    · intro h
      refine ⟨fun ss hss => (constants_nodup hf hT hp hu hss).1 h.constants, fun ast' ns' cs' ts' names ha h1 h2 h3 h4 => ?_,
        node.1 (h.nodes ast hg), variants.1 (h.variants ast hg), hfin.1 h.finite,
        methods.1 ⟨h.nodeMethods ast hg, h.traitMethods ast hg⟩⟩
      cases firstChild_unique ha k1
      have hx := first_isNode hf k1
      cases childrenWith_unique hf hx h1 kn
      cases childrenWith_unique hf hx h2 kc
      cases childrenWith_unique hf hx h3 kt
      rw [h4.unique (pointwise_appends (pointwise_appends n1 c1) t1) fun _ _ _ _ => labelled_unique]
      exact items.1 (h.types ast hg)
    · intro h
      have fix : ∀ {P : GenAst → Prop}, P ast → ∀ a, g.rest.ast = some a → P a := fun hP a e => by
        rw [hg, Option.some.injEq] at e
        exact e ▸ hP
      exact ⟨(constants_nodup hf hT hp hu hN).2 (h.types _ hN),
        fix (items.2 (h.items x ns cs ts _ k1 kn kc kt (pointwise_appends (pointwise_appends n1 c1) t1))),
        fix (node.2 h.nodes), fix (variants.2 h.variants), hfin.2 h.finite, fix (methods.2 h.methods).1,
        fix (methods.2 h.methods).2⟩

end

end Fall
