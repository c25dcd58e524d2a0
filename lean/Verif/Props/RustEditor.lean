import Verif.Lemmas.RustEditor
import Verif.Props.Text
import Verif.Props.FallActions

/-! Properties of the editor features for Rust. -/

namespace Fall
open Spec

/-! ## C82: the semicolon of a `let` statement -/

theorem rest_head {f : File UInt8} (hf : ConsistentFile f) {n : Nat} (hn : IsNode f n) :
    ∃ t s, (Text.ofBuf f.text).sliceFrom (rng f n).stop = some t ∧ t.asStr = some s ∧
      s.head? = f.text[(rng f n).stop]? := by
  have h := C01_slice_suffix (Text.ofBuf f.text) (Text.ofBuf_wf f.text) f.text (Text.asStr_ofBuf f.text) (rng f n).stop
  rw [if_pos (node_range_le hf hn), Option.bind_eq_some_iff] at h
  obtain ⟨t, h1, h2⟩ := h
  exact ⟨t, _, h1, h2, by rw [List.head?_drop]⟩

/-- C82. After a space a semicolon is inserted exactly if the space is after the `let` of a statement that has neither
`=` nor `;` and is not followed by `;`. There is a panic exactly if the place before the caret is not in the file. -/
theorem C82_semicolon (f : File UInt8) (hf : ConsistentFile f) (offset : Nat) :
    (afterSpaceTyped f offset = none ↔ offset = 0 ∨ f.text.length < offset - 1) ∧
    ∀ res, afterSpaceTyped f offset = some res →
      (res = none ∨ res = some [59]) ∧
      (res = some [59] ↔ ∃ stmt, LetAt f (offset - 1) stmt ∧ Unfinished f stmt) := by
  have hp := leafBefore_panics hf (offset := offset) (back := 1)
  cases h : leafBefore f offset 1 with
  | none =>
    have e : afterSpaceTyped f offset = none := by simp [afterSpaceTyped, h]
    rw [e]
    have := hp.1 h
    refine ⟨by simp; omega, fun _ h => by cases h⟩
  | some o =>
    have hin : ¬ (offset < 1 ∨ f.text.length < offset - 1) := fun h' => by rw [hp.2 h'] at h; cases h
    obtain ⟨o', e', hl, hln⟩ := leafBefore_spec hf (offset := offset) (back := 1) (by omega) (by omega)
    rw [h, Option.some.injEq] at e'
    subst e'
    have fin : ∀ res, afterSpaceTyped f offset = some res →
        ((res = none ∨ res = some [59]) ∧
          (res = some [59] ↔ ∃ stmt, LetAt f (offset - 1) stmt ∧ Unfinished f stmt)) →
        (afterSpaceTyped f offset = none ↔ offset = 0 ∨ f.text.length < offset - 1) ∧
        ∀ res, afterSpaceTyped f offset = some res → (res = none ∨ res = some [59]) ∧
          (res = some [59] ↔ ∃ stmt, LetAt f (offset - 1) stmt ∧ Unfinished f stmt) := by
      intro res e hres
      rw [e]
      refine ⟨by simp; omega, fun res' h' => ?_⟩
      rw [Option.some.injEq] at h'
      exact h' ▸ hres
    cases o with
    | none =>
      refine fin none (by simp [afterSpaceTyped, h]) ⟨.inl rfl, by simp, ?_⟩
      rintro ⟨stmt, ⟨l, g, -⟩, -⟩
      cases (hl l).2 g
    | some l =>
      have hn := hln l rfl
      have huniq : ∀ l', Leftmost f (LeafAt f (offset - 1)) l' → l' = l := fun l' h' => by cases (hl l').2 h'; rfl
      by_cases hty : (dat f l).ty = 108
      · obtain ⟨s, e2, hs, hsn⟩ := astAncestor_innermost hf hn RTy.letStmt
        cases s with
        | none =>
          refine fin none (by simp [afterSpaceTyped, h, ty_dat hn, e2]) ⟨.inl rfl, by simp, ?_⟩
          rintro ⟨stmt, ⟨l', g1, -, g2⟩, -⟩
          cases huniq _ g1
          cases (hs stmt).2 g2
        | some stmt =>
          have hsn := hsn stmt rfl
          have hst := (hs stmt).1 rfl
          have hsu : ∀ stmt', LetAt f (offset - 1) stmt' → stmt' = stmt := by
            rintro stmt' ⟨l', g1, -, g2⟩
            cases huniq _ g1
            cases (hs stmt').2 g2
            rfl
          have hlet : LetAt f (offset - 1) stmt := ⟨l, (hl l).1 rfl, (ty_dat hn).trans (congrArg some hty), hst⟩
          have hfil := filterNodes_eq (f := f) (fun d => d.ty == RTy.semi || d.ty == RTy.eq) (kids_isNode hf hsn)
          obtain ⟨t, r, s1, s2, s3⟩ := rest_head hf hsn
          have hev : afterSpaceTyped f offset =
              if !((kids f stmt).filter fun c => (dat f c).ty == RTy.semi || (dat f c).ty == RTy.eq).isEmpty then some none
              else if f.text[(rng f stmt).stop]? == some 59 then some none else some (some [59]) := by
            unfold afterSpaceTyped
            have : ((dat f l).ty != RTy.let) = false := by simp [hty, RTy.let]
            simp only [h, Option.bind_eq_bind, Option.bind_some, ty_dat hn, this, Bool.false_eq_true, if_false, e2,
              children_kids hsn, hfil, range_rng hsn, s1, s2, s3]
            rfl
          by_cases hk : ((kids f stmt).filter fun c => (dat f c).ty == RTy.semi || (dat f c).ty == RTy.eq) = []
          · have hno : ∀ c, Child f stmt c → ¬ OfType f 152 c ∧ ¬ OfType f 157 c := by
              intro c hc
              have hcn := child_isNode hf hc
              obtain ⟨cs, e, hc⟩ := hc
              rw [children_kids hsn, Option.some.injEq] at e
              subst e
              have := List.filter_eq_nil_iff.1 hk c hc
              simp only [Bool.or_eq_true, beq_iff_eq, not_or] at this
              rw [OfType, OfType, ty_dat hcn, Option.some.injEq, Option.some.injEq]
              exact ⟨this.2, this.1⟩
            rw [hk] at hev
            by_cases hq : f.text[(rng f stmt).stop]? = some 59
            · refine fin none (by rw [hev]; simp [hq]) ⟨.inl rfl, by simp, ?_⟩
              rintro ⟨stmt', g1, -, g2⟩
              cases hsu _ g1
              exact absurd hq (g2 _ (range_rng hsn))
            · refine fin (some [59]) (by rw [hev]; simp [hq]) ⟨.inr rfl, fun _ => ⟨stmt, hlet, hno, fun r hr => ?_⟩,
                fun _ => rfl⟩
              rw [range_rng hsn, Option.some.injEq] at hr
              exact hr ▸ hq
          · refine fin none (by rw [hev, if_pos (by simpa [List.isEmpty_iff] using hk)]) ⟨.inl rfl, by simp, ?_⟩
            rintro ⟨stmt', g1, g2, -⟩
            cases hsu _ g1
            obtain ⟨c, hc⟩ := List.exists_mem_of_ne_nil _ hk
            rw [List.mem_filter] at hc
            have hcn := kids_isNode hf hsn c hc.1
            have := g2 c ⟨_, children_kids hsn, hc.1⟩
            rw [OfType, OfType, ty_dat hcn, Option.some.injEq, Option.some.injEq] at this
            simp only [Bool.or_eq_true, beq_iff_eq] at hc
            rcases hc.2 with h | h
            · exact absurd h this.2
            · exact absurd h this.1
      · refine fin none ?_ ⟨.inl rfl, by simp, ?_⟩
        · have : ¬ (dat f l).ty = RTy.let := hty
          simp [afterSpaceTyped, h, ty_dat hn, this]
        · rintro ⟨stmt, ⟨l', g1, g2, -⟩, -⟩
          cases huniq _ g1
          rw [OfType, ty_dat hn, Option.some.injEq] at g2
          exact absurd g2 hty

/-! ## C83: printing an expression -/

/-- C83. What is inserted for `$`: a statement that prints the expression statement before the caret, without its last
three bytes. There is a panic exactly if the statement is shorter. -/
theorem C83_expands (f : File UInt8) (hf : ConsistentFile f) (offset : Nat) (h2 : 2 ≤ offset)
    (hl : offset ≤ f.text.length) :
    (expandDebug f offset = some none ↔ ∀ stmt, ¬ StatementAt f (offset - 2) stmt) ∧
    ∀ stmt r, StatementAt f (offset - 2) stmt → f.range stmt = some r →
      if r.start + 3 ≤ r.stop then
        ∃ edit, expandDebug f offset = some (some edit) ∧ edit.apply (Text.ofBuf f.text) =
          some (f.text.take r.start ++ printStatement (bytes f.text r.start (r.stop - 3)) ++ f.text.drop offset)
      else expandDebug f offset = none := by
  obtain ⟨o, e, hlf, hln⟩ := leafBefore_spec hf (offset := offset) (back := 2) h2 (by omega)
  have key : ∀ stmt r, StatementAt f (offset - 2) stmt → f.range stmt = some r →
      if r.start + 3 ≤ r.stop then
        ∃ edit, expandDebug f offset = some (some edit) ∧ edit.apply (Text.ofBuf f.text) =
          some (f.text.take r.start ++ printStatement (bytes f.text r.start (r.stop - 3)) ++ f.text.drop offset)
      else expandDebug f offset = none := by
    rintro stmt r ⟨l, g1, g2⟩ hr
    have hol := (hlf l).2 g1
    subst hol
    have hn := hln l rfl
    obtain ⟨s, e2, hs, hsn⟩ := astAncestor_innermost hf hn RTy.exprStmt
    have hst := (hs stmt).2 g2
    subst hst
    have hsn := hsn stmt rfl
    rw [range_rng hsn, Option.some.injEq] at hr
    subst hr
    have hle := node_range_le hf hsn
    have hstart : (rng f stmt).start ≤ offset := by
      obtain ⟨⟨-, r, hr, ht, -⟩, -⟩ := g1
      rw [range_rng hn, Option.some.injEq] at hr
      subst hr
      have := (desc_range hf.nodes g2.1).1
      omega
    split
    · rename_i hlong
      have h3 : 3 ≤ (rng f stmt).stop := by omega
      have hpart : (rng f stmt).start ≤ (rng f stmt).stop - 3 := by omega
      have hpc := piece_copy (Text.ofBuf_wf f.text) (Text.asStr_ofBuf f.text) ⟨(rng f stmt).start, (rng f stmt).stop - 3⟩
      simp only [hpart, show (rng f stmt).stop - 3 ≤ f.text.length by omega, and_self, if_true, TextEditOp.piece,
        Option.bind_eq_some_iff] at hpc
      obtain ⟨t, hpc1, hpc2⟩ := hpc
      obtain ⟨fe, edit, k1, k2, k3⟩ := C23_replace_substring f hf ⟨(rng f stmt).start, offset⟩ hstart hl
        (debugPrint (bytes f.text (rng f stmt).start ((rng f stmt).stop - 3)))
      refine ⟨edit, ?_, k3⟩
      unfold expandDebug
      simp only [e, e2, Option.bind_eq_bind, Option.bind_some, range_rng hsn, unitSub, if_pos h3, TextRange.fromTo,
        if_pos hpart, hpc1, if_pos hstart, hpc2, k1, k2]
      rfl
    · rename_i hshort
      unfold expandDebug
      simp only [e, e2, Option.bind_eq_bind, Option.bind_some, range_rng hsn, unitSub]
      by_cases h3 : 3 ≤ (rng f stmt).stop
      · rw [if_pos h3]
        simp only [Option.bind_some, TextRange.fromTo]
        rw [if_neg (by omega)]
        rfl
      · rw [if_neg h3]
        rfl
  refine ⟨⟨fun h stmt hst => ?_, fun h => ?_⟩, key⟩
  · have hn : ∃ r, f.range stmt = some r := by
      obtain ⟨l, -, -, g, -⟩ := hst
      exact ⟨_, range_rng (ofType_isNode g)⟩
    obtain ⟨r, hr⟩ := hn
    have := key stmt r hst hr
    rw [h] at this
    split at this
    · obtain ⟨_, h, -⟩ := this
      cases h
    · cases this
  · cases o with
    | none => simp [expandDebug, e]
    | some l =>
      obtain ⟨s, e2, hs, hsn⟩ := astAncestor_innermost hf (hln l rfl) RTy.exprStmt
      cases s with
      | none => simp [expandDebug, e, e2]
      | some stmt => exact absurd ⟨l, (hlf l).1 rfl, (hs stmt).1 rfl⟩ (h stmt)

/-- C83. Before the third byte of a file there is a panic. -/
theorem C83_panics (f : File UInt8) (hf : ConsistentFile f) (offset : Nat)
    (h : offset < 2 ∨ f.text.length < offset - 2) : expandDebug f offset = none := by
  simp [expandDebug, (leafBefore_panics hf (back := 2)).2 h]

/-! ## C84: breadcrumbs -/

section
variable {f : File UInt8} (hf : ConsistentFile f)
include hf

theorem declCrumb_spec {n : Nat} (hn : IsNode f n) {ty : NodeType} (ht : OfType f ty n) {kw tag : List UInt8}
    (hk : crumbKeyword ty = some kw) (hkw : kw = tag ++ [32]) (hty : ty ≠ 208) :
    ∃ o, declCrumb f tag n = some o ∧ ∀ s, o = some s ↔ Crumb f n s := by
  have same : ∀ {t}, OfType f t n → t = ty := fun h => Option.some.inj (h.symm.trans ht)
  obtain ⟨o, h1, h2⟩ := rustName_spec hf hn
  cases o with
  | none =>
    refine ⟨none, by simp [declCrumb, h1], fun s => ⟨fun h => (by cases h), fun h => ?_⟩⟩
    cases h with
    | named _ _ h => cases (h2 _).2 h
    | implFor h => exact absurd (same h).symm hty
    | impl h => exact absurd (same h).symm hty
  | some name =>
    have hl := (h2 name).1 rfl
    refine ⟨some (kw ++ name), by simp [declCrumb, h1, hkw], fun s => ⟨fun h => ?_, fun h => ?_⟩⟩
    · cases h
      exact .named ht hk hl
    · cases h with
      | named g1 g2 g3 =>
        cases same g1
        rw [hk, Option.some.injEq] at g2
        rw [g2, labelled_unique g3 hl]
      | implFor h => exact absurd (same h).symm hty
      | impl h => exact absurd (same h).symm hty

theorem implCrumb_spec {n : Nat} (hn : IsNode f n) (ht : OfType f 208 n) :
    ∃ o, implCrumb f n = some o ∧ ∀ s, o = some s ↔ Crumb f n s := by
  have same : ∀ {t}, OfType f t n → t = 208 := fun h => Option.some.inj (h.symm.trans ht)
  obtain ⟨cs, h1, h2, -⟩ := astChildren_type hf hn RTy.typeReference
  have huniq : ∀ cs', ChildrenWith f n (OfType f 227) cs' → cs' = cs := fun _ h => childrenWith_unique hf hn h h2
  have hnode : ∀ c ∈ cs, IsNode f c := fun c hc => child_isNode hf (childrenWith_mem h2 c hc).1
  match cs, h1, h2, huniq, hnode with
  | [], h1, h2, huniq, _ =>
    refine ⟨none, by simp [implCrumb, h1], fun s => ⟨fun h => (by cases h), fun h => ?_⟩⟩
    cases h with
    | named g1 g2 => cases same g1; cases g2
    | implFor _ h => cases huniq _ h
    | impl _ h => cases huniq _ h
  | [a], h1, h2, huniq, hnode =>
    obtain ⟨s, hs⟩ := textOf_some hf (hnode a (by simp))
    refine ⟨some (ascii "impl " ++ s), by simp [implCrumb, h1, hs], fun t => ⟨fun h => ?_, fun h => ?_⟩⟩
    · cases h
      exact .impl ht h2 hs
    · cases h with
      | named g1 g2 => cases same g1; cases g2
      | implFor _ h => cases huniq _ h
      | impl _ h h' =>
        cases huniq _ h
        rw [hs, Option.some.injEq] at h'
        rw [h']
  | a :: b :: rest, h1, h2, huniq, hnode =>
    obtain ⟨s, hs⟩ := textOf_some hf (hnode a (by simp))
    obtain ⟨t, ht'⟩ := textOf_some hf (hnode b (by simp))
    refine ⟨some (ascii "impl " ++ s ++ ascii " for " ++ t), by simp [implCrumb, h1, hs, ht'],
      fun u => ⟨fun h => ?_, fun h => ?_⟩⟩
    · rw [← Option.some.inj h]
      exact .implFor ht h2 hs ht'
    · cases h with
      | named g1 g2 => cases same g1; cases g2
      | implFor _ h h' h'' =>
        cases huniq _ h
        rw [hs, Option.some.injEq] at h'
        rw [ht', Option.some.injEq] at h''
        rw [h', h'']
      | impl _ h h' => cases huniq _ h

theorem crumb_spec {n : Nat} (hn : IsNode f n) : ∃ o, crumb f n = some o ∧ ∀ s, o = some s ↔ Crumb f n s := by
  have ht : OfType f (dat f n).ty n := ty_dat hn
  unfold crumb
  simp only [ty_dat hn, Option.bind_eq_bind, Option.bind_some]
  split
  · rename_i h
    rw [beq_iff_eq] at h
    rw [h] at ht
    exact declCrumb_spec hf hn ht (kw := ascii "struct ") rfl (by decide) (by decide)
  split
  · rename_i h
    rw [beq_iff_eq] at h
    rw [h] at ht
    exact declCrumb_spec hf hn ht (kw := ascii "enum ") rfl (by decide) (by decide)
  split
  · rename_i h
    rw [beq_iff_eq] at h
    rw [h] at ht
    exact declCrumb_spec hf hn ht (kw := ascii "trait ") rfl (by decide) (by decide)
  split
  · rename_i h
    rw [beq_iff_eq] at h
    rw [h] at ht
    exact declCrumb_spec hf hn ht (kw := ascii "fn ") rfl (by decide) (by decide)
  split
  · rename_i h
    rw [beq_iff_eq] at h
    rw [h] at ht
    exact implCrumb_spec hf hn ht
  · rename_i h1 h2 h3 h4 h5
    simp only [beq_iff_eq] at h1 h2 h3 h4 h5
    refine ⟨none, rfl, fun s => ⟨fun h => (by cases h), fun h => ?_⟩⟩
    have same : ∀ {t}, OfType f t n → t = (dat f n).ty := fun h => Option.some.inj (h.symm.trans ht)
    cases h with
    | named g1 g2 =>
      rw [same g1] at g2
      unfold crumbKeyword at g2
      split at g2
      · rename_i e; exact absurd e h4
      · rename_i e; exact absurd e h1
      · rename_i e; exact absurd e h2
      · rename_i e; exact absurd e h3
      · cases g2
    | implFor g => exact absurd (same g).symm h5
    | impl g => exact absurd (same g).symm h5

theorem crumbs_spec (ns : List Nat) (hns : ∀ n ∈ ns, IsNode f n) :
    ∃ res nodes, crumbs f ns = some res ∧ nodes.Sublist ns ∧ Pointwise (Crumb f) nodes res ∧
      ∀ n ∈ ns, n ∈ nodes ↔ ∃ s, Crumb f n s := by
  induction ns with
  | nil => exact ⟨[], [], rfl, .slnil, .nil, by simp⟩
  | cons n ns ih =>
    obtain ⟨res, nodes, h1, h2, h3, h4⟩ := ih fun m hm => hns m (by simp [hm])
    obtain ⟨o, g1, g2⟩ := crumb_spec hf (hns n (by simp))
    have hall : ∀ {nodes : List Nat} {res}, Pointwise (Crumb f) nodes res → ∀ m ∈ nodes, ∃ s, Crumb f m s := by
      intro nodes res h
      induction h with
      | nil => simp
      | cons h _ ih =>
        intro m hm
        rcases List.mem_cons.1 hm with rfl | hm
        · exact ⟨_, h⟩
        · exact ih m hm
    cases o with
    | none =>
      refine ⟨res, nodes, by simp [crumbs, g1, h1], h2.cons _, h3, fun m hm => ⟨hall h3 m, ?_⟩⟩
      rintro ⟨s, hs⟩
      rcases List.mem_cons.1 hm with rfl | hm
      · cases (g2 s).2 hs
      · exact (h4 m hm).2 ⟨s, hs⟩
    | some s =>
      have hp : Pointwise (Crumb f) (n :: nodes) (s :: res) := .cons ((g2 s).1 rfl) h3
      refine ⟨s :: res, n :: nodes, by simp [crumbs, g1, h1], h2.cons_cons _, hp, fun m hm => ⟨hall hp m, ?_⟩⟩
      rintro ⟨s, hs⟩
      rcases List.mem_cons.1 hm with rfl | hm
      · simp
      · exact List.mem_cons_of_mem _ ((h4 m hm).2 ⟨s, hs⟩)

theorem ancestors_pairwise {l : Nat} (hl : IsNode f l) : ∃ as, f.ancestors l = some as ∧ (∀ a, a ∈ as ↔ Desc f a l) ∧
    as.Pairwise (fun x y => Desc f y x ∧ y ≠ x) := by
  obtain ⟨as, h1, -, h2, h3, h4⟩ := ancestors_spec hf.nodes l hl
  refine ⟨_, h1, h2, ?_⟩
  have hnode : ∀ a ∈ l :: as, IsNode f a := fun a ha => desc_isNode' hf ((h2 a).1 ha) hl
  have h5 : ∀ pre p post, l :: as = pre ++ p :: post → ∀ a ∈ p :: post, Desc f a p := fun a b c h x hx =>
    (h4 a b c h x).1 hx
  clear h1 h2 h4
  generalize l :: as = xs at h3 hnode h5
  induction xs with
  | nil => exact .nil
  | cons x xs ih =>
    refine List.pairwise_cons.2 ⟨fun y hy => ⟨h5 [] x xs rfl y (by simp [hy]), ?_⟩, ?_⟩
    · have : y < x := by
        cases xs with
        | nil => cases hy
        | cons z zs =>
          have hz := (parent_spec hf.nodes (hnode x (by simp)) h3.1).2.2
          have := desc_le hf.nodes (h5 [x] z zs rfl y hy)
          exact Nat.lt_of_le_of_lt this hz
      exact Nat.ne_of_lt this
    · refine ih ?_ (fun a ha => hnode a (by simp [ha])) (fun pre p post h => h5 (x :: pre) p post (by simp [h]))
      cases xs with
      | nil => trivial
      | cons z zs => exact h3.2

end

theorem Spec.Pointwise.reverse {R : α → β → Prop} {xs : List α} {ys : List β} (h : Pointwise R xs ys) :
    Pointwise R xs.reverse ys.reverse := by
  have app : ∀ {xs : List α} {ys : List β} {x y}, Pointwise R xs ys → R x y → Pointwise R (xs ++ [x]) (ys ++ [y]) := by
    intro xs ys x y h hr
    induction h with
    | nil => exact .cons hr .nil
    | cons h _ ih => exact .cons h ih
  induction h with
  | nil => exact .nil
  | cons h _ ih =>
    rw [List.reverse_cons, List.reverse_cons]
    exact app ih h

/-- C84. The breadcrumbs are those of the functions, structs, enums, traits and implementations around the leaf before
the caret, from the outside in. There is a panic exactly if the place before the caret is not in the file. -/
theorem C84_breadcrumbs (f : File UInt8) (hf : ConsistentFile f) (offset : Nat) :
    (breadcrumbs f offset = none ↔ offset = 0 ∨ f.text.length < offset - 1) ∧
    ∀ res, breadcrumbs f offset = some res → ∃ nodes, Pointwise (Crumb f) nodes res ∧
      (∀ n, n ∈ nodes ↔ (∃ s, Crumb f n s) ∧ ∃ l, Leftmost f (LeafAt f (offset - 1)) l ∧ Desc f n l) ∧
      nodes.Pairwise (fun x y => Desc f x y ∧ x ≠ y) := by
  have hp := leafBefore_panics hf (offset := offset) (back := 1)
  cases h : leafBefore f offset 1 with
  | none =>
    have e : breadcrumbs f offset = none := by simp [breadcrumbs, h]
    rw [e]
    have := hp.1 h
    refine ⟨by simp; omega, fun _ h => by cases h⟩
  | some o =>
    have hin : ¬ (offset < 1 ∨ f.text.length < offset - 1) := fun h' => by rw [hp.2 h'] at h; cases h
    obtain ⟨o', e', hl, hln⟩ := leafBefore_spec hf (offset := offset) (back := 1) (by omega) (by omega)
    rw [h, Option.some.injEq] at e'
    subst e'
    cases o with
    | none =>
      have e : breadcrumbs f offset = some [] := by simp [breadcrumbs, h]
      rw [e]
      refine ⟨by simp; omega, fun res hres => ?_⟩
      cases hres
      refine ⟨[], .nil, fun n => ⟨fun h => (by cases h), ?_⟩, .nil⟩
      rintro ⟨-, l, g, -⟩
      cases (hl l).2 g
    | some l =>
      have hn := hln l rfl
      obtain ⟨as, a1, a2, a3⟩ := ancestors_pairwise hf hn
      obtain ⟨res, nodes, g1, g2, g3, g4⟩ := crumbs_spec hf as fun a ha => desc_isNode' hf ((a2 a).1 ha) hn
      have e : breadcrumbs f offset = some res.reverse := by simp [breadcrumbs, h, a1, g1]
      rw [e]
      refine ⟨by simp; omega, fun res' hres => ?_⟩
      cases hres
      refine ⟨nodes.reverse, g3.reverse, fun n => ?_, ?_⟩
      · rw [List.mem_reverse]
        constructor
        · intro hm
          have := g2.subset hm
          exact ⟨(g4 n this).1 hm, l, (hl l).1 rfl, (a2 n).1 this⟩
        · rintro ⟨h1, l', h2, h3⟩
          cases (hl l').2 h2
          exact (g4 n ((a2 n).2 h3)).2 h1
      · rw [List.pairwise_reverse]
        exact a3.sublist g2

/-! ## C85: symbols -/

/-- The symbols that are given to the closure. -/
theorem symbols_fold {f : File UInt8} (hf : ConsistentFile f) {τ : Type} {add : List UInt8 → NodeId → Option τ}
    (hadd : ∀ name n, Declares f n name → ∃ t, add name n = some t) (l : List Nat) (hl : ∀ n ∈ l, IsNode f n)
    (acc : List τ) : ∃ ts nodes, l.foldlM (symbolNode f add) acc = some (acc ++ ts) ∧ nodes.Sublist l ∧
      Pointwise (fun n t => ∃ name, Declares f n name ∧ add name n = some t) nodes ts ∧
      ∀ n ∈ l, (∃ name, Declares f n name) → n ∈ nodes := by
  induction l generalizing acc with
  | nil => exact ⟨[], [], by simp, .slnil, .nil, by simp⟩
  | cons n l ih =>
    have hn := hl n (by simp)
    have same : ∀ {t}, OfType f t n → t = (dat f n).ty := fun h => Option.some.inj (h.symm.trans (ty_dat hn))
    obtain ⟨o, g1, g2⟩ := rustName_spec hf hn
    by_cases hd : ∃ name, Declares f n name
    · obtain ⟨name, hd⟩ := hd
      obtain ⟨t, ht⟩ := hadd name n hd
      have hdec := hd
      obtain ⟨ty, hty, h1, h2⟩ := hd
      cases same h1
      have := (g2 name).2 h2
      subst this
      obtain ⟨ts, nodes, h3, h4, h5, h6⟩ := ih (fun m hm => hl m (by simp [hm])) (acc ++ [t])
      refine ⟨t :: ts, n :: nodes, ?_, h4.cons_cons _, .cons ⟨name, hdec, ht⟩ h5, fun m hm h => ?_⟩
      · have hc : symbolTypes.contains (dat f n).ty = true := List.contains_iff_mem.2 hty
        have : symbolNode f add acc n = some (acc ++ [t]) := by
          simp only [symbolNode, ty_dat hn, Option.bind_eq_bind, Option.bind_some, hc, if_true, g1, ht]
          rfl
        rw [List.foldlM_cons, this]
        simpa using h3
      · rcases List.mem_cons.1 hm with rfl | hm
        · simp
        · exact List.mem_cons_of_mem _ (h6 m hm h)
    · obtain ⟨ts, nodes, h3, h4, h5, h6⟩ := ih (fun m hm => hl m (by simp [hm])) acc
      refine ⟨ts, nodes, ?_, h4.cons _, h5, fun m hm h => ?_⟩
      · have : symbolNode f add acc n = some acc := by
          simp only [symbolNode, ty_dat hn, Option.bind_eq_bind, Option.bind_some, g1]
          split
          · rename_i hc
            cases o with
            | none => rfl
            | some name =>
              exact absurd ⟨name, _, List.contains_iff_mem.1 hc, ty_dat hn, (g2 name).1 rfl⟩ hd
          · rfl
        rw [List.foldlM_cons, this]
        exact h3
      · rcases List.mem_cons.1 hm with rfl | hm
        · exact absurd h hd
        · exact h6 m hm h

/-- C85. The closure is called exactly once for every function, struct, enum, trait, type and module with a name, in
the order of the text (and from the inside out), and what it returns is listed in this order. -/
theorem C85_symbols {τ : Type} (f : File UInt8) (hf : ConsistentFile f) (add : List UInt8 → NodeId → Option τ)
    (hadd : ∀ name n, Declares f n name → ∃ t, add name n = some t) :
    ∃ ts nodes, processSymbols f add = some ts ∧
      Pointwise (fun n t => ∃ name, Declares f n name ∧ add name n = some t) nodes ts ∧ nodes.Nodup ∧
      (∀ n, n ∈ nodes ↔ ∃ name, Declares f n name) ∧
      nodes.Pairwise (fun x y => (Desc f y x ∧ x ≠ y) ∨ Before f x y) := by
  obtain ⟨l, -, h2, h3, -, h5, h6⟩ := C21_subtree f hf.nodes 0 (root_isNode hf.nodes)
  obtain ⟨ts, nodes, g1, g2, g3, g4⟩ := symbols_fold hf hadd l
    (fun n hn => desc_isNode hf.nodes ((h2 n).1 hn) (root_isNode hf.nodes)) []
  refine ⟨ts, nodes, (h6 _ _ _).trans (by simpa using g1), g3, h3.sublist g2, fun n => ⟨fun hn => ?_, ?_⟩,
    h5.sublist g2⟩
  · clear g1 g2 g4
    induction g3 with
    | nil => cases hn
    | cons h _ ih =>
      rcases List.mem_cons.1 hn with rfl | hn
      · obtain ⟨name, h, -⟩ := h
        exact ⟨name, h⟩
      · exact ih hn
  · rintro ⟨name, he⟩
    have := he
    obtain ⟨ty, -, ht, -⟩ := this
    exact g4 n ((h2 n).2 (root_desc hf.nodes (ofType_isNode ht))) ⟨name, he⟩

/-- C85. The outline never panics, and consists of these declarations with their names and ranges. -/
theorem C85_structure (f : File UInt8) (hf : ConsistentFile f) :
    ∃ entries nodes, rustStructure f = some entries ∧
      Pointwise (fun n e => Declares f n e.name ∧ f.range n = some e.range) nodes entries ∧ nodes.Nodup ∧
      (∀ n, n ∈ nodes ↔ ∃ name, Declares f n name) ∧
      nodes.Pairwise (fun x y => (Desc f y x ∧ x ≠ y) ∨ Before f x y) := by
  obtain ⟨ts, nodes, h1, h2, h3⟩ := C85_symbols f hf (fun name n => do
    let range ← f.range n
    return (⟨name, range⟩ : StructureNode)) (by
      rintro name n ⟨ty, -, ht, -⟩
      simp [range_rng (ofType_isNode ht)])
  refine ⟨ts, nodes, h1, h2.imp ?_, h3⟩
  rintro n _ e ⟨name, g1, g2⟩
  obtain ⟨r, hr, g2⟩ := Option.bind_eq_some_iff.1 g2
  cases g2
  exact ⟨g1, hr⟩

/-! ## C86: actions -/

section
variable {f : File UInt8} (hf : ConsistentFile f)
include hf

theorem astNodeAtOffset_spec {offset : Nat} (h : offset ≤ f.text.length) (ty : NodeType) :
    ∃ o, f.astNodeAtOffset (· == ty) f.root offset = some o ∧ (∀ n, o = some n ↔ NodeAt f offset ty n) ∧
      ∀ n, o = some n → IsNode f n := by
  obtain ⟨res, e, hmem, hpw, -, hnode⟩ := leaves_at hf h
  have hmem' : ∀ l, LeafAt f offset l → l ∈ res.toList := fun l h => (hmem l).2 h
  have e : f.findLeafAtOffset f.root offset = some res := e
  cases res with
  | none =>
    refine ⟨none, by simp [File.astNodeAtOffset, e], fun n => ⟨fun h => (by cases h), ?_⟩, fun n h => by cases h⟩
    rintro ⟨l, h, -⟩
    cases hmem' l h
  | single a =>
    have ha : ∀ l, LeafAt f offset l → l = a := fun l h => by simpa [LeafAtOffset.toList] using hmem' l h
    have hla : LeafAt f offset a := (hmem a).1 (by simp [LeafAtOffset.toList])
    have hn := hnode a (by simp [LeafAtOffset.toList])
    obtain ⟨o, h1, h2, h3⟩ := astAncestor_innermost hf hn ty
    refine ⟨o, by simp [File.astNodeAtOffset, e, h1], fun n => (h2 n).trans ⟨fun h => ?_, ?_⟩, h3⟩
    · refine ⟨a, hla, h, fun l' hl' _ r r' hr hr' => ?_⟩
      cases ha l' hl'
      rw [hr, Option.some.injEq] at hr'
      rw [hr']
      exact Nat.le_refl _
    · rintro ⟨l, h, h', -⟩
      cases ha l h
      exact h'
  | between a b =>
    have hab : ∀ l, LeafAt f offset l → l = a ∨ l = b := fun l h => by simpa [LeafAtOffset.toList] using hmem' l h
    have hla : LeafAt f offset a := (hmem a).1 (by simp [LeafAtOffset.toList])
    have hlb : LeafAt f offset b := (hmem b).1 (by simp [LeafAtOffset.toList])
    have hna := hnode a (by simp [LeafAtOffset.toList])
    have hnb := hnode b (by simp [LeafAtOffset.toList])
    have hlt : (rng f a).start < (rng f b).start := by
      simp only [LeafAtOffset.toList, List.pairwise_cons] at hpw
      exact hpw.1 b (by simp)
    obtain ⟨o, h1, h2, h3⟩ := astAncestor_innermost hf hna ty
    obtain ⟨o', h1', h2', h3'⟩ := astAncestor_innermost hf hnb ty
    cases o with
    | some m =>
      refine ⟨some m, by simp [File.astNodeAtOffset, e, h1], fun n => ⟨fun h => ?_, ?_⟩, h3⟩
      · refine ⟨a, hla, (h2 n).1 h, fun l' hl' _ r r' hr hr' => ?_⟩
        rw [range_rng hna, Option.some.injEq] at hr
        subst hr
        rcases hab l' hl' with rfl | rfl
        · rw [range_rng hna, Option.some.injEq] at hr'
          rw [← hr']
          exact Nat.le_refl _
        · rw [range_rng hnb, Option.some.injEq] at hr'
          rw [← hr']
          exact Nat.le_of_lt hlt
      · rintro ⟨l, h, h', hle⟩
        rcases hab l h with rfl | rfl
        · exact (h2 n).2 h'
        · have := hle a hla ⟨m, (h2 m).1 rfl⟩ _ _ (range_rng hnb) (range_rng hna)
          omega
    | none =>
      refine ⟨o', by simp [File.astNodeAtOffset, e, h1, h1'], fun n => (h2' n).trans ⟨fun h => ?_, ?_⟩, h3'⟩
      · refine ⟨b, hlb, h, fun l' hl' hex r r' hr hr' => ?_⟩
        rcases hab l' hl' with rfl | rfl
        · obtain ⟨m, hm⟩ := hex
          cases (h2 m).2 hm
        · rw [hr, Option.some.injEq] at hr'
          rw [hr']
          exact Nat.le_refl _
      · rintro ⟨l, h, h', -⟩
        rcases hab l h with rfl | rfl
        · cases (h2 n).2 h'
        · exact h'

theorem bracesTarget_spec {offset : Nat} (h : offset ≤ f.text.length) :
    ∃ o, bracesTarget f offset = some o ∧ (∀ n, o = some n ↔ BracesAt f offset n) ∧ ∀ n, o = some n → IsNode f n := by
  obtain ⟨o, h1, h2, h3⟩ := astNodeAtOffset_spec hf h RTy.useDecl
  cases o with
  | none =>
    refine ⟨none, by simp [bracesTarget, h1], fun n => ⟨fun h => (by cases h), ?_⟩, fun n h => by cases h⟩
    rintro ⟨decl, path, h, -⟩
    cases (h2 decl).2 h
  | some decl =>
    have hn := h3 decl rfl
    have hu : ∀ d, NodeAt f offset 193 d → d = decl := fun d h => by cases (h2 d).2 h; rfl
    obtain ⟨ps, p1, -, p2⟩ := astChildren_type hf hn RTy.path
    obtain ⟨us, u1, u2, -⟩ := astChildren_type hf hn RTy.useSpec
    cases hp : ps.head? with
    | none =>
      refine ⟨none, by simp [bracesTarget, h1, p1, hp], fun n => ⟨fun h => (by cases h), ?_⟩, fun n h => by cases h⟩
      rintro ⟨d, path, h, h', -⟩
      cases hu d h
      rw [(p2 path).2 h'] at hp
      cases hp
    | some path =>
      have hpath := (p2 path).1 hp
      have hpu : ∀ p, FirstChild f decl (OfType f 221) p → p = path := fun p h => firstChild_unique h hpath
      obtain ⟨ss, s1, -, s2⟩ := astChildren_type hf (first_isNode hf hpath) RTy.pathSegment
      cases hs : ss.head? with
      | none =>
        refine ⟨none, by simp [bracesTarget, h1, p1, hp, s1, hs], fun n => ⟨fun h => (by cases h), ?_⟩,
          fun n h => by cases h⟩
        rintro ⟨d, path, h, h', h'', -⟩
        cases hu d h
        cases hpu path h'
        rw [(s2 n).2 h''] at hs
        cases hs
      | some seg =>
        have hseg := (s2 seg).1 hs
        cases us with
        | nil =>
          refine ⟨some seg, by simp [bracesTarget, h1, p1, hp, s1, hs, u1], fun n => ⟨fun h => ?_, ?_⟩, fun n h => ?_⟩
          · cases h
            exact ⟨decl, path, (h2 decl).1 rfl, hpath, hseg, fun c hc => childrenWith_empty u2 c hc⟩
          · rintro ⟨d, path, h, h', h'', -⟩
            cases hu d h
            cases hpu path h'
            rw [firstChild_unique h'' hseg]
          · cases h
            exact first_isNode hf hseg
        | cons u us =>
          refine ⟨none, by simp [bracesTarget, h1, p1, hp, s1, hs, u1], fun n => ⟨fun h => (by cases h), ?_⟩,
            fun n h => by cases h⟩
          rintro ⟨d, path, h, h', h'', hno⟩
          cases hu d h
          obtain ⟨g1, g2⟩ := childrenWith_mem u2 u (by simp)
          exact absurd g2 (hno u g1)

theorem lifetimeNames_spec (ns : List Nat) (hns : ∀ n ∈ ns, IsNode f n) :
    (lifetimeNames f ns = none ↔ ∃ n ∈ ns, ∀ s, ¬ Labelled f n 186 s) ∧
    ∀ ss, lifetimeNames f ns = some ss → Pointwise (fun n s => Labelled f n 186 s) ns ss := by
  induction ns with
  | nil => exact ⟨by simp [lifetimeNames], fun ss h => by cases h; exact .nil⟩
  | cons n ns ih =>
    obtain ⟨i1, i2⟩ := ih fun m hm => hns m (by simp [hm])
    have hn := hns n (by simp)
    have hct : ∀ s, f.childText n 186 = some s ↔ Labelled f n 186 s := fun _ => childText_iff hf hn 186
    have e : lifetimeNames f (n :: ns) =
        (f.childText n 186).bind fun s => (lifetimeNames f ns).bind fun rest => some (s :: rest) := by
      simp only [lifetimeNames, File.childText, Option.bind_eq_bind, Option.bind_assoc]
      rfl
    rw [e]
    cases h : f.childText n 186 with
    | none =>
      refine ⟨⟨fun _ => ⟨n, by simp, fun s hs => ?_⟩, fun _ => rfl⟩, fun ss h => by cases h⟩
      rw [(hct s).2 hs] at h
      cases h
    | some s =>
      have hs := (hct s).1 h
      refine ⟨?_, fun ss h => ?_⟩
      · constructor
        · intro h
          cases hr : lifetimeNames f ns with
          | none =>
            obtain ⟨m, hm, h⟩ := i1.1 hr
            exact ⟨m, by simp [hm], h⟩
          | some rest => rw [hr] at h; cases h
        · rintro ⟨m, hm, hno⟩
          rcases List.mem_cons.1 hm with rfl | hm
          · exact absurd hs (hno s)
          · rw [i1.2 ⟨m, hm, hno⟩]; rfl
      · rw [Option.bind_some, Option.bind_eq_some_iff] at h
        obtain ⟨rest, hr, h⟩ := h
        cases h
        exact .cons hs (i2 rest hr)

theorem typeNames_spec (ns : List Nat) (hns : ∀ n ∈ ns, IsNode f n) :
    (typeNames f ns = none ↔ ∃ n ∈ ns, ∀ s, ¬ Labelled f n 191 s) ∧
    ∀ ss, typeNames f ns = some ss → Pointwise (fun n s => Labelled f n 191 s) ns ss := by
  induction ns with
  | nil => exact ⟨by simp [typeNames], fun ss h => by cases h; exact .nil⟩
  | cons n ns ih =>
    obtain ⟨i1, i2⟩ := ih fun m hm => hns m (by simp [hm])
    have hn := hns n (by simp)
    obtain ⟨o, h1, h2⟩ := rustName_spec hf hn
    cases o with
    | none =>
      have e : typeNames f (n :: ns) = none := by simp [typeNames, h1]
      rw [e]
      refine ⟨⟨fun _ => ⟨n, by simp, fun s hs => ?_⟩, fun _ => rfl⟩, fun ss h => by cases h⟩
      cases (h2 s).2 hs
    | some s =>
      have hs := (h2 s).1 rfl
      have e : typeNames f (n :: ns) = (typeNames f ns).bind fun rest => some (s :: rest) := by
        simp only [typeNames, h1, Option.bind_eq_bind, Option.bind_some]
        rfl
      rw [e]
      refine ⟨?_, fun ss h => ?_⟩
      · constructor
        · intro h
          cases hr : typeNames f ns with
          | none =>
            obtain ⟨m, hm, h⟩ := i1.1 hr
            exact ⟨m, by simp [hm], h⟩
          | some rest => rw [hr] at h; cases h
        · rintro ⟨m, hm, hno⟩
          rcases List.mem_cons.1 hm with rfl | hm
          · exact absurd hs (hno s)
          · rw [i1.2 ⟨m, hm, hno⟩]; rfl
      · rw [Option.bind_eq_some_iff] at h
        obtain ⟨rest, hr, h⟩ := h
        cases h
        exact .cons hs (i2 rest hr)

omit hf in
theorem commaSeparated_eq (ss : List (List UInt8)) : commaSeparated ss = (ascii ", ").intercalate ss := by
  have e : ascii ", " = [44, 32] := by decide
  rw [e]
  induction ss with
  | nil => rfl
  | cons s ss ih =>
    cases ss with
    | nil => simp [commaSeparated, List.intercalate]
    | cons t ss =>
      rw [commaSeparated, ih]
      · simp [List.intercalate]
      · simp

theorem implText_spec {decl : Nat} (hn : IsNode f decl) (name : List UInt8) :
    (NamedParameters f decl → ∃ header, ImplHeader f decl name header ∧
      implText f decl name = some (ascii "\n\n" ++ header ++ ascii " {\n\n}")) ∧
    (¬ NamedParameters f decl → implText f decl name = none) := by
  obtain ⟨ps, p1, -, p2⟩ := astChildren_type hf hn RTy.typeParameters
  cases hp : ps.head? with
  | none =>
    have hno : ∀ c, ¬ FirstChild f decl (OfType f 215) c := fun c hc => by rw [(p2 c).2 hc] at hp; cases hp
    refine ⟨fun _ => ⟨_, .plain hno, ?_⟩, fun h => absurd (fun params hp => absurd hp (hno params)) h⟩
    have e : ascii "\n\nimpl " = ascii "\n\n" ++ ascii "impl " := by decide
    simp [implText, p1, hp, e]
  | some params =>
    have hfirst := (p2 params).1 hp
    have hpn := first_isNode hf hfirst
    obtain ⟨text, ht⟩ := textOf_some hf hpn
    obtain ⟨ls, l1, l2, -⟩ := astChildren_type hf hpn RTy.lifetimeParameter
    obtain ⟨ts, t1, t2, -⟩ := astChildren_type hf hpn RTy.typeParameter
    obtain ⟨l3, l4⟩ := lifetimeNames_spec hf ls fun c hc => child_isNode hf (childrenWith_mem l2 c hc).1
    obtain ⟨t3, t4⟩ := typeNames_spec hf ts fun c hc => child_isNode hf (childrenWith_mem t2 c hc).1
    have hnamed : NamedParameters f decl ↔ lifetimeNames f ls ≠ none ∧ typeNames f ts ≠ none := by
      rw [ne_eq, ne_eq, l3, t3]
      constructor
      · refine fun h => ⟨?_, ?_⟩
        · rintro ⟨n, hn, hno⟩
          obtain ⟨g1, g2⟩ := childrenWith_mem l2 n hn
          obtain ⟨s, hs⟩ := (h params hfirst n g1).1 g2
          exact hno s hs
        · rintro ⟨n, hn, hno⟩
          obtain ⟨g1, g2⟩ := childrenWith_mem t2 n hn
          obtain ⟨s, hs⟩ := (h params hfirst n g1).2 g2
          exact hno s hs
      · rintro ⟨h1, h2⟩ params' hp' c hc
        cases firstChild_unique hp' hfirst
        refine ⟨fun h => ?_, fun h => ?_⟩
        · exact Classical.byContradiction fun hno => h1 ⟨c, childrenWith_has l2 hc h, fun s hs => hno ⟨s, hs⟩⟩
        · exact Classical.byContradiction fun hno => h2 ⟨c, childrenWith_has t2 hc h, fun s hs => hno ⟨s, hs⟩⟩
    rw [hnamed]
    cases hl : lifetimeNames f ls with
    | none =>
      refine ⟨fun h => absurd rfl h.1, fun _ => ?_⟩
      simp [implText, p1, hp, ht, implArguments, l1, hl]
    | some ns =>
      cases ht' : typeNames f ts with
      | none =>
        refine ⟨fun h => absurd rfl h.2, fun _ => ?_⟩
        simp [implText, p1, hp, ht, implArguments, l1, t1, ht']
      | some ms =>
        refine ⟨fun _ => ⟨_, .generic hfirst ht ⟨ls, ts, ns, ms, l2, t2, l4 ns hl, t4 ms ht', rfl⟩, ?_⟩,
          fun h => absurd ⟨by simp, by simp⟩ h⟩
        have e : ascii "\n\nimpl" = ascii "\n\n" ++ ascii "impl" := by decide
        have e1 : ascii " " = [32] := by decide
        have e2 : ascii "<" = [60] := by decide
        have e3 : ascii ">" = [62] := by decide
        simp [implText, p1, hp, ht, implArguments, l1, hl, t1, ht', commaSeparated_eq, e, e1, e2, e3]

/-- The outcome of `addImplFor` for one type of declaration. -/
theorem addImplFor_spec {offset : Nat} (h : offset ≤ f.text.length) (ty : NodeType) :
    ((∀ decl name, NodeAt f offset ty decl → ¬ Labelled f decl 191 name) → ∀ apply,
      addImplFor f ty offset apply = some none) ∧
    ∀ decl name r, NodeAt f offset ty decl → Labelled f decl 191 name → f.range decl = some r →
      addImplFor f ty offset false = some (some .available) ∧
      (NamedParameters f decl → ∃ header edit, ImplHeader f decl name header ∧
        addImplFor f ty offset true = some (some (.applied edit)) ∧ edit.apply (Text.ofBuf f.text) =
          some (f.text.take r.stop ++ (ascii "\n\n" ++ header ++ ascii " {\n\n}") ++ f.text.drop r.stop)) ∧
      (¬ NamedParameters f decl → addImplFor f ty offset true = none) := by
  obtain ⟨o, h1, h2, h3⟩ := astNodeAtOffset_spec hf h ty
  refine ⟨fun hno apply => ?_, fun decl name r hd hname hr => ?_⟩
  · cases o with
    | none => simp [addImplFor, h1]
    | some decl =>
      obtain ⟨o, g1, g2⟩ := rustName_spec hf (h3 decl rfl)
      cases o with
      | none => simp [addImplFor, h1, g1]
      | some name => exact absurd ((g2 name).1 rfl) (hno decl name ((h2 decl).1 rfl))
  · have := (h2 decl).2 hd
    subst this
    have hn := h3 decl rfl
    obtain ⟨o, g1, g2⟩ := rustName_spec hf hn
    have := (g2 name).2 hname
    subst this
    obtain ⟨i1, i2⟩ := implText_spec hf hn name
    refine ⟨by simp [addImplFor, h1, g1], fun hp => ?_, fun hp => ?_⟩
    · obtain ⟨header, k1, k2⟩ := i1 hp
      obtain ⟨edit, e1, e2⟩ := (C22_single_request f hf decl r hr (ascii "\n\n" ++ header ++ ascii " {\n\n}")).2.2
      refine ⟨header, edit, k1, ?_, e2⟩
      simp only [addImplFor, h1, g1, Option.bind_eq_bind, Option.bind_some, Bool.not_true, Bool.false_eq_true, if_false,
        k2, e1]
      rfl
    · simp [addImplFor, h1, g1, i2 hp]

end

/-- C86. "Add braces" is offered exactly in a use declaration with a path and without a list, and puts braces around
the last segment of the path. -/
theorem C86_braces (f : File UInt8) (hf : ConsistentFile f) (offset : Nat) (h : offset ≤ f.text.length) :
    ((∀ segment, ¬ BracesAt f offset segment) → ∀ apply, addUseBraces f offset apply = some none) ∧
    ∀ segment r, BracesAt f offset segment → f.range segment = some r →
      addUseBraces f offset false = some (some .available) ∧
      ∃ edit, addUseBraces f offset true = some (some (.applied edit)) ∧ edit.apply (Text.ofBuf f.text) =
        some (f.text.take r.start ++ (ascii "{" ++ bytes f.text r.start r.stop ++ ascii "}") ++ f.text.drop r.stop) := by
  obtain ⟨o, h1, h2, h3⟩ := bracesTarget_spec hf h
  refine ⟨fun hno apply => ?_, fun segment r hs hr => ?_⟩
  · cases o with
    | none => simp [addUseBraces, h1]
    | some seg => exact absurd ((h2 seg).1 rfl) (hno seg)
  · have := (h2 segment).2 hs
    subst this
    have hn := h3 segment rfl
    have ht := textOf_eq hf hn
    obtain ⟨edit, e1, e2⟩ := (C22_single_request f hf segment r hr ([123] ++ bytes f.text r.start r.stop ++ [125])).2.1
    rw [range_rng hn, Option.some.injEq] at hr
    subst hr
    refine ⟨by simp [addUseBraces, h1], edit, ?_, e2⟩
    simp only [addUseBraces, h1, Option.bind_eq_bind, Option.bind_some, Bool.not_true, Bool.false_eq_true, if_false, ht, e1]
    rfl

/-- C86. "Add impl" is offered exactly in the declaration of a struct or an enum with a name, and inserts an
implementation block after the declaration, with the parameters of the type. There is a panic exactly if it is
applied for a type that has a parameter without a name. -/
theorem C86_impl (f : File UInt8) (hf : ConsistentFile f) (offset : Nat) (h : offset ≤ f.text.length) :
    ((∀ decl name, ¬ TypeAt f offset decl name) → ∀ apply, addImpl f offset apply = some none) ∧
    ∀ decl name r, TypeAt f offset decl name → f.range decl = some r →
      addImpl f offset false = some (some .available) ∧
      (NamedParameters f decl → ∃ header edit, ImplHeader f decl name header ∧
        addImpl f offset true = some (some (.applied edit)) ∧ edit.apply (Text.ofBuf f.text) =
          some (f.text.take r.stop ++ (ascii "\n\n" ++ header ++ ascii " {\n\n}") ++ f.text.drop r.stop)) ∧
      (¬ NamedParameters f decl → addImpl f offset true = none) := by
  obtain ⟨s1, s2⟩ := addImplFor_spec hf h RTy.structDef
  obtain ⟨e1, e2⟩ := addImplFor_spec hf h RTy.enumDef
  refine ⟨fun hno apply => ?_, fun decl name r ht hr => ?_⟩
  · have hs : ∀ decl name, NodeAt f offset 202 decl → ¬ Labelled f decl 191 name := fun d n h h' => hno d n ⟨h', .inl h⟩
    have he : ∀ decl name, NodeAt f offset 205 decl → ¬ Labelled f decl 191 name := fun d n h h' =>
      hno d n ⟨h', .inr ⟨h, hs⟩⟩
    simp [addImpl, s1 hs, e1 he]
  · obtain ⟨hname, hd | ⟨hd, hs⟩⟩ := ht
    · obtain ⟨k1, k2, k3⟩ := s2 decl name r hd hname hr
      refine ⟨by simp [addImpl, k1], fun hp => ?_, fun hp => by simp [addImpl, k3 hp]⟩
      obtain ⟨header, edit, g1, g2, g3⟩ := k2 hp
      exact ⟨header, edit, g1, by simp [addImpl, g2], g3⟩
    · obtain ⟨k1, k2, k3⟩ := e2 decl name r hd hname hr
      have e := s1 hs
      refine ⟨by simp [addImpl, e, k1], fun hp => ?_, fun hp => by simp [addImpl, e, k3 hp]⟩
      obtain ⟨header, edit, g1, g2, g3⟩ := k2 hp
      exact ⟨header, edit, g1, by simp [addImpl, e, g2], g3⟩

theorem typeAt_isNode {f : File UInt8} {offset decl : Nat} {name : List UInt8} (h : TypeAt f offset decl name) :
    IsNode f decl := by
  obtain ⟨-, ⟨_, -, h, -⟩ | ⟨⟨_, -, h, -⟩, -⟩⟩ := h <;> exact ofType_isNode h.2.1

/-- C86. If no type at the caret has a parameter without a name, asking for the context actions and applying one never
panics; every action that is offered gives an edit for the text, and no other action does. -/
theorem C86_offered (f : File UInt8) (hf : ConsistentFile f) (isWs : NodeType → Bool) (q : TextRange)
    (hq : q.start ≤ f.text.length) (hp : ∀ decl name, TypeAt f q.start decl name → NamedParameters f decl)
    (id : String) :
    ∃ actions res, rustContextActions f isWs q = some actions ∧ rustApplyContextAction f isWs q id = some res ∧
      actions.Sublist ["Swap", "Add braces", "Add impl"] ∧
      (id ∈ actions ↔ ∃ edit, res = some edit) ∧
      ∀ edit, res = some edit → ∃ out, edit.apply (Text.ofBuf f.text) = some out := by
  have h1 := swap_dependable f hf isWs hq
  have h2 : Dependable f (addUseBraces f q.start) := by
    obtain ⟨g1, g2⟩ := C86_braces f hf q.start hq
    by_cases hb : ∃ segment, BracesAt f q.start segment
    · obtain ⟨segment, hb⟩ := hb
      obtain ⟨k1, edit, k2, k3⟩ := g2 segment _ hb (range_rng (by
        obtain ⟨_, _, -, -, h, -⟩ := hb
        exact first_isNode hf h))
      exact .inr ⟨k1, edit, _, k2, k3⟩
    · exact .inl (g1 fun segment h => hb ⟨segment, h⟩)
  have hx : Dependable f (addImpl f q.start) := by
    obtain ⟨g1, g2⟩ := C86_impl f hf q.start hq
    by_cases hb : ∃ decl name, TypeAt f q.start decl name
    · obtain ⟨decl, name, hb⟩ := hb
      obtain ⟨k1, k2, -⟩ := g2 decl name _ hb (range_rng (typeAt_isNode hb))
      obtain ⟨_, edit, -, k3, k4⟩ := k2 (hp decl name hb)
      exact .inr ⟨k1, edit, _, k3, k4⟩
    · exact .inl (g1 fun decl name h => hb ⟨decl, name, h⟩)
  have hfind1 : (f.defaultActions isWs).find? (fun a => a.1 == id) =
      if id = "Swap" then some ("Swap", f.swap isWs) else none := by
    simp only [File.defaultActions, List.find?_cons, List.find?_nil]
    by_cases hid : id = "Swap"
    · subst hid; simp
    · have : ("Swap" == id) = false := by simpa using fun h => hid h.symm
      simp [this, hid]
  have hfind2 : (rustActions f).find? (fun a => a.1 == id) =
      if id = "Add braces" then some ("Add braces", addUseBraces f)
      else if id = "Add impl" then some ("Add impl", addImpl f) else none := by
    simp only [rustActions, List.find?_cons, List.find?_nil]
    by_cases hid : id = "Add braces"
    · subst hid; simp
    · have h : ("Add braces" == id) = false := by simpa using fun h => hid h.symm
      by_cases hid' : id = "Add impl"
      · subst hid'; simp
      · have h' : ("Add impl" == id) = false := by simpa using fun h => hid' h.symm
        simp [h, h', hid, hid']
  unfold rustContextActions rustApplyContextAction File.applyDefaultContextAction File.defaultContextActions
  rw [hfind1, hfind2]
  simp only [File.defaultActions, rustActions, List.foldlM_cons, List.foldlM_nil]
  have strings : "Swap" ≠ "Add braces" ∧ "Swap" ≠ "Add impl" ∧ "Add braces" ≠ "Add impl" := by
    decide
  clear hp
  rcases h1 with h1 | ⟨h1, e1, o1, h1', h1''⟩ <;> rcases h2 with h2 | ⟨h2, e2, o2, h2', h2''⟩ <;>
    rcases hx with hx | ⟨hx, e3, o3, hx', hx''⟩ <;>
    by_cases i1 : id = "Swap" <;> by_cases i2 : id = "Add braces" <;> by_cases i3 : id = "Add impl" <;>
    simp_all [ActionResult.intoEdit, List.sublist_cons_self]
  all_goals decide

end Fall
