import Verif.Spec.FallFormat
import Verif.Lemmas.FallEditor

/-! Lemmas about the formatter of grammars. -/

namespace Fall
open Spec

variable {f : File UInt8} (hf : ConsistentFile f)

/-- Two edits after another. -/
def FileEdit.plus (a b : FileEdit α) : FileEdit α :=
  ⟨a.inserted ++ b.inserted, a.replaced ++ b.replaced, a.deleted ++ b.deleted⟩

/-- The function adds requests to an edit. -/
def Adds (g : FileEdit UInt8 → Option (FileEdit UInt8)) (D R I : NodeId → Prop) : Prop :=
  ∃ d : FileEdit UInt8, (∀ e, g e = some (e.plus d)) ∧ (∀ m, m ∈ d.deleted ↔ D m) ∧
    (∀ m s, (m, s) ∈ d.replaced ↔ R m ∧ s = [32]) ∧ ∀ m s, (m, s) ∈ d.inserted ↔ I m ∧ s = [32]

theorem Adds.fold {τ : Type} {step : FileEdit UInt8 → τ → Option (FileEdit UInt8)} {D R I : τ → NodeId → Prop}
    {l : List τ} (h : ∀ x, x ∈ l → Adds (fun e => step e x) (D x) (R x) (I x)) :
    Adds (fun e => l.foldlM step e) (fun m => ∃ x, x ∈ l ∧ D x m) (fun m => ∃ x, x ∈ l ∧ R x m)
      (fun m => ∃ x, x ∈ l ∧ I x m) := by
  induction l with
  | nil => exact ⟨FileEdit.new, by simp [FileEdit.plus, FileEdit.new], by simp [FileEdit.new], by simp [FileEdit.new],
      by simp [FileEdit.new]⟩
  | cons x l ih =>
    obtain ⟨d1, a1, a2, a3, a4⟩ := h x (by simp)
    obtain ⟨d2, b1, b2, b3, b4⟩ := ih fun y hy => h y (by simp [hy])
    refine ⟨d1.plus d2, fun e => ?_, ?_, ?_, ?_⟩
    · simp only [List.foldlM_cons, a1, Option.bind_eq_bind, Option.bind_some, b1]
      simp [FileEdit.plus]
    · intro m
      simp [FileEdit.plus, a2, b2]
    · intro m s
      simp [FileEdit.plus, a3, b3, ← or_and_right]
    · intro m s
      simp [FileEdit.plus, a4, b4, ← or_and_right]

/-- Where a rule applies: the node for the spaces and the node before. -/
def Place (f : File UInt8) (rule : SpacingRule) (n : NodeId) (sp : Spaces) (ws before : NodeId) : Prop :=
  match rule with
  | .after ty sp' => OfType f ty n ∧ NextTo f n ws ∧ before = n ∧ sp = sp'
  | .before ty sp' => OfType f ty n ∧ NextTo f ws n ∧ before = ws ∧ sp = sp'

theorem isNode_of_children {p : Nat} {cs : List Nat} (h : f.children p = some cs) : IsNode f p := by
  simp only [File.children, File.data, Option.map_eq_some_iff] at h
  obtain ⟨d, h, -⟩ := h
  exact isNode_of_getElem h

include hf

theorem nextTo_iff {a b : Nat} : NextTo f a b ↔ IsNode f a ∧ f.sibling a .right = some (some b) := by
  constructor
  · rintro ⟨p, pre, post, h⟩
    have hp : IsNode f p := isNode_of_children h
    have hk : kids f p = pre ++ a :: b :: post := by
      rw [children_kids hp, Option.some.injEq] at h
      exact h
    have ha := kids_isNode hf hp a (by rw [hk]; simp)
    exact ⟨ha, (sibling_at hf.nodes hp hk).2⟩
  · rintro ⟨ha, h⟩
    cases hpar : (dat f a).parent with
    | none =>
      simp [File.sibling, File.childPosition, File.parent, data_dat ha, hpar] at h
    | some p =>
      obtain ⟨pre, post, h1, h2, h3⟩ := sibling_eq hf.nodes ha hpar
      rw [h3, Option.some.injEq] at h
      cases post with
      | nil => cases h
      | cons c post =>
        cases h
        obtain ⟨hp, -⟩ := parent_spec hf.nodes ha hpar
        exact ⟨p, pre, post, by rw [children_kids hp, h1]⟩

theorem prevTo_iff {a b : Nat} : NextTo f a b ↔ IsNode f b ∧ f.sibling b .left = some (some a) := by
  constructor
  · rintro ⟨p, pre, post, h⟩
    have hp : IsNode f p := isNode_of_children h
    have hk : kids f p = (pre ++ [a]) ++ b :: post := by
      rw [children_kids hp, Option.some.injEq] at h
      simpa using h
    have ha := kids_isNode hf hp b (by rw [hk]; simp)
    exact ⟨ha, by simpa using (sibling_at hf.nodes hp hk).1⟩
  · rintro ⟨ha, h⟩
    cases hpar : (dat f b).parent with
    | none =>
      simp [File.sibling, File.childPosition, File.parent, data_dat ha, hpar] at h
    | some p =>
      obtain ⟨pre, post, h1, h2, h3⟩ := sibling_eq hf.nodes ha hpar
      rw [h2, Option.some.injEq] at h
      obtain ⟨pre, rfl⟩ := List.getLast?_eq_some_iff.1 h
      obtain ⟨hp, -⟩ := parent_spec hf.nodes ha hpar
      exact ⟨p, pre, post, by rw [children_kids hp, h1]; simp⟩

theorem sibling_total {n : Nat} (hn : IsNode f n) (dir : Direction) : ∃ o, f.sibling n dir = some o := by
  cases hpar : (dat f n).parent with
  | none => exact ⟨none, by simp [File.sibling, File.childPosition, File.parent, data_dat hn, hpar]⟩
  | some p =>
    obtain ⟨pre, post, h1, h2, h3⟩ := sibling_eq hf.nodes hn hpar
    cases dir
    · exact ⟨_, h2⟩
    · exact ⟨_, h3⟩

omit hf in
theorem oneLine_iff {n : Nat} {s : List UInt8} (h : f.textOf n = some s) : OneLine f n ↔ s.contains newlineByte = false := by
  constructor
  · rintro ⟨s', h', h1⟩
    rw [h] at h'
    cases h'
    simpa [newlineByte] using h1
  · intro h1
    exact ⟨s, h, by simpa [newlineByte] using h1⟩

omit hf in
theorem ofType_iff {n : Nat} (hn : IsNode f n) {ty : NodeType} : OfType f ty n ↔ ((dat f n).ty == ty) = true := by
  simp [OfType, ty_dat hn]

theorem spacerRule_adds {n : Nat} (hn : IsNode f n) (rule : SpacingRule) :
    Adds (fun e => spacerRule f 100 n e rule)
      (fun m => ∃ b, Place f rule n .none m b ∧ OneLine f m ∧ OfType f 100 m)
      (fun m => ∃ b, Place f rule n .single m b ∧ OneLine f m ∧ OfType f 100 m ∧ ∃ s, f.textOf m = some s ∧ s.length ≠ 1)
      (fun b => ∃ m, Place f rule n .single m b ∧ OneLine f m ∧ ¬ OfType f 100 m) := by
  obtain ⟨right, hr⟩ := sibling_total hf hn .right
  obtain ⟨left, hl⟩ := sibling_total hf hn .left
  have hplace : ∀ sp ws b, Place f rule n sp ws b ↔ rule.place n (dat f n).ty right left = some (sp, ws, b) := by
    intro sp ws b
    cases rule with
    | after ty sp' =>
      simp only [Place, SpacingRule.place, nextTo_iff hf, ofType_iff hn, hr, hn, true_and, Option.some.injEq]
      cases right with
      | none => simp
      | some r =>
        by_cases h : (dat f n).ty = ty
        · simp [h]; grind
        · simp [h, Ne.symm h]
    | before ty sp' =>
      simp only [Place, SpacingRule.place, prevTo_iff hf, ofType_iff hn, hl, hn, true_and, Option.some.injEq]
      cases left with
      | none => simp
      | some r =>
        by_cases h : (dat f n).ty = ty
        · simp [h]; grind
        · simp [h, Ne.symm h]
  simp only [hplace]
  cases hp : rule.place n (dat f n).ty right left with
  | none =>
    refine ⟨FileEdit.new, fun e => ?_, by simp [FileEdit.new], by simp [FileEdit.new], by simp [FileEdit.new]⟩
    simp [spacerRule, ty_dat hn, hr, hl, hp, FileEdit.new, FileEdit.plus]
  | some v =>
    obtain ⟨sp, ws, b⟩ := v
    have hws : IsNode f ws := by
      have := (hplace sp ws b).2 hp
      cases rule with
      | after => exact ((prevTo_iff hf).1 this.2.1).1
      | before => exact ((nextTo_iff hf).1 this.2.1).1
    obtain ⟨s, hs⟩ := textOf_some hf hws
    have hstep : ∀ e, spacerRule f 100 n e rule = _ := fun e => by
      simp only [spacerRule, ty_dat hn, hr, hl, hp, hs, ty_dat hws, Option.bind_eq_bind, Option.bind_some]
      rfl
    have hone := oneLine_iff hs
    have hty := ofType_iff hws (ty := 100)
    have hlen : (∃ s, f.textOf ws = some s ∧ s.length ≠ 1) ↔ s.length ≠ 1 := by simp [hs]
    simp only [hstep]
    have pick : ∀ (sp' : Spaces) (m b' : Nat) , some (sp, ws, b) = some (sp', m, b') ↔ sp = sp' ∧ m = ws ∧ b' = b := by
      intro sp' m b'; simp; grind
    simp only [pick]
    by_cases h1 : s.contains newlineByte = true
    · have : ¬ OneLine f ws := by rw [hone, h1]; simp
      refine ⟨FileEdit.new, fun e => by (try dsimp only); rw [if_pos h1]; simp [FileEdit.new, FileEdit.plus, pure], ?_, ?_, ?_⟩ <;>
        simp [FileEdit.new] <;> grind
    · have h1' : OneLine f ws := by rw [hone]; simpa using h1
      cases sp with
      | none =>
        by_cases h2 : ((dat f ws).ty == 100) = true
        · refine ⟨⟨[], [], [ws]⟩, fun e => by (try dsimp only); rw [if_neg h1, h2]; simp [FileEdit.plus, FileEdit.delete, pure], ?_, ?_, ?_⟩
          · intro m
            simp only [List.mem_singleton]
            grind
          · simp
          · simp
        · refine ⟨FileEdit.new, fun e => ?_, ?_, ?_, ?_⟩
          · (try dsimp only); rw [if_neg h1, (by simpa using h2 : ((dat f ws).ty == 100) = false)]; simp [FileEdit.new, FileEdit.plus, pure]
          · intro m
            simp [FileEdit.new]
            grind
          · simp [FileEdit.new]
          · simp [FileEdit.new]
      | single =>
        by_cases h2 : ((dat f ws).ty == 100) = true
        · by_cases h3 : s.length = 1
          · refine ⟨FileEdit.new, fun e => by (try dsimp only); rw [if_neg h1, h2]; simp [FileEdit.new, FileEdit.plus, pure, h3], ?_, ?_, ?_⟩ <;>
              simp [FileEdit.new] <;> grind
          · refine ⟨⟨[], [(ws, [32])], []⟩, fun e => by
              (try dsimp only); rw [if_neg h1, h2]; simp [FileEdit.plus, FileEdit.replaceWithText, pure, h3], ?_, ?_, ?_⟩
            · simp
            · intro m s'
              simp only [List.mem_singleton, Prod.mk.injEq]
              grind
            · simp; grind
        · refine ⟨⟨[(b, [32])], [], []⟩, fun e => ?_, ?_, ?_, ?_⟩
          · (try dsimp only); rw [if_neg h1, (by simpa using h2 : ((dat f ws).ty == 100) = false)]; simp [FileEdit.plus, FileEdit.insertTextAfter, pure]
          · simp
          · simp; grind
          · intro m s'
            simp only [List.mem_singleton, Prod.mk.injEq]
            grind

theorem walk_adds : ∃ e, f.walkTree (spacerApply f fallSpacing 100) FileEdit.new 0 = some e ∧
    (∀ m, m ∈ e.deleted ↔ Surplus f m) ∧ (∀ m s, (m, s) ∈ e.replaced ↔ Ragged f m ∧ s = [32]) ∧
    ∀ m s, (m, s) ∈ e.inserted ↔ SpaceAfter f m ∧ s = [32] := by
  obtain ⟨l, h1, -, -, -, h2⟩ := C21_walk_tree f hf.nodes 0 (root_isNode hf.nodes)
  have hl : ∀ m, m ∈ l ↔ IsNode f m := fun m =>
    (h1 m).trans ⟨fun h => desc_isNode hf.nodes h (root_isNode hf.nodes), root_desc hf.nodes⟩
  obtain ⟨d, a1, a2, a3, a4⟩ := Adds.fold (l := l) (step := spacerApply f fallSpacing 100) fun n hn =>
    Adds.fold (l := fallSpacing) (step := spacerRule f 100 n) fun rule _ => spacerRule_adds hf ((hl n).1 hn) rule
  have hnode : ∀ {m : Nat} {ty : NodeType}, OfType f ty m → m ∈ l := fun h => (hl _).2 (ofType_isNode h)
  refine ⟨d, ?_, fun m => (a2 m).trans ?_, fun m s => (a3 m s).trans ?_, fun m s => (a4 m s).trans ?_⟩
  · rw [h2]
    exact (a1 _).trans (by simp [FileEdit.plus, FileEdit.new])
  · simp only [fallSpacing, List.mem_cons, List.not_mem_nil, or_false]
    constructor
    · rintro ⟨x, hx, rule, hrule, b, hp, g1, g2⟩
      rcases hrule with rfl | rfl | rfl | rfl
      · cases hp.2.2.2
      · cases hp.2.2.2
      · exact ⟨g2, g1, .inl ⟨x, hp.1, hp.2.1⟩⟩
      · exact ⟨g2, g1, .inr ⟨x, hp.1, hp.2.1⟩⟩
    · rintro ⟨g2, g1, ⟨x, h3, h4⟩ | ⟨x, h3, h4⟩⟩
      · exact ⟨x, hnode h3, _, .inr (.inr (.inl rfl)), x, ⟨h3, h4, rfl, rfl⟩, g1, g2⟩
      · exact ⟨x, hnode h3, _, .inr (.inr (.inr rfl)), m, ⟨h3, h4, rfl, rfl⟩, g1, g2⟩
  · refine and_congr_left fun _ => ?_
    simp only [fallSpacing, List.mem_cons, List.not_mem_nil, or_false]
    constructor
    · rintro ⟨x, hx, rule, hrule, b, hp, g1, g2, g3⟩
      rcases hrule with rfl | rfl | rfl | rfl
      · exact ⟨g2, g1, ⟨x, hp.1, .inl hp.2.1⟩, g3⟩
      · exact ⟨g2, g1, ⟨x, hp.1, .inr hp.2.1⟩, g3⟩
      · cases hp.2.2.2
      · cases hp.2.2.2
    · rintro ⟨g2, g1, ⟨x, h3, h4 | h4⟩, g3⟩
      · exact ⟨x, hnode h3, _, .inl rfl, x, ⟨h3, h4, rfl, rfl⟩, g1, g2, g3⟩
      · exact ⟨x, hnode h3, _, .inr (.inl rfl), m, ⟨h3, h4, rfl, rfl⟩, g1, g2, g3⟩
  · refine and_congr_left fun _ => ?_
    simp only [fallSpacing, List.mem_cons, List.not_mem_nil, or_false]
    constructor
    · rintro ⟨x, hx, rule, hrule, b, hp, g1, g2⟩
      rcases hrule with rfl | rfl | rfl | rfl
      · obtain ⟨h3, h4, rfl, -⟩ := hp
        exact ⟨b, h4, .inl ⟨h3, g2, g1⟩⟩
      · obtain ⟨h3, h4, rfl, -⟩ := hp
        exact ⟨x, h4, .inr ⟨h3, g2, g1⟩⟩
      · cases hp.2.2.2
      · cases hp.2.2.2
    · rintro ⟨x, h4, ⟨h3, g2, g1⟩ | ⟨h3, g2, g1⟩⟩
      · exact ⟨m, hnode h3, _, .inl rfl, x, ⟨h3, h4, rfl, rfl⟩, g1, g2⟩
      · exact ⟨x, hnode h3, _, .inr (.inl rfl), m, ⟨h3, h4, rfl, rfl⟩, g1, g2⟩

omit hf in
theorem lookup_single {l : List (NodeId × List UInt8)} {R : NodeId → Prop} (h : ∀ m s, (m, s) ∈ l ↔ R m ∧ s = [32])
    (n : NodeId) : (R n ∧ l.lookup n = some [32]) ∨ (¬ R n ∧ l.lookup n = none) := by
  cases hl : l.lookup n with
  | none =>
    refine .inr ⟨fun hr => ?_, rfl⟩
    rw [List.lookup_eq_none_iff] at hl
    have := hl _ ((h n [32]).2 ⟨hr, rfl⟩)
    simp at this
  | some s =>
    obtain ⟨l1, l2, e, -⟩ := List.lookup_eq_some_iff.1 hl
    obtain ⟨h1, rfl⟩ := (h n s).1 (by rw [e]; simp)
    exact .inl ⟨h1, rfl⟩

section
variable {e : FileEdit UInt8} (hd : ∀ m, m ∈ e.deleted ↔ Surplus f m)
  (hr : ∀ m s, (m, s) ∈ e.replaced ↔ Ragged f m ∧ s = [32]) (hi : ∀ m s, (m, s) ∈ e.inserted ↔ SpaceAfter f m ∧ s = [32])
include hi

omit hf in
theorem gapAfter_inserted (n : Nat) : GapAfter f n (insertedAfter e n) := by
  rcases lookup_single hi n with ⟨h1, h2⟩ | ⟨h1, h2⟩
  · exact .inl ⟨h1, by simp [insertedAfter, h2]⟩
  · exact .inr ⟨h1, by simp [insertedAfter, h2]⟩

include hd hr

theorem formatted_of_rendered {n : Nat} {out : List UInt8} (h : Rendered f e n out) : Formatted f n out := by
  refine Rendered.rec (motive_1 := fun n out _ => Formatted f n out) (motive_2 := fun ns out _ => FormattedAll f ns out)
    ?_ ?_ ?_ ?_ .nil (fun _ _ h1 h2 => .cons h1 h2) h
  · exact fun h => .removed ((hd _).1 h)
  · intro n s h1 h2
    rcases lookup_single hr n with ⟨h3, h4⟩ | ⟨h3, h4⟩
    · rw [h2] at h4
      cases h4
      exact .single (fun h => h1 ((hd n).2 h)) h3
    · rw [h2] at h4
      cases h4
  · intro n r h1 h2 h3 h4
    rcases lookup_single hr n with ⟨h5, h6⟩ | ⟨h5, h6⟩
    · rw [h2] at h6
      cases h6
    · have hn := isNode_of_children h3
      refine .leaf (fun h => h1 ((hd n).2 h)) h5 h3 ?_ (gapAfter_inserted hi n)
      rw [range_rng hn] at h4
      cases h4
      exact textOf_eq hf hn
  · intro n cs out h1 h2 h3 h4 _ h5
    rcases lookup_single hr n with ⟨h6, h7⟩ | ⟨h6, h7⟩
    · rw [h2] at h7
      cases h7
    · exact .inner (fun h => h1 ((hd n).2 h)) h6 h3 h4 h5 (gapAfter_inserted hi n)

end

omit hf in
theorem gapAfter_unique {n : Nat} {g g' : List UInt8} (h : GapAfter f n g) (h' : GapAfter f n g') : g = g' := by
  unfold GapAfter at h h'
  grind

omit hf in
theorem formatted_unique {n : Nat} {out out' : List UInt8} (h : Formatted f n out) (h' : Formatted f n out') :
    out' = out := by
  revert out'
  refine Formatted.rec (motive_1 := fun n out _ => ∀ {out'}, Formatted f n out' → out' = out)
    (motive_2 := fun ns out _ => ∀ {out'}, FormattedAll f ns out' → out' = out) ?_ ?_ ?_ ?_ ?_ ?_ h
  · intro n h1 out' h'
    cases h' with
    | removed => rfl
    | single h => exact absurd h1 h
    | leaf h => exact absurd h1 h
    | inner h => exact absurd h1 h
  · intro n h1 h2 out' h'
    cases h' with
    | removed h => exact absurd h h1
    | single => rfl
    | leaf _ h => exact absurd h2 h
    | inner _ h => exact absurd h2 h
  · intro n s g h1 h2 h3 h4 h5 out' h'
    cases h' with
    | removed h => exact absurd h h1
    | single _ h => exact absurd h h2
    | leaf _ _ _ h7 h8 =>
      rw [h4] at h7
      cases h7
      rw [gapAfter_unique h5 h8]
    | inner _ _ h6 h7 =>
      rw [h3] at h6
      cases h6
      exact absurd rfl h7
  · intro n cs g out h1 h2 h3 h4 h5 h6 ih out' h'
    cases h' with
    | removed h => exact absurd h h1
    | single _ h => exact absurd h h2
    | leaf _ _ h7 =>
      rw [h3] at h7
      cases h7
      exact absurd rfl h4
    | inner _ _ h7 _ h8 h9 =>
      rw [h3] at h7
      cases h7
      rw [ih h8, gapAfter_unique h6 h9]
  · intro out' h'
    cases h'
    rfl
  · intro n s ns t _ _ ih1 ih2 out' h'
    cases h' with
    | cons h1 h2 => rw [ih1 h1, ih2 h2]

/-- Formatting keeps everything but blanks. -/
theorem formatted_ink (hb : BlankSpaces f) {n : Nat} {out s : List UInt8} (h : Formatted f n out)
    (hs : f.textOf n = some s) : out.filter isInk = s.filter isInk := by
  have blank : ∀ {n : Nat} {s : List UInt8}, OfType f 100 n → OneLine f n → f.textOf n = some s → s.filter isInk = [] := by
    intro n s h1 ⟨s', h2, h3⟩ h4
    rw [h2] at h4
    cases h4
    rw [List.filter_eq_nil_iff]
    intro b hbs
    intro h5
    cases hb n _ h1 h2 b hbs h5
    exact h3 hbs
  have gap : ∀ {n : Nat} {g : List UInt8}, GapAfter f n g → g.filter isInk = [] := by
    rintro n g (⟨-, rfl⟩ | ⟨-, rfl⟩) <;> rfl
  revert s
  refine Formatted.rec (motive_1 := fun n out _ => ∀ {s}, f.textOf n = some s → out.filter isInk = s.filter isInk)
    (motive_2 := fun ns out _ => ∀ {ss}, ns.mapM f.textOf = some ss → out.filter isInk = ss.flatten.filter isInk)
    ?_ ?_ ?_ ?_ ?_ ?_ h
  · intro n h s hs
    rw [blank h.1 h.2.1 hs]
    rfl
  · intro n _ h s hs
    rw [blank h.1 h.2.1 hs]
    rfl
  · intro n s g h1 h2 h3 h4 h5 s' hs
    rw [h4] at hs
    cases hs
    rw [List.filter_append, gap h5, List.append_nil]
  · intro n cs g out h1 h2 h3 h4 h5 h6 ih s hs
    obtain ⟨ts, h8, h9⟩ := (C16_leaves_spell_text f hf).1 n cs h3 h4
    rw [hs] at h9
    cases h9
    rw [List.filter_append, gap h6, List.append_nil]
    exact ih h8
  · intro ss hss
    cases hss
    rfl
  · intro n s ns t _ _ ih1 ih2 ss hss
    simp only [List.mapM_cons, Option.bind_eq_bind, Option.bind_eq_some_iff, pure, Option.some.injEq] at hss
    obtain ⟨s', h1, ss', h2, rfl⟩ := hss
    rw [List.flatten_cons, List.filter_append, List.filter_append, ih1 h1, ih2 h2]

end Fall
