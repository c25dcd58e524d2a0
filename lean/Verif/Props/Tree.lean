import Verif.Lemmas.TreeBuild
import Verif.Lemmas.TreeWalk

/-! Properties of the tree library: C14 to C23. -/

namespace Fall
open Spec

/-! ## C14 tree building -/

/-- C14. Every well-bracketed sequence of calls with one outermost node is accepted, gives a
consistent table whose root covers the sum of the leaf lengths, and the tree has exactly the
structure of the calls. -/
theorem C14_build_consistent (ops : List BuilderOp) (h : SingleRoot ops) (text : List α)
    (hlen : text.length = leafLen ops) :
    ∃ f, newFile text ops = some f ∧ f.text = text ∧ ConsistentFile f ∧ Replays f 0 ops := by
  obtain ⟨ty, kids, rfl⟩ := singleRoot_forest h
  refine ⟨⟨text, _⟩, by rw [newFile, buildNodes_roots _ rfl]; rfl, rfl,
    ⟨consistent_single ty kids, ?_⟩, ?_⟩
  · rw [Forest.leafLen_ops] at hlen
    simp only [Forest.len, Nat.add_zero] at hlen
    simp [File.range, File.data, Forest.flatten, hlen]
  · have := repr_replays (f := (⟨text, _⟩ : File α)) (repr_single ty kids)
    generalize (Forest.node ty kids .nil).ops = ops at this ⊢
    simp only [Forest.rootIds] at this
    cases this with
    | cons h1 h2 =>
      cases h2 with
      | nil => rw [List.append_nil]; exact h1

/-- A small call sequence used in the examples: an outer node with two leaves, an empty inner node,
and an inner node with two leaves. -/
def exampleOps : List BuilderOp :=
  [.start 1, .leaf 2 2, .start 3, .finish, .start 4, .leaf 5 1, .leaf 6 3, .finish, .leaf 2 1, .finish]

/-- The file of the examples, on the text `0123456`. -/
def exampleFile : File Nat :=
  ⟨[0, 1, 2, 3, 4, 5, 6],
    [⟨1, none, [1, 2, 3, 6], ⟨0, 7⟩⟩, ⟨2, some 0, [], ⟨0, 2⟩⟩, ⟨3, some 0, [], ⟨2, 2⟩⟩,
     ⟨4, some 0, [4, 5], ⟨2, 6⟩⟩, ⟨5, some 3, [], ⟨2, 3⟩⟩, ⟨6, some 3, [], ⟨3, 6⟩⟩,
     ⟨2, some 0, [], ⟨6, 7⟩⟩]⟩

theorem exampleOps_single : SingleRoot exampleOps :=
  forest_singleRoot 1 (.leaf 2 2 (.node 3 .nil (.node 4 (.leaf 5 1 (.leaf 6 3 .nil)) (.leaf 2 1 .nil))))

theorem exampleFile_built : newFile [0, 1, 2, 3, 4, 5, 6] exampleOps = some exampleFile := by
  decide

theorem exampleFile_consistent : ConsistentFile exampleFile := by
  obtain ⟨f, h1, _, h2, _⟩ := C14_build_consistent exampleOps exampleOps_single [0, 1, 2, 3, 4, 5, 6] rfl
  rw [exampleFile_built] at h1
  cases h1
  exact h2

example : SingleRoot exampleOps ∧ [0, 1, 2, 3, 4, 5, 6].length = leafLen exampleOps :=
  ⟨exampleOps_single, rfl⟩

/-! ## C15 unbalanced building -/

/-- C15. Building succeeds exactly on balanced call sequences: it panics on a `finish` without a
`start`, on a leaf outside of any node and on an unfinished node. -/
theorem C15_rejects_unbalanced (ops : List BuilderOp) :
    (buildNodes ops).isSome ↔ Balanced ops := by
  constructor
  · intro h
    obtain ⟨nodes, h⟩ := Option.isSome_iff_exists.1 h
    simp only [buildNodes, Option.bind_eq_bind, Option.bind_eq_some_iff] at h
    obtain ⟨b, h1, h2⟩ := h
    have := run_depth ops TreeBuilder.new 0 rfl b h1
    unfold TreeBuilder.finish at h2
    split at h2
    · rename_i he
      have : b.inProgress = [] := by simpa using he
      simp_all [Balanced]
    · simp at h2
  · intro h
    obtain ⟨f, h1, rfl⟩ := balanced_forest h
    rw [buildNodes_roots f h1]
    rfl

example : Balanced exampleOps ∧ ¬ Balanced [.start 1, .leaf 2 3] ∧ ¬ Balanced [.finish] ∧
    ¬ Balanced [.start 1, .finish, .leaf 2 3] := by unfold Balanced; decide

/-- C15, the rest of the claim holds for call sequences with one outermost node: these are exactly
the ones that give a consistent tree. Missing from the full claim: other balanced sequences are
accepted too, see the counterexample. -/
theorem C15_consistent_partial (ops : List BuilderOp) :
    (∃ nodes, buildNodes ops = some nodes ∧ Consistent nodes) ↔ SingleRoot ops := by
  constructor
  · rintro ⟨nodes, h1, h2⟩
    have hb := (C15_rejects_unbalanced ops).1 (by rw [h1]; rfl)
    obtain ⟨f, h3, rfl⟩ := balanced_forest hb
    rw [buildNodes_roots f h3] at h1
    cases h1
    obtain ⟨ty, kids, rfl⟩ := consistent_forest h3 h2
    exact forest_singleRoot ty kids
  · intro h
    obtain ⟨ty, kids, rfl⟩ := singleRoot_forest h
    exact ⟨_, buildNodes_roots _ rfl, consistent_single ty kids⟩

example : ∃ nodes, buildNodes exampleOps = some nodes ∧ Consistent nodes :=
  (C15_consistent_partial exampleOps).2 exampleOps_single

/-- C15 as stated is false: an empty session gives a file without a root, and a second outermost
node is accepted although the root (always node 0) does not reach it. -/
theorem C15_counterexample :
    buildNodes [] = some [] ∧ ¬ Consistent [] ∧
    ∃ nodes, buildNodes [.start 1, .finish, .start 2, .leaf 3 5, .finish] = some nodes ∧
      ¬ Consistent nodes := by
  refine ⟨by decide, ?_, ?_⟩
  · intro h; obtain ⟨d, h, _⟩ := h.root; simp at h
  · refine ⟨[⟨1, none, [], ⟨0, 0⟩⟩, ⟨2, none, [2], ⟨0, 5⟩⟩, ⟨3, some 1, [], ⟨0, 5⟩⟩], by decide, ?_⟩
    intro h
    exact h.nonroot 1 ⟨2, none, [2], ⟨0, 5⟩⟩ rfl (by decide) rfl

/-! ## C16 leaves spell the text -/

/-- C16. The text of a node with children is the concatenation of theirs; the texts of the childless
nodes of a subtree, in document order, spell the text of the node; for the root this is the text of
the file. (`subtree` lists nodes in document order, see `C21_subtree`.) -/
theorem C16_leaves_spell_text (f : File α) (hf : ConsistentFile f) :
    (∀ n cs, f.children n = some cs → cs ≠ [] →
      ∃ ts, cs.mapM f.textOf = some ts ∧ f.textOf n = some ts.flatten) ∧
    (∀ n, IsNode f n → ∃ l leaves ts, f.subtree n = some l ∧
      leaves = l.filter (fun m => f.children m == some []) ∧
      leaves.mapM f.textOf = some ts ∧ f.textOf n = some ts.flatten) ∧
    f.textOf 0 = some f.text := by
  refine ⟨?_, ?_, ?_⟩
  · intro n cs hcs hne
    have hn : IsNode f n := by
      simp only [File.children, File.data, Option.map_eq_some_iff] at hcs
      obtain ⟨d, h, _⟩ := hcs
      exact isNode_of_getElem h
    rw [children_kids hn] at hcs
    cases hcs
    refine ⟨_, mapM_textOf hf (fun c hc => (kids_spec hf.nodes hn hc).2.1), ?_⟩
    rw [textOf_eq hf hn, tiles_bytes f.text (rng f) (kids_tile hf.nodes hn hne)]
  · intro n hn
    obtain ⟨l, h1, h2⟩ := leaves_bytes hf f.nodes.length n hn (by omega)
    obtain ⟨l', h3, h4, _⟩ := subtreeN_spec hf.nodes f.nodes.length n hn (by omega)
    rw [h1] at h3
    cases h3
    have hnode : ∀ m ∈ l' ++ [n], IsNode f m := fun m hm => desc_isNode hf.nodes ((h4 m).1 hm) hn
    have hfil : (l' ++ [n]).filter (fun m => f.children m == some []) =
        (l' ++ [n]).filter (fun m => (kids f m).isEmpty) := by
      apply List.filter_congr
      intro m hm
      rw [children_kids (hnode m hm)]
      cases kids f m <;> rfl
    refine ⟨_, _, _, h1, rfl, mapM_textOf hf ?_, ?_⟩
    · intro m hm
      exact hnode m (List.mem_filter.1 hm).1
    · rw [hfil, h2, textOf_eq hf hn]
  · rw [textOf_eq hf (root_isNode hf.nodes), root_rng hf, bytes_full]

example : ConsistentFile exampleFile ∧ exampleFile.textOf 3 = some [2, 3, 4, 5] ∧
    [4, 5].mapM exampleFile.textOf = some [[2], [3, 4, 5]] :=
  ⟨exampleFile_consistent, by decide, by decide⟩

/-! ## C17 leaves at an offset -/

/-- C17. For an offset inside or at the ends of a node, `find_leaf_at_offset` does not panic and
finds exactly the non-empty leaves below the node that touch the offset: none if and only if the
node is empty; two only at a boundary between two leaves, the left one first. -/
theorem C17_leaf_at_offset (f : File α) (hc : Consistent f.nodes) (n offset : Nat) (r : TextRange)
    (hr : f.range n = some r) (h1 : r.start ≤ offset) (h2 : offset ≤ r.stop) :
    ∃ res, f.findLeafAtOffset n offset = some res ∧
      (∀ l, l ∈ res.toList ↔ Desc f n l ∧ NonEmptyLeaf f l ∧ Touches f l offset) ∧
      (res = .none ↔ r.start = r.stop) ∧
      (∀ left right, res = .between left right →
        ∃ a b, f.range left = some ⟨a, offset⟩ ∧ f.range right = some ⟨offset, b⟩) := by
  have hn : IsNode f n := by
    simp only [File.range, File.data, Option.map_eq_some_iff] at hr
    obtain ⟨d, h, _⟩ := hr
    exact isNode_of_getElem h
  rw [range_rng hn] at hr
  cases hr
  obtain ⟨res, e, sp⟩ := findLeafAtOffset_spec hc n offset hn h1 h2
  refine ⟨res, e, sp.mem, ⟨?_, sp.empty⟩, ?_⟩
  · intro hres
    have hv := rng_valid hc hn
    rcases Nat.lt_or_ge (rng f n).start (rng f n).stop with h | h
    · rcases sp.shape h with ⟨l, h⟩ | ⟨l, r, h, _⟩ <;> rw [hres] at h <;> simp at h
    · omega
  · rintro left right rfl
    have hl := desc_isNode hc ((sp.mem left).1 (by simp [LeafAtOffset.toList])).1 hn
    have hr := desc_isNode hc ((sp.mem right).1 (by simp [LeafAtOffset.toList])).1 hn
    rcases Nat.lt_or_ge (rng f n).start (rng f n).stop with h | h
    · rcases sp.shape h with ⟨l, h⟩ | ⟨l, r, h, h3, h4, _⟩
      · simp at h
      · cases h
        refine ⟨(rng f left).start, (rng f right).stop, ?_, ?_⟩
        · rw [range_rng hl, ← h3]
        · rw [range_rng hr, ← h4]
    · have hv := rng_valid hc hn
      have := sp.empty (by omega)
      simp at this

example : Consistent exampleFile.nodes ∧ exampleFile.range 0 = some ⟨0, 7⟩ ∧
    exampleFile.findLeafAtOffset 0 2 = some (.between 1 4) ∧
    exampleFile.findLeafAtOffset 0 4 = some (.single 5) ∧
    exampleFile.findLeafAtOffset 0 7 = some (.single 6) :=
  ⟨exampleFile_consistent.nodes, by decide, by decide, by decide, by decide⟩

/-- C17. How many leaves are found: two if and only if the offset is the end of one leaf and the
start of another; for an offset outside of the node the call panics. -/
theorem C17_boundary (f : File α) (hc : Consistent f.nodes) (n offset : Nat) (r : TextRange)
    (hr : f.range n = some r) :
    ((f.findLeafAtOffset n offset).isSome ↔ r.start ≤ offset ∧ offset ≤ r.stop) ∧
    ((∃ left right, f.findLeafAtOffset n offset = some (.between left right)) ↔
      ∃ x y a b, Desc f n x ∧ Desc f n y ∧ NonEmptyLeaf f x ∧ NonEmptyLeaf f y ∧
        f.range x = some ⟨a, offset⟩ ∧ f.range y = some ⟨offset, b⟩) := by
  have hn : IsNode f n := by
    simp only [File.range, File.data, Option.map_eq_some_iff] at hr
    obtain ⟨d, h, _⟩ := hr
    exact isNode_of_getElem h
  have hsome : (f.findLeafAtOffset n offset).isSome ↔ r.start ≤ offset ∧ offset ≤ r.stop := by
    constructor
    · intro h
      have hr' := hr
      rw [range_rng hn] at hr'
      simp only [Option.some.injEq] at hr'
      unfold File.findLeafAtOffset at h
      have hpos : f.nodes.length = (f.nodes.length - 1) + 1 := by
        have : n < f.nodes.length := hn; omega
      rw [hpos] at h
      simp only [File.findLeafAtOffsetN, data_dat hn, Option.bind_eq_bind, Option.bind_some] at h
      have hd : (dat f n).range = r := hr'
      rw [hd] at h
      by_cases hb : r.containsOffsetNonstrict offset = true
      · simpa [TextRange.containsOffsetNonstrict] using hb
      · simp [hb] at h
    · rintro ⟨h1, h2⟩
      obtain ⟨res, h, _⟩ := C17_leaf_at_offset f hc n offset r hr h1 h2
      rw [h]; rfl
  refine ⟨hsome, ?_⟩
  constructor
  · rintro ⟨left, right, h⟩
    obtain ⟨h1, h2⟩ := hsome.1 (by rw [h]; rfl)
    obtain ⟨res, h3, h4, _, h5⟩ := C17_leaf_at_offset f hc n offset r hr h1 h2
    rw [h] at h3
    cases h3
    obtain ⟨a, b, h6, h7⟩ := h5 left right rfl
    have m1 := (h4 left).1 (by simp [LeafAtOffset.toList])
    have m2 := (h4 right).1 (by simp [LeafAtOffset.toList])
    exact ⟨left, right, a, b, m1.1, m2.1, m1.2.1, m2.2.1, h6, h7⟩
  · rintro ⟨x, y, a, b, h1, h2, h3, h4, h5, h6⟩
    have hx := desc_isNode hc h1 hn
    have hy := desc_isNode hc h2 hn
    have r1 := desc_range hc h1
    have r2 := desc_range hc h2
    have hr' := hr
    rw [range_rng hn] at hr'
    have h5' := h5
    have h6' := h6
    rw [range_rng hx] at h5'
    rw [range_rng hy] at h6'
    simp only [Option.some.injEq] at hr' h5' h6'
    rw [nonEmptyLeaf_iff hx, h5'] at h3
    rw [nonEmptyLeaf_iff hy, h6'] at h4
    rw [hr', h5'] at r1
    rw [hr', h6'] at r2
    obtain ⟨res, e1, e2, e3, _⟩ := C17_leaf_at_offset f hc n offset r hr (by simp at *; omega)
      (by simp at *; omega)
    have m1 := (e2 x).2 ⟨h1, (nonEmptyLeaf_iff hx).2 ⟨h3.1, by rw [h5']; exact h3.2⟩,
      ⟨_, h5, by simp at *; omega, by simp⟩⟩
    have m2 := (e2 y).2 ⟨h2, (nonEmptyLeaf_iff hy).2 ⟨h4.1, by rw [h6']; exact h4.2⟩,
      ⟨_, h6, by simp, by simp at *; omega⟩⟩
    cases res with
    | none => simp [LeafAtOffset.toList] at m1
    | single l =>
      simp only [LeafAtOffset.toList, List.mem_singleton] at m1 m2
      rw [m1, ← m2, h6'] at h5'
      simp only [TextRange.mk.injEq] at h5'
      simp only at h4
      omega
    | between l r => exact ⟨l, r, e1⟩

example : exampleFile.findLeafAtOffset 3 7 = none ∧ exampleFile.findLeafAtOffset 3 6 = some (.single 5) := by
  decide

/-! ## C18 the covering node -/

/-- C18. For a range inside of a node, `find_covering_node` does not panic and returns a node of the
subtree that covers the range; if the range is not empty, no child of the result covers it. -/
theorem C18_covering_node (f : File α) (hc : Consistent f.nodes) (n : Nat) (r q : TextRange)
    (hr : f.range n = some r) (hq : q.start ≤ q.stop) (h1 : r.start ≤ q.start)
    (h2 : q.stop ≤ r.stop) :
    ∃ m, f.findCoveringNode n q = some m ∧ Desc f n m ∧
      (∃ mr, f.range m = some mr ∧ mr.start ≤ q.start ∧ q.stop ≤ mr.stop) ∧
      (q.start < q.stop → ∀ c cr, Child f m c → f.range c = some cr →
        ¬ (cr.start ≤ q.start ∧ q.stop ≤ cr.stop)) := by
  have hn : IsNode f n := by
    simp only [File.range, File.data, Option.map_eq_some_iff] at hr
    obtain ⟨d, h, _⟩ := hr
    exact isNode_of_getElem h
  have hsub : q.isSubrangeOf r = true := by simp [TextRange.isSubrangeOf, h1, h2]
  simp only [File.findCoveringNode, hr, Option.bind_eq_bind, Option.bind_some, hsub, Bool.not_true,
    Bool.false_eq_true, if_false]
  rw [range_rng hn] at hr
  simp only [Option.some.injEq] at hr
  obtain ⟨res1, e1, sp1⟩ := findLeafAtOffset_spec hc n q.start hn (by rw [hr]; omega) (by rw [hr]; omega)
  obtain ⟨res2, e2, sp2⟩ := findLeafAtOffset_spec hc n q.stop hn (by rw [hr]; omega) (by rw [hr]; omega)
  simp only [e1, e2, Option.bind_some]
  by_cases he : r.start = r.stop
  · have := sp1.empty (by rw [hr]; exact he)
    subst this
    simp only [LeafAtOffset.rightBiased]
    refine ⟨n, rfl, .refl _, ⟨r, by rw [range_rng hn, hr], h1, h2⟩, ?_⟩
    intro h; omega
  · have memr : ∀ res : LeafAtOffset, (∃ l, res = .single l) ∨ (∃ l r, res = .between l r) →
        ∃ x, res.rightBiased = some x ∧ x ∈ res.toList := by
      rintro res (⟨l, rfl⟩ | ⟨l, r, rfl⟩)
      · exact ⟨l, rfl, by simp [LeafAtOffset.toList]⟩
      · exact ⟨r, rfl, by simp [LeafAtOffset.toList]⟩
    have meml : ∀ res : LeafAtOffset, (∃ l, res = .single l) ∨ (∃ l r, res = .between l r) →
        ∃ x, res.leftBiased = some x ∧ x ∈ res.toList := by
      rintro res (⟨l, rfl⟩ | ⟨l, r, rfl⟩)
      · exact ⟨l, rfl, by simp [LeafAtOffset.toList]⟩
      · exact ⟨l, rfl, by simp [LeafAtOffset.toList]⟩
    have sh1 : (∃ l, res1 = .single l) ∨ (∃ l r, res1 = .between l r) := by
      rcases sp1.shape (by rw [hr]; omega) with h | ⟨l, r, h, _⟩
      · exact .inl h
      · exact .inr ⟨l, r, h⟩
    have sh2 : (∃ l, res2 = .single l) ∨ (∃ l r, res2 = .between l r) := by
      rcases sp2.shape (by rw [hr]; omega) with h | ⟨l, r, h, _⟩
      · exact .inl h
      · exact .inr ⟨l, r, h⟩
    obtain ⟨x, hx, hxm⟩ := memr res1 sh1
    obtain ⟨y, hy, hym⟩ := meml res2 sh2
    obtain ⟨dx, nx, tx⟩ := (sp1.mem x).1 hxm
    obtain ⟨dy, ny, ty⟩ := (sp2.mem y).1 hym
    have ix := desc_isNode hc dx hn
    have iy := desc_isNode hc dy hn
    obtain ⟨m, em, m1, m2, m3⟩ := commonAncestor_spec hc ix iy
    simp only [hx, hy]
    have hnm := m3 n dx dy
    have im := desc_isNode hc hnm hn
    have rx := desc_range hc m1
    have ry := desc_range hc m2
    rw [touches_iff ix] at tx
    rw [touches_iff iy] at ty
    refine ⟨m, em, hnm, ⟨rng f m, range_rng im, by omega, by omega⟩, ?_⟩
    intro hlt c cr hch hcr ⟨g1, g2⟩
    have ic := (child_spec hc hch).2.2.1
    rw [range_rng ic] at hcr
    cases hcr
    -- both leaves lie below the child
    obtain ⟨x', hx', hxs⟩ := sp1.right (by rw [hr]; omega)
    rw [hx] at hx'; cases hx'
    obtain ⟨y', hy', hys⟩ := sp2.left (by rw [hr]; omega)
    rw [hy] at hy'; cases hy'
    have below : ∀ z, IsNode f z → Desc f m z → kids f z = [] →
        ∀ i, (rng f z).start ≤ i → i < (rng f z).stop → (rng f c).start ≤ i → i < (rng f c).stop →
        Desc f c z := by
      intro z hz hmz hleaf i a1 a2 a3 a4
      cases hmz with
      | refl =>
        rw [child_iff, hleaf] at hch
        simp at hch
      | @step _ d _ hd hdz =>
        by_cases hdc : d = c
        · subst hdc; exact hdz
        · exfalso
          have hk := kids_tile hc im (List.ne_nil_of_mem (child_iff.1 hch).2)
          have hdr := desc_range hc hdz
          have disj : ∀ (cs : List Nat) (a b : Nat), Tiles (cs.map (rng f)) a b → c ∈ cs → d ∈ cs →
              (rng f c).stop ≤ (rng f d).start ∨ (rng f d).stop ≤ (rng f c).start := by
            intro cs
            induction cs with
            | nil => intro _ _ _ h; simp at h
            | cons e cs ih =>
              intro a b ht hcm hdm
              obtain ⟨t1, t2, t3⟩ := ht
              rcases List.mem_cons.1 hcm with h | h
              · rcases List.mem_cons.1 hdm with h' | h'
                · exact absurd (h'.trans h.symm) hdc
                · have := tiles_mem t3 (List.mem_map_of_mem h')
                  subst h; omega
              · rcases List.mem_cons.1 hdm with h' | h'
                · have := tiles_mem t3 (List.mem_map_of_mem h)
                  subst h'; omega
                · exact ih _ _ t3 h h'
          have := disj _ _ _ hk (child_iff.1 hch).2 (child_iff.1 hd).2
          omega
    have bx := below x ix m1 ((nonEmptyLeaf_iff ix).1 nx).1 q.start tx.1 hxs g1 (by omega)
    have by' := below y iy m2 ((nonEmptyLeaf_iff iy).1 ny).1 (q.stop - 1) (by omega) (by omega)
      (by omega) (by omega)
    have := desc_le hc (m3 c bx by')
    have := (child_spec hc hch).1
    omega

example : exampleFile.findCoveringNode 0 ⟨2, 5⟩ = some 3 ∧ exampleFile.findCoveringNode 0 ⟨3, 5⟩ = some 5 ∧
    exampleFile.findCoveringNode 0 ⟨1, 3⟩ = some 0 ∧ exampleFile.range 0 = some ⟨0, 7⟩ := by decide

/-! ## C19 ancestors -/

/-- C19. The ancestors of a node: they start at the node, each is followed by its parent, whose
range includes the range of the child, the last is the root; they are exactly the nodes above. -/
theorem C19_ancestors (f : File α) (hc : Consistent f.nodes) (n : Nat) (hn : IsNode f n) :
    ∃ as, f.ancestors n = some as ∧ as.head? = some n ∧ as.getLast? = some 0 ∧
      (∀ a, a ∈ as ↔ Desc f a n) ∧ as.Nodup ∧
      Chain (fun x y => f.parent x = some (some y) ∧ ∃ rx ry, f.range x = some rx ∧
        f.range y = some ry ∧ ry.start ≤ rx.start ∧ rx.stop ≤ ry.stop) as := by
  obtain ⟨as, e, h1, h2, h3, h4⟩ := ancestors_spec hc n hn
  have hnode : ∀ a ∈ n :: as, IsNode f a := by
    intro a ha
    have h := (h2 a).1 ha
    have : a ≤ n := desc_le hc h
    have : n < f.nodes.length := hn
    show a < f.nodes.length
    omega
  have hup : ∀ l : List Nat, (∀ a ∈ l, IsNode f a) → Chain (fun x y => (dat f x).parent = some y) l →
      Chain (fun x y => f.parent x = some (some y) ∧ ∃ rx ry, f.range x = some rx ∧
        f.range y = some ry ∧ ry.start ≤ rx.start ∧ rx.stop ≤ ry.stop) l ∧ l.Pairwise (· > ·) := by
    intro l
    induction l with
    | nil => intro _ _; exact ⟨trivial, by simp⟩
    | cons x l ih =>
      intro hl hch
      cases l with
      | nil => exact ⟨trivial, by simp⟩
      | cons y l =>
        obtain ⟨g1, g2⟩ := hch
        obtain ⟨i1, i2⟩ := ih (fun a ha => hl a (List.mem_cons_of_mem _ ha)) g2
        have hx := hl x (by simp)
        obtain ⟨p1, p2, p3⟩ := parent_spec hc hx g1
        have hr := child_range hc (child_iff.2 ⟨p1, p2⟩)
        refine ⟨⟨⟨by rw [parent_dat hx, g1], _, _, range_rng hx, range_rng p1, hr⟩, i1⟩, ?_⟩
        rw [List.pairwise_cons]
        refine ⟨?_, i2⟩
        intro z hz
        rcases List.mem_cons.1 hz with rfl | hz
        · exact p3
        · exact Nat.lt_trans (List.rel_of_pairwise_cons i2 hz) p3
  obtain ⟨u1, u2⟩ := hup _ hnode h3
  refine ⟨n :: as, e, rfl, h1, h2, ?_, u1⟩
  exact u2.imp (fun h => Nat.ne_of_gt h)

example : IsNode exampleFile 5 ∧ exampleFile.ancestors 5 = some [5, 3, 0] := by
  unfold IsNode; decide

/-- C19. `common_ancestor` does not panic and returns the lowest node above both arguments. -/
theorem C19_common_ancestor (f : File α) (hc : Consistent f.nodes) (n1 n2 : Nat)
    (h1 : IsNode f n1) (h2 : IsNode f n2) :
    ∃ p, f.commonAncestor n1 n2 = some p ∧ Desc f p n1 ∧ Desc f p n2 ∧
      ∀ q, Desc f q n1 → Desc f q n2 → Desc f q p :=
  commonAncestor_spec hc h1 h2

example : exampleFile.commonAncestor 5 4 = some 3 ∧ exampleFile.commonAncestor 5 6 = some 0 ∧
    exampleFile.commonAncestor 5 3 = some 3 := by decide

/-! ## C20 siblings -/

theorem sibling_eq {f : File α} (hc : Consistent f.nodes) {n p : Nat} (hn : IsNode f n)
    (hp : (dat f n).parent = some p) :
    ∃ pre post, kids f p = pre ++ n :: post ∧ f.sibling n .left = some pre.getLast? ∧
      f.sibling n .right = some post.head? := by
  obtain ⟨h1, h2, h3⟩ := parent_spec hc hn hp
  obtain ⟨pre, post, hpp⟩ := List.append_of_mem h2
  have hnd := kids_nodup hc h1
  have hnot : ∀ x ∈ pre, x ≠ n := by
    rw [hpp, List.nodup_append] at hnd
    intro x hx
    exact hnd.2.2 x hx n (by simp)
  have hidx : (kids f p).findIdx? (· == n) = some pre.length := by
    rw [hpp, List.findIdx?_append]
    have : List.findIdx? (· == n) pre = none := by
      rw [List.findIdx?_eq_none_iff]
      intro x hx
      simpa using hnot x hx
    simp [this, List.findIdx?_cons]
  have hpos : f.childPosition n = some (some (p, pre.length)) := by
    simp [File.childPosition, parent_dat hn, hp, children_kids h1, hidx]
  refine ⟨pre, post, hpp, ?_, ?_⟩
  · simp only [File.sibling, hpos, Option.bind_eq_bind, Option.bind_some, children_kids h1]
    by_cases he : pre = []
    · subst he; simp
    · have hl : pre.length ≠ 0 := by simpa using he
      simp only [hl, if_false]
      rw [hpp, List.getElem?_append_left (by omega), List.getLast?_eq_getElem?]
      rfl
  · simp only [File.sibling, hpos, Option.bind_eq_bind, Option.bind_some, children_kids h1]
    rw [hpp, List.getElem?_append_right (by omega)]
    have : pre.length + 1 - pre.length = 1 := by omega
    rw [this]
    cases post <;> rfl

theorem sibling_root {f : File α} (hc : Consistent f.nodes) (dir : Direction) :
    f.sibling 0 dir = some none := by
  simp [File.sibling, File.childPosition, parent_dat (root_isNode hc), root_parent hc]

/-- Position in a list without repetitions is unique. -/
theorem split_unique {n : Nat} {a b c d : List Nat} (hnd : (a ++ n :: b).Nodup)
    (h : a ++ n :: b = c ++ n :: d) : a = c ∧ b = d := by
  induction a generalizing c with
  | nil =>
    cases c with
    | nil => simpa using h
    | cons x c =>
      simp only [List.nil_append, List.cons_append, List.cons.injEq] at h
      obtain ⟨rfl, h⟩ := h
      simp [h] at hnd
  | cons y a ih =>
    cases c with
    | nil =>
      simp only [List.nil_append, List.cons_append, List.cons.injEq] at h
      obtain ⟨rfl, _⟩ := h
      simp at hnd
    | cons x c =>
      simp only [List.cons_append, List.cons.injEq] at h
      obtain ⟨rfl, h⟩ := h
      rw [List.cons_append, List.nodup_cons] at hnd
      have := ih hnd.2 h
      simp [this]

/-- C20. Going right undoes going left and vice versa; adjacent siblings have adjacent ranges. -/
theorem C20_sibling_inverse (f : File α) (hc : Consistent f.nodes) (x y : Nat)
    (hx : IsNode f x) (hy : IsNode f y) :
    (f.sibling x .right = some (some y) ↔ f.sibling y .left = some (some x)) ∧
    (f.sibling x .right = some (some y) →
      (∃ p, Child f p x ∧ Child f p y) ∧
      ∃ a b c, f.range x = some ⟨a, b⟩ ∧ f.range y = some ⟨b, c⟩) := by
  have right : f.sibling x .right = some (some y) → ∃ p pre post, (dat f x).parent = some p ∧
      kids f p = pre ++ x :: y :: post := by
    intro h
    by_cases h0 : x = 0
    · subst h0; rw [sibling_root hc] at h; simp at h
    · obtain ⟨p, hp⟩ := parent_some hc hx h0
      obtain ⟨pre, post, e1, _, e3⟩ := sibling_eq hc hx hp
      rw [e3] at h
      simp only [Option.some.injEq] at h
      cases post with
      | nil => simp at h
      | cons z post => simp at h; subst h; exact ⟨p, pre, post, hp, e1⟩
  have left : f.sibling y .left = some (some x) → ∃ p pre post, (dat f y).parent = some p ∧
      kids f p = pre ++ x :: y :: post := by
    intro h
    by_cases h0 : y = 0
    · subst h0; rw [sibling_root hc] at h; simp at h
    · obtain ⟨p, hp⟩ := parent_some hc hy h0
      obtain ⟨pre, post, e1, e2, _⟩ := sibling_eq hc hy hp
      rw [e2] at h
      simp only [Option.some.injEq, List.getLast?_eq_some_iff] at h
      obtain ⟨pre', rfl⟩ := h
      exact ⟨p, pre', post, hp, by simp [e1]⟩
  refine ⟨⟨?_, ?_⟩, ?_⟩
  · intro h
    obtain ⟨p, pre, post, hp, e⟩ := right h
    obtain ⟨g1, g2, g3⟩ := parent_spec hc hx hp
    have hyk : y ∈ kids f p := by rw [e]; simp
    have hpy := (kids_spec hc g1 hyk).2.2
    obtain ⟨pre2, post2, e1, e2, _⟩ := sibling_eq hc hy hpy
    have hnd := kids_nodup hc g1
    have e' : kids f p = (pre ++ [x]) ++ y :: post := by simp [e]
    rw [e'] at hnd
    have := split_unique hnd (e'.symm.trans e1)
    rw [e2, ← this.1]
    simp
  · intro h
    obtain ⟨p, pre, post, hp, e⟩ := left h
    obtain ⟨g1, g2, g3⟩ := parent_spec hc hy hp
    have hxk : x ∈ kids f p := by rw [e]; simp
    have hpx := (kids_spec hc g1 hxk).2.2
    obtain ⟨pre2, post2, e1, _, e3⟩ := sibling_eq hc hx hpx
    have hnd := kids_nodup hc g1
    rw [e] at hnd
    have := split_unique hnd (e.symm.trans e1)
    rw [e3, ← this.2]
    simp
  · intro h
    obtain ⟨p, pre, post, hp, e⟩ := right h
    obtain ⟨g1, g2, g3⟩ := parent_spec hc hx hp
    have hyk : y ∈ kids f p := by rw [e]; simp
    refine ⟨⟨p, child_iff.2 ⟨g1, g2⟩, child_iff.2 ⟨g1, hyk⟩⟩, ?_⟩
    have ht := kids_tile hc g1 (List.ne_nil_of_mem g2)
    rw [e, List.map_append, tiles_append] at ht
    obtain ⟨m, _, _, _, t3, _⟩ := ht
    refine ⟨(rng f x).start, (rng f x).stop, (rng f y).stop, range_rng hx, ?_⟩
    rw [range_rng hy, ← t3]

example : exampleFile.sibling 2 .right = some (some 3) ∧ exampleFile.sibling 3 .left = some (some 2) ∧
    IsNode exampleFile 2 ∧ IsNode exampleFile 3 := by
  unfold IsNode; decide

/-- C20. A missing sibling is reported exactly at the root and at the first or last child; the call
never panics. -/
theorem C20_sibling_none (f : File α) (hc : Consistent f.nodes) (n : Nat) (hn : IsNode f n) :
    (∀ dir, (f.sibling n dir).isSome) ∧
    (f.sibling n .left = some none ↔
      n = 0 ∨ ∃ p cs, Child f p n ∧ f.children p = some cs ∧ cs.head? = some n) ∧
    (f.sibling n .right = some none ↔
      n = 0 ∨ ∃ p cs, Child f p n ∧ f.children p = some cs ∧ cs.getLast? = some n) := by
  by_cases h0 : n = 0
  · subst h0
    refine ⟨fun dir => by rw [sibling_root hc]; rfl, ?_, ?_⟩ <;> rw [sibling_root hc] <;> simp
  · obtain ⟨p, hp⟩ := parent_some hc hn h0
    obtain ⟨g1, g2, g3⟩ := parent_spec hc hn hp
    obtain ⟨pre, post, e1, e2, e3⟩ := sibling_eq hc hn hp
    have hnd := kids_nodup hc g1
    have huniq : ∀ q cs, Child f q n → f.children q = some cs → cs = pre ++ n :: post := by
      intro q cs hq hcs
      have := (child_spec hc hq).2.2.2
      rw [hp] at this
      cases this
      rw [children_kids g1] at hcs
      cases hcs
      exact e1
    refine ⟨?_, ?_, ?_⟩
    · intro dir; cases dir
      · rw [e2]; rfl
      · rw [e3]; rfl
    · rw [e2]
      constructor
      · intro h
        simp only [Option.some.injEq, List.getLast?_eq_none_iff] at h
        subst h
        exact .inr ⟨p, _, child_iff.2 ⟨g1, g2⟩, children_kids g1, by rw [e1]; rfl⟩
      · rintro (h | ⟨q, cs, h1, h2, h3⟩)
        · exact absurd h h0
        · have := huniq q cs h1 h2
          subst this
          cases pre with
          | nil => rfl
          | cons x pre =>
            simp at h3
            subst h3
            rw [e1] at hnd
            simp at hnd
    · rw [e3]
      constructor
      · intro h
        simp only [Option.some.injEq, List.head?_eq_none_iff] at h
        subst h
        exact .inr ⟨p, _, child_iff.2 ⟨g1, g2⟩, children_kids g1, by rw [e1]; simp⟩
      · rintro (h | ⟨q, cs, h1, h2, h3⟩)
        · exact absurd h h0
        · have := huniq q cs h1 h2
          subst this
          cases post with
          | nil => rfl
          | cons x post =>
            rw [e1, List.nodup_append, List.nodup_cons] at hnd
            have hmem : n ∈ x :: post := by
              have : (pre ++ n :: x :: post).getLast? = (x :: post).getLast? := by
                simp [List.getLast?_cons]
              rw [this] at h3
              exact List.mem_of_getLast? h3
            exact absurd hmem hnd.2.1.1

example : exampleFile.sibling 1 .left = some none ∧ exampleFile.sibling 6 .right = some none ∧
    exampleFile.sibling 0 .right = some none := by decide

/-! ## C21 traversals -/

/-- C21. `subtree` lists exactly the node and its descendants, each once, every node after all its
descendants and after everything before it in the document; the root of the subtree is last.
`bottom_up` calls back in the same order. -/
theorem C21_subtree (f : File α) (hc : Consistent f.nodes) (n : Nat) (hn : IsNode f n) :
    ∃ l, f.subtree n = some l ∧ (∀ m, m ∈ l ↔ Desc f n m) ∧ l.Nodup ∧ l.getLast? = some n ∧
      l.Pairwise (fun x y => (Desc f y x ∧ x ≠ y) ∨ Before f x y) ∧
      ∀ (σ : Type) (g : σ → Nat → Option σ) (s : σ), f.bottomUp g s n = l.foldlM g s := by
  obtain ⟨l, h1, h2, h3, h4⟩ := subtreeN_spec hc f.nodes.length n hn (by omega)
  refine ⟨l ++ [n], h1, h2, ?_, by simp, h3, h4⟩
  refine h3.imp ?_
  intro x y h
  rcases h with h | h
  · exact h.2
  · rintro rfl
    exact before_irrefl hc h

example : IsNode exampleFile 0 ∧ exampleFile.subtree 0 = some [1, 2, 4, 5, 3, 6, 0] ∧
    exampleFile.bottomUp (fun acc n => some (acc ++ [n])) [] 0 = some [1, 2, 4, 5, 3, 6, 0] := by
  unfold IsNode; decide

/-- C21. `walk_tree` visits exactly the node and its descendants, each once, every node before all
its descendants, siblings left to right. -/
theorem C21_walk_tree (f : File α) (hc : Consistent f.nodes) (n : Nat) (hn : IsNode f n) :
    ∃ l : List Nat, (∀ m, m ∈ l ↔ Desc f n m) ∧ l.Nodup ∧ l.head? = some n ∧
      l.Pairwise (fun x y => (Desc f x y ∧ x ≠ y) ∨ Before f x y) ∧
      ∀ (σ : Type) (g : σ → Nat → Option σ) (s : σ), f.walkTree g s n = l.foldlM g s := by
  obtain ⟨l, h2, h3, h4⟩ := walkTreeN_spec hc f.nodes.length n hn (by omega)
  refine ⟨n :: l, h2, ?_, rfl, h3, h4⟩
  refine h3.imp ?_
  intro x y h
  rcases h with h | h
  · exact h.2
  · rintro rfl
    exact before_irrefl hc h

example : exampleFile.walkTree (fun acc n => some (acc ++ [n])) [] 0 = some [0, 1, 2, 3, 4, 5, 6] := by
  decide

/-! ## C22 structural edits -/

/-- C22. A structural edit never panics on a consistent file; the result of applying it is the
rendering of the tree with the requests: deleted nodes cut out, replaced nodes substituted,
insertions after their anchors, everything else verbatim. -/
theorem C22_edit_renders (f : File α) (hf : ConsistentFile f) (e : FileEdit α) :
    ∃ edit out, e.intoTextEdit f = some edit ∧ Rendered f e 0 out ∧
      edit.apply (Text.ofBuf f.text) = some out :=
  intoTextEdit_spec hf e

example : (((FileEdit.new.delete 1).replaceWithText 5 [10, 11]).insertTextAfter 3 [12]).intoTextEdit
      exampleFile = some ⟨[.copy ⟨2, 3⟩, .insert [10, 11], .insert [12], .copy ⟨6, 7⟩, .copy ⟨7, 7⟩]⟩ ∧
    (TextEdit.mk [.copy ⟨2, 3⟩, .insert [10, 11], .insert [12], .copy ⟨6, 7⟩, .copy ⟨7, 7⟩]).apply
      (Text.ofBuf exampleFile.text) = some [2, 10, 11, 12, 6] := by decide

/-- C22. Requests inside of one subtree change nothing outside of it: the result is the text before
the node, the rendering of the node, and the text after it. -/
theorem C22_local (f : File α) (hf : ConsistentFile f) (e : FileEdit α) (n : Nat) (r : TextRange)
    (hr : f.range n = some r) (hu : ∀ m, Named e m → Desc f n m) :
    ∃ edit o, e.intoTextEdit f = some edit ∧ Rendered f e n o ∧
      edit.apply (Text.ofBuf f.text) = some (f.text.take r.start ++ o ++ f.text.drop r.stop) := by
  have hn : IsNode f n := by
    simp only [File.range, File.data, Option.map_eq_some_iff] at hr
    obtain ⟨d, h, _⟩ := hr
    exact isNode_of_getElem h
  rw [range_rng hn] at hr
  cases hr
  obtain ⟨edit, out, h1, h2, h3⟩ := intoTextEdit_spec hf e
  obtain ⟨o, h4, rfl⟩ := rendered_local hf (root_desc hf.nodes hn) (root_isNode hf.nodes) hu h2
  refine ⟨edit, o, h1, h4, ?_⟩
  rw [h3, root_rng hf]
  have : (List.drop (rng f n).stop f.text).length ≤ f.text.length - (rng f n).stop := by simp
  simp [bytes, List.take_of_length_le this]

example : ∀ m, Named (FileEdit.new.replaceWithText 5 [10] : FileEdit Nat) m → Desc exampleFile 3 m := by
  intro m h
  simp [Named, FileEdit.replaceWithText, FileEdit.new] at h
  subst h
  exact .step ⟨[4, 5], rfl, by simp⟩ (.refl _)

/-- C22. With no requests the text is unchanged. -/
theorem C22_no_requests (f : File α) (hf : ConsistentFile f) :
    ∃ edit, FileEdit.new.intoTextEdit f = some edit ∧
      edit.apply (Text.ofBuf f.text) = some f.text := by
  obtain ⟨edit, out, h1, h2, h3⟩ := intoTextEdit_spec hf FileEdit.new
  refine ⟨edit, h1, ?_⟩
  rw [h3, rendered_unnamed hf f.nodes.length 0 (root_isNode hf.nodes) (by omega) ?_ h2, root_rng hf,
    bytes_full]
  intro m _ h
  simp [Named, FileEdit.new] at h

example : (FileEdit.new.intoTextEdit exampleFile).bind (·.apply (Text.ofBuf exampleFile.text)) =
    some exampleFile.text := by decide

/-- C22. A single deletion, replacement or insertion is the corresponding splice of the text. -/
theorem C22_single_request (f : File α) (hf : ConsistentFile f) (n : Nat) (r : TextRange)
    (hr : f.range n = some r) (s : List α) :
    (∃ edit, (FileEdit.new.delete n).intoTextEdit f = some edit ∧
      edit.apply (Text.ofBuf f.text) = some (f.text.take r.start ++ f.text.drop r.stop)) ∧
    (∃ edit, (FileEdit.new.replaceWithText n s).intoTextEdit f = some edit ∧
      edit.apply (Text.ofBuf f.text) = some (f.text.take r.start ++ s ++ f.text.drop r.stop)) ∧
    (∃ edit, (FileEdit.new.insertTextAfter n s).intoTextEdit f = some edit ∧
      edit.apply (Text.ofBuf f.text) = some (f.text.take r.stop ++ s ++ f.text.drop r.stop)) := by
  have hn : IsNode f n := by
    simp only [File.range, File.data, Option.map_eq_some_iff] at hr
    obtain ⟨d, h, _⟩ := hr
    exact isNode_of_getElem h
  refine ⟨?_, ?_, ?_⟩
  · obtain ⟨edit, o, h1, h2, h3⟩ := C22_local f hf (FileEdit.new.delete n) n r hr (by
      intro m h
      simp [Named, FileEdit.delete, FileEdit.new] at h
      subst h; exact .refl _)
    refine ⟨edit, h1, ?_⟩
    cases h2 with
    | deleted _ => simpa using h3
    | replaced h _ => simp [FileEdit.delete, FileEdit.new] at h
    | leaf h _ _ _ => simp [FileEdit.delete, FileEdit.new] at h
    | inner h _ _ _ _ => simp [FileEdit.delete, FileEdit.new] at h
  · obtain ⟨edit, o, h1, h2, h3⟩ := C22_local f hf (FileEdit.new.replaceWithText n s) n r hr (by
      intro m h
      simp [Named, FileEdit.replaceWithText, FileEdit.new] at h
      subst h; exact .refl _)
    refine ⟨edit, h1, ?_⟩
    cases h2 with
    | deleted h => simp [FileEdit.replaceWithText, FileEdit.new] at h
    | replaced _ h =>
      simp [FileEdit.replaceWithText, FileEdit.new, List.lookup_cons] at h
      subst h; exact h3
    | leaf _ h _ _ => simp [FileEdit.replaceWithText, FileEdit.new, List.lookup_cons] at h
    | inner _ h _ _ _ => simp [FileEdit.replaceWithText, FileEdit.new, List.lookup_cons] at h
  · obtain ⟨edit, o, h1, h2, h3⟩ := C22_local f hf (FileEdit.new.insertTextAfter n s) n r hr (by
      intro m h
      simp [Named, FileEdit.insertTextAfter, FileEdit.new] at h
      subst h; exact .refl _)
    refine ⟨edit, h1, ?_⟩
    have hins : insertedAfter (FileEdit.new.insertTextAfter n s) n = s := by
      simp [insertedAfter, FileEdit.insertTextAfter, FileEdit.new, List.lookup_cons]
    rw [range_rng hn] at hr
    cases hr
    have hv := rng_valid hf.nodes hn
    have key : f.text.take (rng f n).start ++ (bytes f.text (rng f n).start (rng f n).stop ++ s) =
        f.text.take (rng f n).stop ++ s := by
      rw [← List.append_assoc]
      congr 1
      have := bytes_append_bytes f.text (a := 0) (Nat.zero_le _) hv
      simpa [bytes] using this
    cases h2 with
    | deleted h => simp [FileEdit.insertTextAfter, FileEdit.new] at h
    | replaced _ h => simp [FileEdit.insertTextAfter, FileEdit.new] at h
    | leaf _ _ _ h =>
      rw [range_rng hn] at h
      cases h
      rw [hins] at h3
      rw [h3, key]
    | @inner _ cs o' _ _ h4 h5 h6 =>
      rw [hins] at h3
      have := renderedAll_unnamed hf (cs := cs) (fun c hc => ?_) (fun c hc m hm hnm => ?_) h6
      · rw [children_kids hn] at h4
        cases h4
        rw [tiles_bytes f.text (rng f) (kids_tile hf.nodes hn h5)] at this
        subst this
        rw [h3, key]
      · exact (child_spec hf.nodes ⟨cs, h4, hc⟩).2.2.1
      · simp [Named, FileEdit.insertTextAfter, FileEdit.new] at hnm
        subst hnm
        have g1 := (child_spec hf.nodes ⟨cs, h4, hc⟩).1
        have g2 := desc_le hf.nodes hm
        omega

example : exampleFile.range 3 = some ⟨2, 6⟩ ∧
    ((FileEdit.new.insertTextAfter 3 [9, 9]).intoTextEdit exampleFile).bind
      (·.apply (Text.ofBuf exampleFile.text)) = some [0, 1, 2, 3, 4, 5, 9, 9, 6] := by decide

/-- C22. What the rendering drops: a second replacement of or a second insertion after the same node,
and an insertion whose anchor is deleted or replaced. -/
theorem C22_conflicts :
    ((((FileEdit.new.insertTextAfter 1 [8]).insertTextAfter 1 [9]).intoTextEdit exampleFile).bind
      (·.apply (Text.ofBuf exampleFile.text)) = some [0, 1, 8, 2, 3, 4, 5, 6]) ∧
    ((((FileEdit.new.replaceWithText 1 [8]).replaceWithText 1 [9]).intoTextEdit exampleFile).bind
      (·.apply (Text.ofBuf exampleFile.text)) = some [8, 2, 3, 4, 5, 6]) ∧
    ((((FileEdit.new.delete 1).insertTextAfter 1 [9]).intoTextEdit exampleFile).bind
      (·.apply (Text.ofBuf exampleFile.text)) = some [2, 3, 4, 5, 6]) := by decide

/-! ## C23 replacing a substring -/

/-- C23. `replace_substring` on its own replaces exactly the bytes of the range. -/
theorem C23_replace_substring (f : File α) (hf : ConsistentFile f) (q : TextRange)
    (hq : q.start ≤ q.stop) (hl : q.stop ≤ f.text.length) (s : List α) :
    ∃ e edit, FileEdit.new.replaceSubstring f q s = some e ∧ e.intoTextEdit f = some edit ∧
      edit.apply (Text.ofBuf f.text) = some (f.text.take q.start ++ s ++ f.text.drop q.stop) := by
  have hsub : q.isSubrangeOf ⟨0, f.text.length⟩ = true := by simp [TextRange.isSubrangeOf, hl]
  obtain ⟨m, h1, h2, ⟨mr, h3, h4, h5⟩, _⟩ :=
    C18_covering_node f hf.nodes 0 ⟨0, f.text.length⟩ q hf.covers hq (Nat.zero_le _) hl
  have hm := desc_isNode hf.nodes h2 (root_isNode hf.nodes)
  have hmr := h3
  rw [range_rng hm] at hmr
  simp only [Option.some.injEq] at hmr
  have hle := node_range_le hf hm
  rw [hmr] at hle
  have p1 := piece_copy (Text.ofBuf_wf f.text) (Text.asStr_ofBuf f.text) ⟨mr.start, q.start⟩
  have p2 := piece_copy (Text.ofBuf_wf f.text) (Text.asStr_ofBuf f.text) ⟨q.stop, mr.stop⟩
  rw [if_pos ⟨h4, Nat.le_trans hq (Nat.le_trans h5 hle)⟩] at p1
  rw [if_pos ⟨h5, hle⟩] at p2
  simp only [TextEditOp.piece, Option.bind_eq_some_iff] at p1 p2
  obtain ⟨t1, a1, a2⟩ := p1
  obtain ⟨t2, b1, b2⟩ := p2
  have he : FileEdit.new.replaceSubstring f q s =
      some (FileEdit.new.replaceWithText m
        (bytes f.text mr.start q.start ++ s ++ bytes f.text q.stop mr.stop)) := by
    simp only [FileEdit.replaceSubstring, File.root, hf.covers, Option.bind_eq_bind, Option.bind_some,
      hsub, Bool.not_true, Bool.false_eq_true, if_false, h1, h3, TextRange.fromTo, h4, h5, if_true,
      a1, a2, b1, b2]
    rfl
  obtain ⟨_, ⟨edit, g1, g2⟩, _⟩ := C22_single_request f hf m mr h3
    (bytes f.text mr.start q.start ++ s ++ bytes f.text q.stop mr.stop)
  refine ⟨_, edit, he, g1, ?_⟩
  rw [g2]
  congr 1
  have e1 : f.text.take mr.start ++ bytes f.text mr.start q.start = f.text.take q.start := by
    have := bytes_append_bytes f.text (a := 0) (Nat.zero_le _) h4
    simpa [bytes] using this
  have e2 : bytes f.text q.stop mr.stop ++ f.text.drop mr.stop = f.text.drop q.stop := by
    have := bytes_append_bytes f.text (c := f.text.length) h5 hle
    have h6 : (List.drop mr.stop f.text).length ≤ f.text.length - mr.stop := by simp
    have h7 : (List.drop q.stop f.text).length ≤ f.text.length - q.stop := by simp
    simpa [bytes, List.take_of_length_le h6, List.take_of_length_le h7] using this
  rw [← e1, ← e2]
  simp [List.append_assoc]

example : ConsistentFile exampleFile ∧
    ((FileEdit.new.replaceSubstring exampleFile ⟨1, 3⟩ [9]).bind (·.intoTextEdit exampleFile)).bind
      (·.apply (Text.ofBuf exampleFile.text)) = some [0, 9, 3, 4, 5, 6] :=
  ⟨exampleFile_consistent, by decide⟩

/-! ## C52 typed lookups -/

theorem mem_ty {f : File α} {n : Nat} (hn : IsNode f n) (p : NodeType → Bool) :
    p (dat f n).ty = true ↔ ∃ ty, f.ty n = some ty ∧ p ty = true := by
  simp [File.ty, data_dat hn]

/-- C52. Typed children: exactly the children whose type is accepted, in order; `child_of_type` is
the first one, or nothing if there is none. -/
theorem C52_children (f : File α) (hc : Consistent f.nodes) (n : Nat) (cs : List Nat)
    (hcs : f.children n = some cs) (p : NodeType → Bool) (ty : NodeType) :
    (∃ l, f.astChildren p n = some l ∧ l.Sublist cs ∧
      ∀ c, c ∈ l ↔ c ∈ cs ∧ ∃ t, f.ty c = some t ∧ p t = true) ∧
    f.childrenOfType n ty = f.astChildren (· == ty) n ∧
    f.childOfType n ty = (f.childrenOfType n ty).map List.head? ∧
    f.childOfTypeExn n ty = (f.childrenOfType n ty).bind List.head? := by
  have hn : IsNode f n := by
    simp only [File.children, File.data, Option.map_eq_some_iff] at hcs
    obtain ⟨d, h, _⟩ := hcs
    exact isNode_of_getElem h
  rw [children_kids hn] at hcs
  cases hcs
  have hall : ∀ c ∈ kids f n, IsNode f c := fun c h => (kids_spec hc hn h).2.1
  refine ⟨⟨(kids f n).filter (fun c => p (dat f c).ty), ?_, List.filter_sublist, ?_⟩, rfl, ?_, ?_⟩
  · simp [File.astChildren, children_kids hn, filterNodes_eq _ hall]
  · intro c
    rw [List.mem_filter]
    constructor
    · rintro ⟨h1, h2⟩; exact ⟨h1, (mem_ty (hall c h1) p).1 h2⟩
    · rintro ⟨h1, h2⟩; exact ⟨h1, (mem_ty (hall c h1) p).2 h2⟩
  · simp [File.childOfType, File.childrenOfType, children_kids hn, filterNodes_eq _ hall,
      findNode_eq _ hall, List.head?_filter]
  · simp [File.childOfTypeExn, File.childOfType, File.childrenOfType, children_kids hn,
      filterNodes_eq _ hall, findNode_eq _ hall, List.head?_filter]

example : exampleFile.children 0 = some [1, 2, 3, 6] ∧ exampleFile.childrenOfType 0 2 = some [1, 6] ∧
    exampleFile.childOfType 0 2 = some (some 1) ∧ exampleFile.childOfType 0 5 = some none := by decide

/-- Collecting by a predicate is filtering. -/
theorem foldlM_collect {F : List Nat → Nat → Option (List Nat)} {q : Nat → Bool} (l acc : List Nat)
    (h : ∀ acc, ∀ n ∈ l, F acc n = some (if q n then acc ++ [n] else acc)) :
    l.foldlM F acc = some (acc ++ l.filter q) := by
  induction l generalizing acc with
  | nil => simp
  | cons n l ih =>
    rw [List.foldlM_cons, h acc n (by simp)]
    simp only [Option.bind_eq_bind, Option.bind_some]
    rw [ih _ (fun acc m hm => h acc m (by simp [hm]))]
    by_cases hq : q n = true <;> simp [hq]

/-- C52. Typed descendants: exactly the descendants (and the node itself) whose type is accepted, in
the order of `subtree`. -/
theorem C52_descendants (f : File α) (hc : Consistent f.nodes) (n : Nat) (hn : IsNode f n)
    (p : NodeType → Bool) (ty : NodeType) :
    ∃ all l, f.subtree n = some all ∧ f.astDescendants p n = some l ∧ l.Sublist all ∧
      (∀ m, m ∈ l ↔ Desc f n m ∧ ∃ t, f.ty m = some t ∧ p t = true) ∧
      f.descendantsOfType n ty = f.astDescendants (· == ty) n := by
  obtain ⟨all, h1, h2, _, _, _, h3⟩ := C21_subtree f hc n hn
  have hall : ∀ m ∈ all, IsNode f m := fun m hm => desc_isNode hc ((h2 m).1 hm) hn
  have key : ∀ p : NodeType → Bool, f.astDescendants p n =
      some (all.filter (fun m => p (dat f m).ty)) := by
    intro p
    unfold File.astDescendants
    rw [h3]
    rw [foldlM_collect (q := fun m => p (dat f m).ty) all []]
    · simp
    · intro acc m hm
      simp [File.ty, data_dat (hall m hm)]
  refine ⟨all, _, h1, key p, List.filter_sublist, ?_, ?_⟩
  · intro m
    rw [List.mem_filter]
    constructor
    · rintro ⟨g1, g2⟩; exact ⟨(h2 m).1 g1, (mem_ty (hall m g1) p).1 g2⟩
    · rintro ⟨g1, g2⟩
      have := (h2 m).2 g1
      exact ⟨this, (mem_ty (hall m this) p).2 g2⟩
  · rw [key]
    unfold File.descendantsOfType File.processSubtreeBottomUp
    rw [h3]
    rw [foldlM_collect (q := fun m => (dat f m).ty == ty) all []]
    · simp
    · intro acc m hm
      simp only [File.visitTy, File.ty, data_dat (hall m hm), Option.map_some, Option.bind_eq_bind,
        Option.bind_some, List.foldlM_cons, List.foldlM_nil]
      by_cases h : (dat f m).ty = ty <;> simp [h, List.contains_cons]

example : exampleFile.descendantsOfType 0 2 = some [1, 6] ∧
    exampleFile.astDescendants (· > 3) 0 = some [4, 5, 3] := by decide

/-- The nearest ancestor-or-self of an accepted type. -/
theorem astAncestor_spec {f : File α} (hc : Consistent f.nodes) {n : Nat} (hn : IsNode f n)
    (p : NodeType → Bool) :
    ∃ res, f.astAncestor p n = some res ∧
      (∀ m, res = some m → Desc f m n ∧ (∃ t, f.ty m = some t ∧ p t = true) ∧
        ∀ q t, Desc f q n → f.ty q = some t → p t = true → Desc f q m) ∧
      (res = none → ∀ q t, Desc f q n → f.ty q = some t → p t = false) := by
  obtain ⟨as, e, _, h2, _, h4⟩ := ancestors_spec hc n hn
  have hall : ∀ a ∈ n :: as, IsNode f a := by
    intro a ha
    have := desc_le hc ((h2 a).1 ha)
    have : n < f.nodes.length := hn
    show a < f.nodes.length
    omega
  refine ⟨(n :: as).find? (fun m => p (dat f m).ty), ?_, ?_, ?_⟩
  · simp only [File.astAncestor, e, Option.bind_eq_bind, Option.bind_some, findNode_eq _ hall]
  · intro m hm
    have hmem := List.mem_of_find?_eq_some hm
    refine ⟨(h2 m).1 hmem, (mem_ty (hall m hmem) p).1
      (List.find?_some (p := fun m => p (dat f m).ty) hm), ?_⟩
    intro q t hq ht hp
    rw [List.find?_eq_some_iff_append] at hm
    obtain ⟨_, pre, post, e2, hpre⟩ := hm
    have hqm := (h2 q).2 hq
    have hpq := (mem_ty (hall q hqm) p).2 ⟨t, ht, hp⟩
    rw [e2, List.mem_append] at hqm
    rcases hqm with hqm | hqm
    · have := hpre q hqm
      rw [hpq] at this
      simp at this
    · exact (h4 pre m post e2 q).1 hqm
  · intro hm q t hq ht
    rw [List.find?_eq_none] at hm
    have hqm := (h2 q).2 hq
    have := hm q hqm
    rw [File.ty, data_dat (hall q hqm)] at ht
    simp at ht
    subst ht
    simpa using this

/-- C52. The typed ancestor is the nearest ancestor-or-self of an accepted type. -/
theorem C52_ancestor (f : File α) (hc : Consistent f.nodes) (n : Nat) (hn : IsNode f n)
    (p : NodeType → Bool) :
    ∃ res, f.astAncestor p n = some res ∧
      (∀ m, res = some m → Desc f m n ∧ (∃ t, f.ty m = some t ∧ p t = true) ∧
        ∀ q t, Desc f q n → f.ty q = some t → p t = true → Desc f q m) ∧
      (res = none → ∀ q t, Desc f q n → f.ty q = some t → p t = false) :=
  astAncestor_spec hc hn p

example : exampleFile.astAncestor (· == 4) 5 = some (some 3) ∧
    exampleFile.astAncestor (· < 3) 5 = some (some 0) ∧
    exampleFile.astAncestor (· == 2) 5 = some none := by decide

/-- C52. The typed node at an offset is a typed ancestor of a leaf touching the offset; it is missing
exactly if no such leaf has one; at a boundary the left leaf is preferred. -/
theorem C52_node_at_offset (f : File α) (hc : Consistent f.nodes) (n offset : Nat) (r : TextRange)
    (hr : f.range n = some r) (h1 : r.start ≤ offset) (h2 : offset ≤ r.stop) (p : NodeType → Bool) :
    ∃ res leaves, f.astNodeAtOffset p n offset = some res ∧
      f.findLeafAtOffset n offset = some leaves ∧
      (∀ m, res = some m → ∃ l ∈ leaves.toList, f.astAncestor p l = some (some m)) ∧
      (res = none ↔ ∀ l ∈ leaves.toList, f.astAncestor p l = some none) ∧
      (∀ left right m, leaves = .between left right → f.astAncestor p left = some (some m) →
        res = some m) := by
  have hn : IsNode f n := by
    simp only [File.range, File.data, Option.map_eq_some_iff] at hr
    obtain ⟨d, h, _⟩ := hr
    exact isNode_of_getElem h
  obtain ⟨leaves, e, hm, _, _⟩ := C17_leaf_at_offset f hc n offset r hr h1 h2
  have hanc : ∀ l ∈ leaves.toList, ∃ res, f.astAncestor p l = some res := by
    intro l hl
    obtain ⟨res, h, _⟩ := astAncestor_spec hc (desc_isNode hc ((hm l).1 hl).1 hn) p
    exact ⟨res, h⟩
  cases leaves with
  | none =>
    refine ⟨none, .none, by simp [File.astNodeAtOffset, e], e, by simp, by simp [LeafAtOffset.toList],
      by simp⟩
  | single l =>
    obtain ⟨res, h⟩ := hanc l (by simp [LeafAtOffset.toList])
    refine ⟨res, .single l, by simp [File.astNodeAtOffset, e, h], e, ?_, ?_, by simp⟩
    · rintro m rfl; exact ⟨l, by simp [LeafAtOffset.toList], h⟩
    · simp [LeafAtOffset.toList, h]
  | between l r =>
    obtain ⟨res1, g1⟩ := hanc l (by simp [LeafAtOffset.toList])
    obtain ⟨res2, g2⟩ := hanc r (by simp [LeafAtOffset.toList])
    cases res1 with
    | some m =>
      refine ⟨some m, .between l r, by simp [File.astNodeAtOffset, e, g1], e, ?_, ?_, ?_⟩
      · rintro m' h; cases h; exact ⟨l, by simp [LeafAtOffset.toList], g1⟩
      · simp [LeafAtOffset.toList, g1]
      · intro left right m' h h'; cases h; rw [g1] at h'; simpa using h'
    | none =>
      refine ⟨res2, .between l r, by simp [File.astNodeAtOffset, e, g1, g2], e, ?_, ?_, ?_⟩
      · rintro m rfl; exact ⟨r, by simp [LeafAtOffset.toList], g2⟩
      · simp [LeafAtOffset.toList, g1, g2]
      · intro left right m' h h'; cases h; rw [g1] at h'; simp at h'

example : exampleFile.astNodeAtOffset (· == 4) 0 2 = some (some 3) ∧
    exampleFile.astNodeAtOffset (· == 2) 0 2 = some (some 1) ∧
    exampleFile.astNodeAtOffset (· == 9) 0 2 = some none := by decide

end Fall
