import Verif.Spec.FallExtract
import Verif.Lemmas.FallFormat

/-! Facts about the extraction of rules. -/

namespace Fall
open Spec

theorem desc_of_nodes {text : List α} {text' : List β} {nodes : List NodeData} {a b : Nat}
    (h : Desc (⟨text, nodes⟩ : File α) a b) : Desc (⟨text', nodes⟩ : File β) a b := by
  induction h with
  | refl => exact .refl _
  | step h1 _ ih => exact .step h1 ih

/-- An insertion after a node that is not in the subtree changes nothing. -/
theorem rendered_other {f : File α} {e : FileEdit α} {x : Nat} {s : List α} {n : Nat}
    {out : List α} (hx : ¬ Desc f n x) (h : Rendered f (e.insertTextAfter x s) n out) :
    Rendered f e n out := by
  have same : ∀ n, n ≠ x → insertedAfter (e.insertTextAfter x s) n = insertedAfter e n := by
    intro n hne
    have hne : ¬ (n == x) = true := by simpa using hne
    simp only [insertedAfter, FileEdit.insertTextAfter, List.lookup_append, List.lookup_cons, hne, List.lookup_nil]
    simp
  have := Rendered.rec (f := f) (e := e.insertTextAfter x s)
    (motive_1 := fun n out _ => ¬ Desc f n x → Rendered f e n out)
    (motive_2 := fun ns out _ => (∀ c, c ∈ ns → ¬ Desc f c x) → RenderedAll f e ns out)
    ?_ ?_ ?_ ?_ (fun _ => .nil) ?_ h hx
  · exact this
  · exact fun h _ => .deleted h
  · exact fun h1 h2 _ => .replaced h1 h2
  · intro n r h1 h2 h3 h4 hx
    rw [same n fun h => hx (h ▸ .refl _)]
    exact .leaf h1 h2 h3 h4
  · intro n cs out h1 h2 h3 h4 _ ih hx
    rw [same n fun h => hx (h ▸ .refl _)]
    exact .inner h1 h2 h3 h4 (ih fun c hcc hd => hx (.step ⟨cs, h3, hcc⟩ hd))
  · intro n ns s t _ _ ih1 ih2 hx
    exact .cons (ih1 (hx n (by simp))) (ih2 fun c hc => hx c (by simp [hc]))

/-- Replacing in a proper descendant of `x` and inserting after `x`. -/
theorem rendered_both {f : File α} (hf : ConsistentFile f) {m x : Nat} {s t out : List α} (hd : Desc f x m)
    (hne : x ≠ m) (hx : IsNode f x)
    (h : Rendered f ((FileEdit.new.replaceWithText m s).insertTextAfter x t) 0 out) :
    out = bytes f.text 0 (rng f m).start ++ s ++ bytes f.text (rng f m).stop (rng f x).stop ++ t ++
      bytes f.text (rng f x).stop f.text.length := by
  have hc := hf.nodes
  have hu : ∀ n, Named ((FileEdit.new.replaceWithText m s).insertTextAfter x t) n → Desc f x n := by
    rintro n (h | ⟨_, h⟩ | ⟨_, h⟩)
    · simp [FileEdit.insertTextAfter, FileEdit.replaceWithText, FileEdit.new] at h
    · simp only [FileEdit.insertTextAfter, FileEdit.replaceWithText, FileEdit.new, List.nil_append, List.mem_singleton,
        Prod.mk.injEq] at h
      exact h.1 ▸ hd
    · simp only [FileEdit.insertTextAfter, FileEdit.replaceWithText, FileEdit.new, List.nil_append, List.mem_singleton,
        Prod.mk.injEq] at h
      exact h.1 ▸ .refl _
  obtain ⟨o, h1, rfl⟩ := rendered_local hf (root_desc hc hx) (root_isNode hc) (n := x) hu h
  have hroot := root_rng hf
  have hrep : (FileEdit.new.replaceWithText m s).replaced.lookup x = none := by
    have : ¬ (x == m) = true := by simpa using hne
    simp only [FileEdit.replaceWithText, FileEdit.new, List.nil_append, List.lookup_cons, this, List.lookup_nil]
  have hins : insertedAfter ((FileEdit.new.replaceWithText m s).insertTextAfter x t) x = t := by
    simp [insertedAfter, FileEdit.insertTextAfter, FileEdit.replaceWithText, FileEdit.new]
  have hins' : insertedAfter (FileEdit.new.replaceWithText m s) x = [] := rfl
  obtain ⟨o', h2, rfl⟩ : ∃ o', Rendered f (FileEdit.new.replaceWithText m s) x o' ∧ o = o' ++ t := by
    cases h1 with
    | deleted h' => cases h'
    | replaced _ h' => exact absurd (h'.symm.trans hrep) (by simp)
    | leaf _ _ h3 =>
      cases hd with
      | refl => exact absurd rfl hne
      | step h4 =>
        obtain ⟨cs, h5, h6⟩ := h4
        rw [h3] at h5
        cases h5
        cases h6
    | @inner _ cs o1 h2 h3 h4 h5 h6 =>
      refine ⟨o1, ?_, by rw [hins]⟩
      rw [← List.append_nil o1, ← hins']
      refine .inner (by simp [FileEdit.replaceWithText, FileEdit.new]) hrep h4 h5 ?_
      have : ∀ (cs : List Nat) (o1 : List α), (∀ c, c ∈ cs → Child f x c) →
          RenderedAll f ((FileEdit.new.replaceWithText m s).insertTextAfter x t) cs o1 →
            RenderedAll f (FileEdit.new.replaceWithText m s) cs o1 := by
        intro cs
        induction cs with
        | nil =>
          intro o1 _ h
          cases h
          exact .nil
        | cons c cs ih =>
          intro o1 hcs h
          cases h with
          | cons h7 h8 =>
            have hcc := child_spec hc (hcs c (by simp))
            refine .cons (rendered_other (fun hd => ?_) h7) (ih _ (fun c h => hcs c (by simp [h])) h8)
            have := desc_le hc hd
            omega
      exact this cs o1 (fun c h => ⟨cs, h4, h⟩) h6
  obtain ⟨o2, h3, rfl⟩ := rendered_local hf hd hx (n := m) (e := FileEdit.new.replaceWithText m s) (by
    rintro n (h | ⟨_, h⟩ | ⟨_, h⟩)
    · simp [FileEdit.replaceWithText, FileEdit.new] at h
    · simp only [FileEdit.replaceWithText, FileEdit.new, List.nil_append, List.mem_singleton, Prod.mk.injEq] at h
      exact h.1 ▸ .refl _
    · simp [FileEdit.replaceWithText, FileEdit.new] at h) h2
  have : o2 = s := by
    have hl : (FileEdit.new.replaceWithText m s).replaced.lookup m = some s := by
      simp [FileEdit.replaceWithText, FileEdit.new]
    cases h3 with
    | deleted h' => cases h'
    | replaced _ h' => exact Option.some.inj (h'.symm.trans hl)
    | leaf _ h' => exact absurd (hl.symm.trans h') (by simp)
    | inner _ h' => exact absurd (hl.symm.trans h') (by simp)
  subst this
  have hdr := desc_range hc hd
  have e1 : (bytes f.text 0 (rng f m).start) = bytes f.text 0 (rng f x).start ++
      bytes f.text (rng f x).start (rng f m).start := (bytes_append_bytes f.text (Nat.zero_le _) hdr.1).symm
  rw [e1, hroot]
  simp only [List.append_assoc]

theorem first_overlapping {g : Nat → TextRange} {q : TextRange} (hq : q.start < q.stop) {x : Nat} {rest : List Nat} :
    ∀ (l : List Nat) (a b : Nat), Tiles (l.map g) a b → a ≤ q.start →
      l.filter (fun c => (g c).intersects q) = x :: rest → (g x).start ≤ q.start := by
  intro l
  induction l with
  | nil => intro a b _ _ h; cases h
  | cons c l ih =>
    rintro a b ⟨h1, h2, h3⟩ ha h
    by_cases hp : (g c).intersects q = true
    · rw [List.filter_cons, if_pos hp, List.cons.injEq] at h
      rw [← h.1]
      omega
    · rw [List.filter_cons, if_neg hp] at h
      refine ih _ _ h3 ?_ h
      simp only [TextRange.intersects, TextRange.disjoint, Bool.not_eq_true, Bool.not_eq_false', Bool.or_eq_true,
        decide_eq_true_eq] at hp
      omega

theorem last_overlapping {g : Nat → TextRange} {q : TextRange} (hq : q.start < q.stop) :
    ∀ (l : List Nat) (a b : Nat), Tiles (l.map g) a b → a < q.stop → q.stop ≤ b →
      ∃ y, (l.filter (fun c => (g c).intersects q)).getLast? = some y ∧ q.stop ≤ (g y).stop := by
  intro l
  induction l with
  | nil =>
    intro a b h _ _
    have : a = b := h
    omega
  | cons c l ih =>
    rintro a b ⟨h1, h2, h3⟩ ha hb
    by_cases hs : q.stop ≤ (g c).stop
    · have hp : (g c).intersects q = true := by
        simp only [TextRange.intersects, TextRange.disjoint, Bool.not_eq_true', Bool.or_eq_false_iff,
          decide_eq_false_iff_not]
        omega
      have hnil : l.filter (fun c => (g c).intersects q) = [] := by
        rw [List.filter_eq_nil_iff]
        intro d hd
        have := tiles_mem h3 (List.mem_map_of_mem hd)
        simp only [TextRange.intersects, TextRange.disjoint, Bool.not_eq_true, Bool.not_eq_false', Bool.or_eq_true,
          decide_eq_true_eq]
        omega
      exact ⟨c, by rw [List.filter_cons, if_pos hp, hnil]; rfl, hs⟩
    · obtain ⟨y, h4, h5⟩ := ih _ _ h3 (by omega) hb
      refine ⟨y, ?_, h5⟩
      rw [List.filter_cons]
      split
      · rw [List.getLast?_cons, h4]
        rfl
      · exact h4

section
variable {f : File UInt8} (hf : ConsistentFile f) {q : TextRange} (hq : q.start < q.stop)
  (hl : q.stop ≤ f.text.length)
include hf hq

omit hq in
theorem selected_unique {e e' : Nat} (h : Selected f q e) (h' : Selected f q e') : e = e' := by
  obtain ⟨h1, ⟨r, h2, h3⟩, h4⟩ := h
  obtain ⟨g1, ⟨r', g2, g3⟩, g4⟩ := h'
  have := desc_le hf.nodes (h4 _ _ g1 g2 g3)
  have := desc_le hf.nodes (g4 _ _ h1 h2 h3)
  omega

omit hf hq in
theorem isExpr_dat {n : Nat} (hn : IsNode f n) : IsExpr f n ↔ isFallExpr (dat f n).ty = true := by
  simp only [IsExpr, ty_dat hn, Option.some.injEq, fallExpr_eq]
  exact ⟨fun ⟨_, h1, h2⟩ => h1 ▸ h2, fun h => ⟨_, rfl, h⟩⟩

omit hf hq in
theorem isExpr_isNode {n : Nat} (h : IsExpr f n) : IsNode f n := by
  obtain ⟨ty, h, -⟩ := h
  exact ofType_isNode h

include hl in
/-- The search for the expression around the selection. -/
theorem selected_find : ∃ node as o, f.findCoveringNode 0 q = some node ∧ f.ancestors node = some as ∧
    f.findNode (fun d => isFallExpr d.ty) as = some o ∧
      ((o = none ∧ ∀ e, ¬ Selected f q e) ∨ ∃ e, o = some e ∧ Selected f q e) := by
  have hc := hf.nodes
  obtain ⟨node, h1, h2, h3, -, h4⟩ := covering_least hf (Nat.le_of_lt hq) hl
  obtain ⟨as, h5, -, h6, -, h7⟩ := ancestors_spec hc node h2
  have hall : ∀ a, a ∈ node :: as → IsNode f a := fun a ha => desc_isNode' hf ((h6 a).1 ha) h2
  refine ⟨node, node :: as, _, h1, h5, findNode_eq _ hall, ?_⟩
  cases hfind : (node :: as).find? (fun n => isFallExpr (dat f n).ty) with
  | none =>
    refine .inl ⟨rfl, fun e ⟨g1, ⟨r, g2, g3⟩, _⟩ => ?_⟩
    have he := isExpr_isNode g1
    rw [range_rng he, Option.some.injEq] at g2
    have := List.find?_eq_none.1 hfind e ((h6 e).2 (h4 hq e he (g2 ▸ g3)))
    exact this ((isExpr_dat he).1 g1)
  | some e =>
    obtain ⟨g1, pre, post, g2, g3⟩ := List.find?_eq_some_iff_append.1 hfind
    have hmem : e ∈ node :: as := by rw [g2]; simp
    have he := hall e hmem
    have hd := (h6 e).1 hmem
    refine .inr ⟨e, rfl, (isExpr_dat he).2 g1, ⟨_, range_rng he, ?_⟩, fun m r k1 k2 k3 => ?_⟩
    · have := desc_range hc hd
      unfold Within at *
      omega
    · have hm := isExpr_isNode k1
      rw [range_rng hm, Option.some.injEq] at k2
      have hmm := (h6 m).2 (h4 hq m hm (k2 ▸ k3))
      refine (h7 pre e post g2 m).1 ?_
      rw [g2, List.mem_append] at hmm
      rcases hmm with hmm | hmm
      · have := g3 m hmm
        simp only [(isExpr_dat hm).1 k1, Bool.not_true, Bool.false_eq_true] at this
      · exact hmm

/-- The part to extract contains the selection and is in the expression. -/
theorem piece_total {e : Nat} (he : IsNode f e) (hw : Within q (rng f e)) :
    ∃ r, rangeToExtract f e q = some r ∧ Piece f q e r ∧ Within q r ∧ Within r (rng f e) := by
  have hc := hf.nodes
  have hself : Within (rng f e) (rng f e) := ⟨Nat.le_refl _, Nat.le_refl _⟩
  have hkids : f.children e = some (kids f e) := children_kids he
  have hall : ∀ c, c ∈ kids f e → IsNode f c := fun c h => kids_isNode hf he c h
  have hfil := filterNodes_eq (f := f) (fun d => d.range.intersects q) hall
  have hwith : ChildrenWith f e (Overlaps f q) ((kids f e).filter fun c => (rng f c).intersects q) := by
    refine ⟨_, hkids, List.filter_sublist, fun c hcm => ?_⟩
    simp only [List.mem_filter, hcm, true_and, Overlaps, range_rng (hall c hcm), Option.some.injEq,
      TextRange.intersects, TextRange.disjoint, Bool.not_eq_true', Bool.or_eq_false_iff, decide_eq_false_iff_not]
    constructor
    · intro h
      exact ⟨_, rfl, by omega, by omega⟩
    · rintro ⟨_, rfl, h1, h2⟩
      omega
  unfold rangeToExtract
  simp only [ty_dat he, Option.bind_eq_bind, Option.bind_some, hkids, range_rng he]
  by_cases hseq : (dat f e).ty == Ty.seqExpr
  · rw [if_pos hseq]
    have hty : OfType f 136 e := by
      rw [OfType, ty_dat he]
      exact congrArg some (eq_of_beq hseq)
    have hfil : f.filterNodes (fun d => d.range.intersects q) (kids f e) =
        some ((kids f e).filter fun c => (rng f c).intersects q) := hfil
    rw [hfil, Option.bind_some]
    have huniq : ∀ {a b : Nat} {mid : List Nat}, ChildrenWith f e (Overlaps f q) (a :: (mid ++ [b])) →
        (kids f e).filter (fun c => (rng f c).intersects q) = a :: (mid ++ [b]) :=
      fun h => childrenWith_unique hf he hwith h
    cases hcs : (kids f e).filter fun c => (rng f c).intersects q with
    | nil =>
      refine ⟨_, rfl, .inr ⟨fun a b ⟨_, _, _, mid, h⟩ => ?_, range_rng he⟩, hw, hself⟩
      have := huniq h
      rw [hcs] at this
      cases this
    | cons a rest =>
      dsimp only
      cases hlast : rest.getLast? with
      | none =>
        refine ⟨_, rfl, .inr ⟨fun a b ⟨_, _, _, mid, h⟩ => ?_, range_rng he⟩, hw, hself⟩
        have := huniq h
        rw [hcs, List.cons.injEq] at this
        rw [this.2] at hlast
        simp at hlast
      | some b =>
        obtain ⟨mid, rfl⟩ := List.getLast?_eq_some_iff.1 hlast
        have hmem : ∀ c, c ∈ a :: (mid ++ [b]) → c ∈ kids f e := by
          intro c h
          rw [← hcs] at h
          exact (List.mem_filter.1 h).1
        have ha := hmem a (by simp)
        have hb := hmem b (by simp)
        simp only [ty_dat (hall a ha), ty_dat (hall b hb), Option.bind_some, range_rng (hall a ha),
          range_rng (hall b hb)]
        by_cases hex : (isFallExpr (dat f a).ty && isFallExpr (dat f b).ty) = true
        · rw [if_pos hex]
          rw [Bool.and_eq_true] at hex
          have ht := kids_tile hc he (List.ne_nil_of_mem ha)
          have h1 := first_overlapping hq _ _ _ ht hw.1 hcs
          obtain ⟨y, h2, h3⟩ := last_overlapping hq _ _ _ ht (Nat.lt_of_le_of_lt hw.1 hq) hw.2
          rw [hcs, List.getLast?_cons, List.getLast?_append] at h2
          have h2 : b = y := by simpa using h2
          subst h2
          have h4 := tiles_mem ht (List.mem_map_of_mem ha)
          have h5 := tiles_mem ht (List.mem_map_of_mem hb)
          refine ⟨⟨(rng f a).start, (rng f b).stop⟩, fromTo_eq_some.2 ⟨by omega, rfl⟩,
            .inl ⟨a, b, _, _, ⟨hty, (isExpr_dat (hall a ha)).2 hex.1, (isExpr_dat (hall b hb)).2 hex.2, mid, hcs ▸ hwith⟩,
              range_rng (hall a ha), range_rng (hall b hb), rfl⟩, ⟨h1, h3⟩, h4.1, h5.2.2⟩
        · rw [if_neg hex]
          refine ⟨_, rfl, .inr ⟨fun a' b' ⟨_, h1, h2, mid', h⟩ => ?_, range_rng he⟩, hw, hself⟩
          have := huniq h
          rw [hcs, List.cons.injEq] at this
          obtain ⟨rfl, this⟩ := this
          have h3 := congrArg List.getLast? this
          simp only [List.getLast?_append, List.getLast?_singleton, Option.some_or, Option.some.injEq] at h3
          subst h3
          exact hex (by rw [(isExpr_dat (hall _ ha)).1 h1, (isExpr_dat (hall _ hb)).1 h2]; rfl)
  · rw [if_neg hseq]
    refine ⟨_, rfl, .inr ⟨fun a b ⟨h, _⟩ => ?_, range_rng he⟩, hw, hself⟩
    rw [OfType, ty_dat he, Option.some.injEq] at h
    exact hseq (beq_iff_eq.2 h)

omit hq in
theorem piece_unique {e : Nat} (he : IsNode f e) {r r' : TextRange} (h : Piece f q e r) (h' : Piece f q e r') :
    r = r' := by
  rcases h with ⟨a, b, ra, rb, h1, h2, h3, rfl⟩ | ⟨h1, h2⟩
  · rcases h' with ⟨a', b', ra', rb', g1, g2, g3, rfl⟩ | ⟨g1, -⟩
    · obtain ⟨-, -, -, mid, h4⟩ := h1
      obtain ⟨-, -, -, mid', g4⟩ := g1
      have h5 := childrenWith_unique hf he h4 g4
      rw [List.cons.injEq] at h5
      obtain ⟨rfl, h5⟩ := h5
      have h6 := congrArg List.getLast? h5
      simp only [List.getLast?_append, List.getLast?_singleton, Option.some_or, Option.some.injEq] at h6
      subst h6
      rw [h2, Option.some.injEq] at g2
      rw [h3, Option.some.injEq] at g3
      rw [g2, g3]
    · exact absurd h1 (g1 a b)
  · rcases h' with ⟨a', b', ra', rb', g1, -⟩ | ⟨-, g2⟩
    · exact absurd g1 (h1 a' b')
    · rw [h2, Option.some.injEq] at g2
      exact g2

end

end Fall
