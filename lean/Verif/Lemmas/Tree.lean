import Verif.Spec.Tree
import Verif.Lemmas.Text

/-! Helper lemmas about consistent node tables. -/

namespace Fall
open Spec

/-- Total access to the node table. -/
def dat (f : File α) (n : Nat) : NodeData := (f.nodes[n]?).getD ⟨0, none, [], ⟨0, 0⟩⟩

def rng (f : File α) (n : Nat) : TextRange := (dat f n).range

def kids (f : File α) (n : Nat) : List Nat := (dat f n).children

theorem getElem_dat {f : File α} {n : Nat} (h : IsNode f n) : f.nodes[n]? = some (dat f n) := by
  unfold dat
  have := List.getElem?_eq_getElem h
  rw [this]; rfl

theorem isNode_of_getElem {f : File α} {n : Nat} {d : NodeData} (h : f.nodes[n]? = some d) :
    IsNode f n := (List.getElem?_eq_some_iff.1 h).1

theorem dat_of_getElem {f : File α} {n : Nat} {d : NodeData} (h : f.nodes[n]? = some d) :
    dat f n = d := by
  unfold dat; rw [h]; rfl

theorem data_dat {f : File α} {n : Nat} (h : IsNode f n) : f.data n = some (dat f n) :=
  getElem_dat h

theorem range_rng {f : File α} {n : Nat} (h : IsNode f n) : f.range n = some (rng f n) := by
  simp [File.range, data_dat h, rng]

theorem children_kids {f : File α} {n : Nat} (h : IsNode f n) :
    f.children n = some (kids f n) := by
  simp [File.children, data_dat h, kids]

theorem parent_dat {f : File α} {n : Nat} (h : IsNode f n) :
    f.parent n = some (dat f n).parent := by
  simp [File.parent, data_dat h]

theorem child_iff {f : File α} {n c : Nat} : Child f n c ↔ IsNode f n ∧ c ∈ kids f n := by
  constructor
  · rintro ⟨cs, h1, h2⟩
    simp only [File.children, File.data, Option.map_eq_some_iff] at h1
    obtain ⟨d, h3, rfl⟩ := h1
    refine ⟨isNode_of_getElem h3, ?_⟩
    simp [kids, dat_of_getElem h3, h2]
  · rintro ⟨h1, h2⟩
    exact ⟨_, children_kids h1, h2⟩

section
variable {f : File α} (hc : Consistent f.nodes)
include hc

theorem root_isNode : IsNode f 0 := by
  obtain ⟨d, h, _⟩ := hc.root
  exact isNode_of_getElem h

theorem root_parent : (dat f 0).parent = none := by
  obtain ⟨d, h, h2⟩ := hc.root
  rw [dat_of_getElem h, h2]

theorem kids_spec {n c : Nat} (hn : IsNode f n) (h : c ∈ kids f n) :
    n < c ∧ IsNode f c ∧ (dat f c).parent = some n := by
  obtain ⟨h1, e, h2, h3⟩ := hc.child n (dat f n) c (getElem_dat hn) h
  exact ⟨h1, isNode_of_getElem h2, by rw [dat_of_getElem h2, h3]⟩

theorem parent_spec {n p : Nat} (hn : IsNode f n) (h : (dat f n).parent = some p) :
    IsNode f p ∧ n ∈ kids f p ∧ p < n := by
  obtain ⟨d, h1, h2⟩ := hc.parent n (dat f n) p (getElem_dat hn) h
  have hp := isNode_of_getElem h1
  have h3 : n ∈ kids f p := by simp [kids, dat_of_getElem h1, h2]
  exact ⟨hp, h3, (kids_spec hc hp h3).1⟩

theorem parent_some {n : Nat} (hn : IsNode f n) (h : n ≠ 0) :
    ∃ p, (dat f n).parent = some p := by
  have := hc.nonroot n (dat f n) (getElem_dat hn) h
  cases h2 : (dat f n).parent with
  | none => exact absurd h2 this
  | some p => exact ⟨p, rfl⟩

theorem kids_nodup {n : Nat} (hn : IsNode f n) : (kids f n).Nodup :=
  hc.once n (dat f n) (getElem_dat hn)

theorem rng_valid {n : Nat} (hn : IsNode f n) : (rng f n).start ≤ (rng f n).stop :=
  hc.valid n (dat f n) (getElem_dat hn)

omit hc in
theorem mapM_rng {cs : List Nat} {rs : List TextRange}
    (h : cs.mapM (fun c => f.nodes[c]?.map (·.range)) = some rs) : rs = cs.map (rng f) := by
  induction cs generalizing rs with
  | nil => simp at h; simp [h]
  | cons c cs ih =>
    simp only [List.mapM_cons, Option.bind_eq_bind, Option.bind_eq_some_iff, Option.map_eq_some_iff,
      Option.pure_def, Option.some.injEq] at h
    obtain ⟨r, ⟨d, h1, rfl⟩, rs', h2, rfl⟩ := h
    simp [ih h2, rng, dat_of_getElem h1]

theorem kids_tile {n : Nat} (hn : IsNode f n) (h : kids f n ≠ []) :
    Tiles ((kids f n).map (rng f)) (rng f n).start (rng f n).stop := by
  obtain ⟨rs, h1, h2⟩ := hc.tiles n (dat f n) (getElem_dat hn) h
  rw [mapM_rng h1] at h2
  exact h2

theorem child_spec {n c : Nat} (h : Child f n c) :
    n < c ∧ IsNode f n ∧ IsNode f c ∧ (dat f c).parent = some n := by
  rw [child_iff] at h
  have := kids_spec hc h.1 h.2
  exact ⟨this.1, h.1, this.2.1, this.2.2⟩

theorem desc_le {n m : Nat} (h : Desc f n m) : n ≤ m := by
  induction h with
  | refl => exact Nat.le_refl _
  | step h1 _ ih => have := (child_spec hc h1).1; omega

theorem desc_isNode {n m : Nat} (h : Desc f n m) (hn : IsNode f n) : IsNode f m := by
  induction h with
  | refl => exact hn
  | step h1 _ ih => exact ih (child_spec hc h1).2.2.1

end

theorem Spec.Desc.trans {f : File α} {a b c : Nat} (h1 : Desc f a b) (h2 : Desc f b c) :
    Desc f a c := by
  induction h1 with
  | refl => exact h2
  | step h _ ih => exact .step h (ih h2)

theorem Spec.Desc.snoc {f : File α} {a b c : Nat} (h1 : Desc f a b) (h2 : Child f b c) :
    Desc f a c := h1.trans (.step h2 (.refl _))

/-- The last step of a descent. -/
theorem desc_cases {f : File α} (hc : Consistent f.nodes) {n m : Nat} (h : Desc f n m) :
    n = m ∨ ∃ p, (dat f m).parent = some p ∧ Desc f n p := by
  induction h with
  | refl => exact .inl rfl
  | @step a c m h1 h2 ih =>
    rcases ih with rfl | ⟨p, h3, h4⟩
    · exact .inr ⟨a, (child_spec hc h1).2.2.2, .refl _⟩
    · exact .inr ⟨p, h3, .step h1 h4⟩

theorem root_desc {f : File α} (hc : Consistent f.nodes) {n : Nat} (hn : IsNode f n) :
    Desc f 0 n := by
  induction n using Nat.strongRecOn with
  | _ n ih =>
    by_cases h0 : n = 0
    · subst h0; exact .refl _
    · obtain ⟨p, hp⟩ := parent_some hc hn h0
      obtain ⟨h1, h2, h3⟩ := parent_spec hc hn hp
      exact (ih p h3 h1).snoc (child_iff.2 ⟨h1, h2⟩)

/-- Two ancestors of one node are comparable. -/
theorem desc_comparable {f : File α} (hc : Consistent f.nodes) {a b m : Nat}
    (h1 : Desc f a m) (h2 : Desc f b m) : Desc f a b ∨ Desc f b a := by
  induction m using Nat.strongRecOn generalizing a b with
  | _ m ih =>
    rcases desc_cases hc h1 with rfl | ⟨p, hp, h3⟩
    · exact .inr h2
    · rcases desc_cases hc h2 with rfl | ⟨q, hq, h4⟩
      · exact .inl h1
      · rw [hp] at hq
        cases hq
        by_cases hm : IsNode f m
        · exact ih p (parent_spec hc hm hp).2.2 h3 h4
        · exfalso
          simp [dat, IsNode] at hm hp
          rw [List.getElem?_eq_none hm] at hp
          simp at hp

/-- Subtrees of different siblings are disjoint. -/
theorem siblings_disjoint {f : File α} (hc : Consistent f.nodes) {n c d m : Nat}
    (h1 : Child f n c) (h2 : Child f n d) (hne : c ≠ d) (h3 : Desc f c m) (h4 : Desc f d m) :
    False := by
  have key : ∀ c d, Child f n c → Child f n d → c ≠ d → Desc f c d → False := by
    intro c d h1 h2 hne h
    rcases desc_cases hc h with h5 | ⟨p, h5, h6⟩
    · exact hne h5
    · rw [(child_spec hc h2).2.2.2] at h5
      cases h5
      have := desc_le hc h6
      have := (child_spec hc h1).1
      omega
  rcases desc_comparable hc h3 h4 with h | h
  · exact key c d h1 h2 hne h
  · exact key d c h2 h1 (Ne.symm hne) h

/-! ## Ranges -/

theorem tiles_le {rs : List TextRange} {a b : Nat} (h : Tiles rs a b) : a ≤ b := by
  induction rs generalizing a with
  | nil => simp [Tiles] at h; omega
  | cons r rs ih => obtain ⟨h1, h2, h3⟩ := h; have := ih h3; omega

theorem tiles_mem {rs : List TextRange} {a b : Nat} (h : Tiles rs a b) {r : TextRange}
    (hr : r ∈ rs) : a ≤ r.start ∧ r.start ≤ r.stop ∧ r.stop ≤ b := by
  induction rs generalizing a with
  | nil => simp at hr
  | cons q rs ih =>
    obtain ⟨h1, h2, h3⟩ := h
    have hle := tiles_le h3
    rcases List.mem_cons.1 hr with rfl | hr
    · omega
    · have := ih h3 hr; omega

theorem tiles_append {xs ys : List TextRange} {a b : Nat} :
    Tiles (xs ++ ys) a b ↔ ∃ m, Tiles xs a m ∧ Tiles ys m b := by
  induction xs generalizing a with
  | nil => simp [Tiles]
  | cons x xs ih =>
    simp only [List.cons_append, Tiles, ih]
    constructor
    · rintro ⟨h1, h2, m, h3, h4⟩; exact ⟨m, ⟨h1, h2, h3⟩, h4⟩
    · rintro ⟨m, ⟨h1, h2, h3⟩, h4⟩; exact ⟨h1, h2, m, h3, h4⟩

theorem child_range {f : File α} (hc : Consistent f.nodes) {n c : Nat} (h : Child f n c) :
    (rng f n).start ≤ (rng f c).start ∧ (rng f c).stop ≤ (rng f n).stop := by
  rw [child_iff] at h
  have ht := kids_tile hc h.1 (List.ne_nil_of_mem h.2)
  have := tiles_mem ht (List.mem_map_of_mem h.2)
  omega

theorem desc_range {f : File α} (hc : Consistent f.nodes) {n m : Nat} (h : Desc f n m) :
    (rng f n).start ≤ (rng f m).start ∧ (rng f m).stop ≤ (rng f n).stop := by
  induction h with
  | refl => omega
  | step h1 _ ih => have := child_range hc h1; omega

/-- A range that is not empty and touches the offset. -/
def touching (off : Nat) (r : TextRange) : Bool := !r.isEmpty && r.containsOffsetNonstrict off

theorem touching_iff {off : Nat} {r : TextRange} (hv : r.start ≤ r.stop) :
    touching off r = true ↔ r.start < r.stop ∧ r.start ≤ off ∧ off ≤ r.stop := by
  simp only [touching, TextRange.isEmpty, TextRange.containsOffsetNonstrict, Bool.and_eq_true,
    Bool.not_eq_true', beq_eq_false_iff_ne, decide_eq_true_eq]
  omega

theorem tiles_filter_before (g : Nat → TextRange) {cs : List Nat} {a b off : Nat}
    (h : Tiles (cs.map g) a b) (hlt : off < a) : cs.filter (fun c => touching off (g c)) = [] := by
  induction cs generalizing a with
  | nil => rfl
  | cons c cs ih =>
    obtain ⟨h1, h2, h3⟩ := h
    have : touching off (g c) = false := by
      rw [← Bool.not_eq_true, touching_iff h2]; omega
    rw [List.filter_cons_of_neg (by simp [this])]
    exact ih h3 (by omega)

theorem tiles_filter_start (g : Nat → TextRange) {cs : List Nat} {a b : Nat}
    (h : Tiles (cs.map g) a b) :
    (a = b ∧ cs.filter (fun c => touching a (g c)) = []) ∨
    (a < b ∧ ∃ d, d ∈ cs ∧ cs.filter (fun c => touching a (g c)) = [d] ∧ (g d).start = a ∧
      a < (g d).stop) := by
  induction cs generalizing a with
  | nil => exact .inl ⟨by simpa [Tiles] using h, rfl⟩
  | cons c cs ih =>
    obtain ⟨h1, h2, h3⟩ := h
    by_cases he : (g c).start < (g c).stop
    · have ht : touching a (g c) = true := by rw [touching_iff h2]; omega
      have hle := tiles_le h3
      refine .inr ⟨by omega, c, by simp, ?_, h1, by omega⟩
      rw [List.filter_cons_of_pos (by simpa using ht)]
      rw [tiles_filter_before g h3 (by omega)]
    · have ht : touching a (g c) = false := by
        rw [← Bool.not_eq_true, touching_iff h2]; omega
      rw [List.filter_cons_of_neg (by simp [ht])]
      have hs : (g c).stop = a := by omega
      rw [hs] at h3
      rcases ih h3 with ⟨h4, h5⟩ | ⟨h4, d, h5, h6, h7, h8⟩
      · exact .inl ⟨h4, h5⟩
      · exact .inr ⟨h4, d, by simp [h5], h6, h7, h8⟩

/-- Of consecutive ranges, one or two touch a given offset. -/
theorem tiles_filter (g : Nat → TextRange) {cs : List Nat} {a b off : Nat}
    (h : Tiles (cs.map g) a b) (ha : a ≤ off) (hb : off ≤ b) (hlt : a < b) :
    (∃ c, c ∈ cs ∧ cs.filter (fun c => touching off (g c)) = [c] ∧ (off < b → off < (g c).stop) ∧
      (a < off → (g c).start < off)) ∨
    (∃ c d, c ∈ cs ∧ d ∈ cs ∧ cs.filter (fun c => touching off (g c)) = [c, d] ∧
      (g c).stop = off ∧ (g d).start = off ∧ a < off ∧ off < b) := by
  induction cs generalizing a with
  | nil => simp [Tiles] at h; omega
  | cons c cs ih =>
    obtain ⟨h1, h2, h3⟩ := h
    by_cases ht : touching off (g c) = true
    · rw [List.filter_cons_of_pos (by simpa using ht)]
      rw [touching_iff h2] at ht
      by_cases hs : off = (g c).stop
      · subst hs
        rcases tiles_filter_start g h3 with ⟨h4, h5⟩ | ⟨h4, d, h5, h6, h7, h8⟩
        · exact .inl ⟨c, by simp, by rw [h5], by omega, by omega⟩
        · exact .inr ⟨c, d, by simp, by simp [h5], by rw [h6], rfl, h7, by omega, h4⟩
      · refine .inl ⟨c, by simp, ?_, by omega, by omega⟩
        rw [tiles_filter_before g h3 (by omega)]
    · rw [List.filter_cons_of_neg (by simpa using ht)]
      rw [touching_iff h2] at ht
      by_cases hs : (g c).stop ≤ off
      · rcases ih h3 hs (by omega) with ⟨d, h4, h5, h6, h7⟩ | ⟨d, e, h4, h5, h6, h7, h8, h9, h10⟩
        · refine .inl ⟨d, by simp [h4], h5, h6, ?_⟩
          intro h8
          by_cases h9 : (g c).stop < off
          · exact h7 h9
          · omega
        · exact .inr ⟨d, e, by simp [h4], by simp [h5], h6, h7, h8, by omega, h10⟩
      · omega

theorem filterNodes_eq {f : File α} (p : NodeData → Bool) {ns : List Nat}
    (h : ∀ n ∈ ns, IsNode f n) :
    f.filterNodes p ns = some (ns.filter (fun n => p (dat f n))) := by
  induction ns with
  | nil => rfl
  | cons n ns ih =>
    simp only [File.filterNodes, data_dat (h n (by simp)), Option.bind_eq_bind, Option.bind_some,
      ih (fun m hm => h m (by simp [hm])), Option.pure_def]
    by_cases hp : p (dat f n) = true <;> simp [hp]

theorem findNode_eq {f : File α} (p : NodeData → Bool) {ns : List Nat}
    (h : ∀ n ∈ ns, IsNode f n) :
    f.findNode p ns = some (ns.find? (fun n => p (dat f n))) := by
  induction ns with
  | nil => rfl
  | cons n ns ih =>
    simp only [File.findNode, data_dat (h n (by simp)), Option.bind_eq_bind, Option.bind_some,
      Option.pure_def, List.find?_cons]
    by_cases hp : p (dat f n) = true
    · simp [hp]
    · simp [hp, ih (fun m hm => h m (by simp [hm]))]

/-! ## Leaves -/

theorem nonEmptyLeaf_iff {f : File α} {n : Nat} (hn : IsNode f n) :
    NonEmptyLeaf f n ↔ kids f n = [] ∧ (rng f n).start < (rng f n).stop := by
  simp only [NonEmptyLeaf, children_kids hn, range_rng hn, Option.some.injEq]
  constructor
  · rintro ⟨r, h1, rfl, h2⟩; exact ⟨h1, h2⟩
  · rintro ⟨h1, h2⟩; exact ⟨_, h1, rfl, h2⟩

theorem touches_iff {f : File α} {n off : Nat} (hn : IsNode f n) :
    Touches f n off ↔ (rng f n).start ≤ off ∧ off ≤ (rng f n).stop := by
  simp [Touches, range_rng hn]

/-- What `findLeafAtOffset` guarantees. -/
structure LeafSpec (f : File α) (n : Nat) (off : Nat) (res : LeafAtOffset) : Prop where
  empty : (rng f n).start = (rng f n).stop → res = .none
  shape : (rng f n).start < (rng f n).stop →
    (∃ l, res = .single l) ∨ ∃ l r, res = .between l r ∧ (rng f l).stop = off ∧
      (rng f r).start = off ∧ (rng f n).start < off ∧ off < (rng f n).stop
  mem : ∀ l, l ∈ res.toList ↔ Desc f n l ∧ NonEmptyLeaf f l ∧ Touches f l off
  right : off < (rng f n).stop → ∃ r, res.rightBiased = some r ∧ off < (rng f r).stop
  left : (rng f n).start < off → ∃ l, res.leftBiased = some l ∧ (rng f l).start < off

theorem findLeafAtOffsetN_spec {f : File α} (hc : Consistent f.nodes) (fuel : Nat) (n off : Nat)
    (hn : IsNode f n) (hf : f.nodes.length ≤ fuel + n) (h1 : (rng f n).start ≤ off)
    (h2 : off ≤ (rng f n).stop) :
    ∃ res, f.findLeafAtOffsetN fuel n off = some res ∧ LeafSpec f n off res := by
  induction fuel generalizing n with
  | zero => have : n < f.nodes.length := hn; omega
  | succ fuel ih =>
    have hv := rng_valid hc hn
    have hcon : (dat f n).range.containsOffsetNonstrict off = true := by
      simp only [TextRange.containsOffsetNonstrict, Bool.and_eq_true, decide_eq_true_eq]
      exact ⟨h1, h2⟩
    simp only [File.findLeafAtOffsetN, data_dat hn, Option.bind_eq_bind, Option.bind_some, hcon,
      Bool.not_true, Bool.false_eq_true, if_false]
    by_cases he : (rng f n).start = (rng f n).stop
    · have he' : (dat f n).range.isEmpty = true := by
        simp only [TextRange.isEmpty, beq_iff_eq]; exact he
      simp only [he', if_true]
      refine ⟨.none, rfl, fun _ => rfl, by omega, ?_, by omega, by omega⟩
      intro l
      simp only [LeafAtOffset.toList, List.not_mem_nil, false_iff, not_and]
      intro h3 h4 h5
      have hl := desc_isNode hc h3 hn
      rw [nonEmptyLeaf_iff hl] at h4
      have := desc_range hc h3
      omega
    · have he' : (dat f n).range.isEmpty = false := by
        simp only [TextRange.isEmpty, beq_eq_false_iff_ne]; exact he
      simp only [he', Bool.false_eq_true, if_false]
      have hlt : (rng f n).start < (rng f n).stop := by omega
      by_cases hk : kids f n = []
      · have hleaf : File.isLeaf (dat f n) = true := by
          simp only [File.isLeaf, he', Bool.not_false, Bool.and_true]
          unfold kids at hk; rw [hk]; rfl
        simp only [hleaf, if_true]
        refine ⟨.single n, rfl, by omega, fun _ => .inl ⟨n, rfl⟩, ?_, fun h => ⟨n, rfl, h⟩,
          fun h => ⟨n, rfl, h⟩⟩
        intro l
        simp only [LeafAtOffset.toList, List.mem_singleton]
        constructor
        · rintro rfl
          exact ⟨.refl _, (nonEmptyLeaf_iff hn).2 ⟨hk, hlt⟩, (touches_iff hn).2 ⟨h1, h2⟩⟩
        · rintro ⟨h3, _, _⟩
          cases h3 with
          | refl => rfl
          | step h4 _ => rw [child_iff, hk] at h4; simp at h4
      · have hleaf : File.isLeaf (dat f n) = false := by
          simp only [File.isLeaf, he', Bool.not_false, Bool.and_true]
          unfold kids at hk
          cases h : (dat f n).children with
          | nil => exact absurd h hk
          | cons => rfl
        simp only [hleaf, Bool.false_eq_true, if_false]
        have hall : ∀ c ∈ kids f n, IsNode f c := fun c hc' => (kids_spec hc hn hc').2.1
        rw [show (dat f n).children = kids f n from rfl, filterNodes_eq _ hall]
        simp only [Option.bind_some]
        rw [show (fun n => !(dat f n).range.isEmpty && (dat f n).range.containsOffsetNonstrict off) =
          (fun c => touching off (rng f c)) from rfl]
        have ht := kids_tile hc hn hk
        -- leaves of the node are leaves of the touching children
        have hmem : ∀ l, Desc f n l ∧ NonEmptyLeaf f l ∧ Touches f l off ↔
            ∃ c, c ∈ (kids f n).filter (fun c => touching off (rng f c)) ∧
              Desc f c l ∧ NonEmptyLeaf f l ∧ Touches f l off := by
          intro l
          constructor
          · rintro ⟨h3, h4, h5⟩
            cases h3 with
            | refl =>
              rw [nonEmptyLeaf_iff hn] at h4
              exact absurd h4.1 hk
            | @step _ c _ h6 h7 =>
              refine ⟨c, ?_, h7, h4, h5⟩
              have hcn := (child_spec hc h6).2.2.1
              have hl := desc_isNode hc h7 hcn
              rw [nonEmptyLeaf_iff hl] at h4
              rw [touches_iff hl] at h5
              have := desc_range hc h7
              rw [List.mem_filter]
              refine ⟨(child_iff.1 h6).2, ?_⟩
              rw [touching_iff (rng_valid hc hcn)]
              omega
          · rintro ⟨c, h3, h4, h5, h6⟩
            rw [List.mem_filter] at h3
            exact ⟨.step (child_iff.2 ⟨hn, h3.1⟩) h4, h5, h6⟩
        rcases tiles_filter (rng f) ht h1 h2 hlt with ⟨c, hcm, hfil, hr, hl⟩ |
          ⟨c, d, hcm, hdm, hfil, hcs, hds, ha, hb⟩
        · rw [hfil] at hmem ⊢
          simp only
          have hcf : c ∈ (kids f n).filter (fun c => touching off (rng f c)) := by rw [hfil]; simp
          rw [List.mem_filter] at hcf
          have hcs := kids_spec hc hn hcm
          have htc := (touching_iff (rng_valid hc hcs.2.1)).1 hcf.2
          obtain ⟨res, e1, sp⟩ := ih c hcs.2.1 (by omega) htc.2.1 htc.2.2
          refine ⟨res, e1, by omega, ?_, ?_, fun h => sp.right (hr h), fun h => sp.left (hl h)⟩
          · intro _
            rcases sp.shape htc.1 with h | ⟨l, r, e2, e3, e4, e5, e6⟩
            · exact .inl h
            · have := child_range hc (child_iff.2 ⟨hn, hcm⟩)
              exact .inr ⟨l, r, e2, e3, e4, by omega, by omega⟩
          · intro l
            rw [sp.mem, hmem]
            simp
        · rw [hfil] at hmem ⊢
          simp only
          have hcf : c ∈ (kids f n).filter (fun c => touching off (rng f c)) := by rw [hfil]; simp
          have hdf : d ∈ (kids f n).filter (fun c => touching off (rng f c)) := by rw [hfil]; simp
          rw [List.mem_filter] at hcf hdf
          have hck := kids_spec hc hn hcm
          have hdk := kids_spec hc hn hdm
          have htc := (touching_iff (rng_valid hc hck.2.1)).1 hcf.2
          have htd := (touching_iff (rng_valid hc hdk.2.1)).1 hdf.2
          obtain ⟨res1, e1, sp1⟩ := ih c hck.2.1 (by omega) htc.2.1 htc.2.2
          obtain ⟨res2, e2, sp2⟩ := ih d hdk.2.1 (by omega) htd.2.1 htd.2.2
          have s1 : ∃ l, res1 = .single l := by
            rcases sp1.shape htc.1 with h | ⟨l, r, _, _, _, _, h⟩
            · exact h
            · omega
          have s2 : ∃ l, res2 = .single l := by
            rcases sp2.shape htd.1 with h | ⟨l, r, _, _, _, h, _⟩
            · exact h
            · omega
          obtain ⟨l, rfl⟩ := s1
          obtain ⟨r, rfl⟩ := s2
          simp only [e1, e2, Option.bind_some]
          have hlm := (sp1.mem l).1 (by simp [LeafAtOffset.toList])
          have hrm := (sp2.mem r).1 (by simp [LeafAtOffset.toList])
          have hln := desc_isNode hc hlm.1 hck.2.1
          have hrn := desc_isNode hc hrm.1 hdk.2.1
          have r1 := desc_range hc hlm.1
          have r2 := desc_range hc hrm.1
          have t1 := (touches_iff hln).1 hlm.2.2
          have t2 := (touches_iff hrn).1 hrm.2.2
          have v1 := (nonEmptyLeaf_iff hln).1 hlm.2.1
          have v2 := (nonEmptyLeaf_iff hrn).1 hrm.2.1
          refine ⟨.between l r, rfl, by omega, fun _ => .inr ⟨l, r, rfl, by omega, by omega, ha, hb⟩,
            ?_, fun _ => ⟨r, rfl, by omega⟩, fun _ => ⟨l, rfl, by omega⟩⟩
          intro x
          rw [hmem]
          have m1 := sp1.mem x
          have m2 := sp2.mem x
          simp only [LeafAtOffset.toList, List.mem_singleton] at m1 m2
          simp only [LeafAtOffset.toList, List.mem_cons, List.not_mem_nil, or_false]
          constructor
          · rintro (h | h)
            · exact ⟨c, .inl rfl, m1.1 h⟩
            · exact ⟨d, .inr rfl, m2.1 h⟩
          · rintro ⟨y, rfl | rfl, h⟩
            · exact .inl (m1.2 h)
            · exact .inr (m2.2 h)

theorem findLeafAtOffset_spec {f : File α} (hc : Consistent f.nodes) (n off : Nat)
    (hn : IsNode f n) (h1 : (rng f n).start ≤ off) (h2 : off ≤ (rng f n).stop) :
    ∃ res, f.findLeafAtOffset n off = some res ∧ LeafSpec f n off res :=
  findLeafAtOffsetN_spec hc _ n off hn (by omega) h1 h2

/-! ## Ancestors -/

theorem ancestorsN_spec {f : File α} (hc : Consistent f.nodes) (fuel n : Nat)
    (hn : IsNode f n) (hf : n < fuel) :
    ∃ as, f.ancestorsN fuel n = some (n :: as) ∧ (n :: as).getLast? = some 0 ∧
      (∀ a, a ∈ n :: as ↔ Desc f a n) ∧
      Chain (fun x y => (dat f x).parent = some y) (n :: as) ∧
      (∀ pre p post, n :: as = pre ++ p :: post → ∀ a, a ∈ p :: post ↔ Desc f a p) := by
  induction n using Nat.strongRecOn generalizing fuel with
  | _ n ih =>
    cases fuel with
    | zero => omega
    | succ fuel =>
      simp only [File.ancestorsN, parent_dat hn, Option.bind_eq_bind, Option.bind_some]
      by_cases h0 : n = 0
      · subst h0
        rw [root_parent hc]
        have hm : ∀ a, a ∈ [0] ↔ Desc f a 0 := by
          intro a
          simp only [List.mem_singleton]
          constructor
          · rintro rfl; exact .refl _
          · intro h; exact Nat.le_zero.1 (desc_le hc h)
        refine ⟨[], rfl, rfl, hm, trivial, ?_⟩
        intro pre p post h
        cases pre with
        | nil => simp at h; obtain ⟨rfl, rfl⟩ := h; exact hm
        | cons => simp at h
      · obtain ⟨p, hp⟩ := parent_some hc hn h0
        obtain ⟨h1, h2, h3⟩ := parent_spec hc hn hp
        obtain ⟨as, e1, e2, e3, e4, e5⟩ := ih p h3 fuel h1 (by omega)
        simp only [hp, e1, Option.bind_some]
        have hm : ∀ a, a ∈ n :: p :: as ↔ Desc f a n := by
          intro a
          rw [List.mem_cons, e3]
          constructor
          · rintro (rfl | h)
            · exact .refl _
            · exact h.snoc (child_iff.2 ⟨h1, h2⟩)
          · intro h
            rcases desc_cases hc h with h | ⟨q, hq, h⟩
            · exact .inl h
            · rw [hp] at hq; cases hq; exact .inr h
        refine ⟨p :: as, rfl, by rw [List.getLast?_cons_cons]; exact e2, hm, ?_, ?_⟩
        · exact ⟨hp, e4⟩
        · intro pre q post h
          cases pre with
          | nil => simp at h; obtain ⟨rfl, rfl⟩ := h; exact hm
          | cons x pre =>
            simp only [List.cons_append, List.cons.injEq] at h
            exact e5 pre q post h.2

theorem ancestors_spec {f : File α} (hc : Consistent f.nodes) (n : Nat) (hn : IsNode f n) :
    ∃ as, f.ancestors n = some (n :: as) ∧ (n :: as).getLast? = some 0 ∧
      (∀ a, a ∈ n :: as ↔ Desc f a n) ∧
      Chain (fun x y => (dat f x).parent = some y) (n :: as) ∧
      (∀ pre p post, n :: as = pre ++ p :: post → ∀ a, a ∈ p :: post ↔ Desc f a p) :=
  ancestorsN_spec hc _ n hn hn

theorem commonAncestor_spec {f : File α} (hc : Consistent f.nodes) {n1 n2 : Nat}
    (h1 : IsNode f n1) (h2 : IsNode f n2) :
    ∃ p, f.commonAncestor n1 n2 = some p ∧ Desc f p n1 ∧ Desc f p n2 ∧
      ∀ q, Desc f q n1 → Desc f q n2 → Desc f q p := by
  obtain ⟨as1, e1, _, m1, _, s1⟩ := ancestors_spec hc n1 h1
  obtain ⟨as2, e2, _, m2, _, _⟩ := ancestors_spec hc n2 h2
  simp only [File.commonAncestor, e1, e2, Option.bind_eq_bind, Option.bind_some]
  have hex : ((n1 :: as1).find? fun p => (n2 :: as2).any (· == p)).isSome := by
    rw [List.find?_isSome]
    refine ⟨0, (m1 0).2 (root_desc hc h1), ?_⟩
    rw [List.any_eq_true]
    exact ⟨0, (m2 0).2 (root_desc hc h2), by simp⟩
  obtain ⟨p, hp⟩ := Option.isSome_iff_exists.1 hex
  have hany : ∀ q, (n2 :: as2).any (· == q) = true ↔ Desc f q n2 := by
    intro q
    rw [List.any_eq_true]
    constructor
    · rintro ⟨x, hx, he⟩
      have : x = q := by simpa using he
      subst this
      exact (m2 x).1 hx
    · intro h
      exact ⟨q, (m2 q).2 h, by simp⟩
  refine ⟨p, hp, ?_, ?_, ?_⟩
  · exact (m1 p).1 (List.mem_of_find?_eq_some hp)
  · exact (hany p).1 (List.find?_some (p := fun p => (n2 :: as2).any (· == p)) hp)
  · intro q hq1 hq2
    rw [List.find?_eq_some_iff_append] at hp
    obtain ⟨_, pre, post, e, hpre⟩ := hp
    have hq := (m1 q).2 hq1
    rw [e, List.mem_append] at hq
    rcases hq with hq | hq
    · have := hpre q hq
      rw [(hany q).2 hq2] at this
      simp at this
    · exact (s1 pre p post e q).1 hq

end Fall
