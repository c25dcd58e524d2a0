import Verif.Spec.Editor
import Verif.Props.Tree

/-!
Lemmas about the editor features.
-/

namespace Fall
open Spec

theorem tiles_disjoint {f : File α} {c d : Nat} (hne : d ≠ c) :
    ∀ (cs : List Nat) (a b : Nat), Tiles (cs.map (rng f)) a b → c ∈ cs → d ∈ cs →
      (rng f c).stop ≤ (rng f d).start ∨ (rng f d).stop ≤ (rng f c).start := by
  intro cs
  induction cs with
  | nil => intro _ _ _ h; simp at h
  | cons e cs ih =>
    intro a b ht hcm hdm
    obtain ⟨t1, t2, t3⟩ := ht
    rcases List.mem_cons.1 hcm with h | h
    · rcases List.mem_cons.1 hdm with h' | h'
      · exact absurd (h'.trans h.symm) hne
      · have := tiles_mem t3 (List.mem_map_of_mem h')
        subst h; omega
    · rcases List.mem_cons.1 hdm with h' | h'
      · have := tiles_mem t3 (List.mem_map_of_mem h)
        subst h'; omega
      · exact ih _ _ t3 h h'

/-- A node that covers a non-empty range is above the deepest node that does. -/
theorem covering_above {f : File α} (hc : Consistent f.nodes) {q : TextRange} (hq : q.start < q.stop)
    {m x : Nat} (hm : IsNode f m) (hx : IsNode f x) (hcm : Within q (rng f m)) (hcx : Within q (rng f x))
    (hdeep : ∀ c, Child f m c → ¬ Within q (rng f c)) : Desc f x m := by
  have key : ∀ a, Desc f a x → Desc f a m → Desc f x m := by
    intro a hax
    induction hax with
    | refl => exact id
    | @step a c x hac hcx' ih =>
      intro ham
      have hw : Within q (rng f c) := by
        have := desc_range hc hcx'
        unfold Within at *; omega
      refine ih hx hcx ?_
      cases ham with
      | refl => exact absurd hw (hdeep c hac)
      | @step _ d _ had hdm =>
        by_cases hdc : d = c
        · subst hdc; exact hdm
        · exfalso
          have ia := (child_iff.1 hac).1
          have ht := kids_tile hc ia (List.ne_nil_of_mem (child_iff.1 hac).2)
          have := tiles_disjoint hdc _ _ _ ht (child_iff.1 hac).2 (child_iff.1 had).2
          have := desc_range hc hdm
          unfold Within at *; omega
  exact key 0 (root_desc hc hx) (root_desc hc hm)

/-- `findCoveringNode` from the root: the smallest node covering the range. -/
theorem covering_least {f : File α} (hf : ConsistentFile f) {q : TextRange} (hq : q.start ≤ q.stop)
    (hl : q.stop ≤ f.text.length) :
    ∃ m, f.findCoveringNode 0 q = some m ∧ IsNode f m ∧ Within q (rng f m) ∧
      (f.text ≠ [] → (rng f m).start < (rng f m).stop) ∧
      (q.start < q.stop → ∀ x, IsNode f x → Within q (rng f x) → Desc f x m) := by
  have hc := hf.nodes
  obtain ⟨m, h1, h2, ⟨mr, h3, h4, h5⟩, h6⟩ := C18_covering_node f hc 0 ⟨0, f.text.length⟩ q hf.covers hq
    (Nat.zero_le _) hl
  have hm := desc_isNode hc h2 (root_isNode hc)
  rw [range_rng hm] at h3
  cases h3
  refine ⟨m, h1, hm, ⟨h4, h5⟩, fun hne => ?_, fun hlt x hx hw => ?_⟩
  · by_cases hlt : q.start < q.stop
    · omega
    · have hpos : 0 < f.text.length := List.length_pos_iff.2 hne
      obtain ⟨res1, e1, sp1⟩ := findLeafAtOffset_spec hc 0 q.start (root_isNode hc)
        (by rw [root_rng hf]; exact Nat.zero_le _) (by rw [root_rng hf]; show q.start ≤ f.text.length; omega)
      have heq : q.stop = q.start := by omega
      have hr0 := hf.covers
      have hsub : q.isSubrangeOf ⟨0, f.text.length⟩ = true := by simp [TextRange.isSubrangeOf, hl]
      simp only [File.findCoveringNode, hr0, Option.bind_eq_bind, Option.bind_some, hsub, Bool.not_true,
        Bool.false_eq_true, if_false, heq, e1] at h1
      have leafpos : ∀ l ∈ res1.toList, IsNode f l ∧ (rng f l).start < (rng f l).stop := by
        intro l hl
        have h := (sp1.mem l).1 hl
        have il := desc_isNode hc h.1 (root_isNode hc)
        exact ⟨il, ((nonEmptyLeaf_iff il).1 h.2.1).2⟩
      have fin : ∀ l r, l ∈ res1.toList → r ∈ res1.toList → f.commonAncestor l r = some m →
          (rng f m).start < (rng f m).stop := by
        intro l r hl hr h
        obtain ⟨p, g1, g2, g3, -⟩ := commonAncestor_spec hc (leafpos l hl).1 (leafpos r hr).1
        rw [g1] at h
        cases h
        have := desc_range hc g2
        have := (leafpos l hl).2
        omega
      rcases sp1.shape (by rw [root_rng hf]; exact hpos) with ⟨l, rfl⟩ | ⟨l, r, rfl, -⟩
      · exact fin l l (by simp [LeafAtOffset.toList]) (by simp [LeafAtOffset.toList])
          (by simpa [LeafAtOffset.rightBiased, LeafAtOffset.leftBiased] using h1)
      · exact fin r l (by simp [LeafAtOffset.toList]) (by simp [LeafAtOffset.toList])
          (by simpa [LeafAtOffset.rightBiased, LeafAtOffset.leftBiased] using h1)
  · refine covering_above hc hlt hm hx ⟨h4, h5⟩ hw fun c hcc hwc => ?_
    have ic := (child_spec hc hcc).2.2.1
    exact h6 hlt c (rng f c) hcc (range_rng ic) hwc

/-! ## Leaves at an offset -/

theorem leaves_at {f : File α} (hf : ConsistentFile f) {offset : Nat} (h : offset ≤ f.text.length) :
    ∃ res, f.findLeafAtOffset 0 offset = some res ∧ (∀ l, l ∈ res.toList ↔ LeafAt f offset l) ∧
      res.toList.Pairwise (fun a b => (rng f a).start < (rng f b).start) ∧
      (f.text ≠ [] → res.toList ≠ []) ∧ (∀ l ∈ res.toList, IsNode f l) := by
  have hc := hf.nodes
  obtain ⟨res, e, sp⟩ := findLeafAtOffset_spec hc 0 offset (root_isNode hc)
    (by rw [root_rng hf]; exact Nat.zero_le _) (by rw [root_rng hf]; exact h)
  have hmem : ∀ l, l ∈ res.toList ↔ LeafAt f offset l := by
    intro l
    rw [sp.mem]
    refine ⟨fun h => h.2, fun h => ⟨?_, h⟩⟩
    obtain ⟨⟨r, hch, -⟩, -⟩ := h
    simp only [File.children, File.data, Option.map_eq_some_iff] at hch
    obtain ⟨d, hd, _⟩ := hch
    exact root_desc hc (isNode_of_getElem hd)
  have hnode : ∀ l ∈ res.toList, IsNode f l := fun l hl => desc_isNode hc ((sp.mem l).1 hl).1 (root_isNode hc)
  refine ⟨res, e, hmem, ?_, ?_, hnode⟩
  · by_cases he : (rng f 0).start = (rng f 0).stop
    · rw [sp.empty he]; simp [LeafAtOffset.toList]
    · have hv := rng_valid hc (root_isNode hc)
      rcases sp.shape (by omega) with ⟨l, rfl⟩ | ⟨l, r, rfl, h1, h2, -⟩
      · simp [LeafAtOffset.toList]
      · have hl : l ∈ (LeafAtOffset.between l r).toList := by simp [LeafAtOffset.toList]
        have := ((nonEmptyLeaf_iff (hnode l hl)).1 ((hmem l).1 hl).1).2
        simp only [LeafAtOffset.toList, List.pairwise_cons, List.mem_singleton, forall_eq, List.not_mem_nil,
          false_implies, implies_true, List.Pairwise.nil, and_true]
        omega
  · intro hne
    have hpos : 0 < f.text.length := List.length_pos_iff.2 hne
    rcases sp.shape (by rw [root_rng hf]; exact hpos) with ⟨l, rfl⟩ | ⟨l, r, rfl, -⟩ <;>
      simp [LeafAtOffset.toList]

/-- The first node of a list in order with a property. -/
theorem find_leftmost {f : File α} {l : List Nat} (hl : l.Pairwise (fun a b => (rng f a).start < (rng f b).start))
    {p : Nat → Bool} {x : Nat} :
    l.find? p = some x ↔ x ∈ l ∧ p x = true ∧ ∀ y ∈ l, p y = true → (rng f x).start ≤ (rng f y).start := by
  induction l with
  | nil => simp
  | cons a l ih =>
    rw [List.pairwise_cons] at hl
    rw [List.find?_cons]
    cases ha : p a with
    | true =>
      simp only [Option.some.injEq, List.mem_cons]
      constructor
      · rintro rfl
        refine ⟨.inl rfl, ha, ?_⟩
        rintro y (rfl | hy) _
        · exact Nat.le_refl _
        · exact Nat.le_of_lt (hl.1 y hy)
      · rintro ⟨rfl | hx, hp, hmin⟩
        · rfl
        · have := hl.1 x hx
          have := hmin a (.inl rfl) ha
          omega
    | false =>
      simp only [ih hl.2, List.mem_cons]
      constructor
      · rintro ⟨h1, h2, h3⟩
        refine ⟨.inr h1, h2, ?_⟩
        rintro y (rfl | hy) hp
        · rw [ha] at hp; simp at hp
        · exact h3 y hy hp
      · rintro ⟨rfl | h1, h2, h3⟩
        · rw [ha] at h2; simp at h2
        · exact ⟨h1, h2, fun y hy => h3 y (.inr hy)⟩

theorem pickLeaf_eq {is : NodeId → Option Bool} {p : NodeId → Bool} {res : LeafAtOffset}
    (h : ∀ l ∈ res.toList, is l = some (p l)) : File.pickLeaf is res = some (res.toList.find? p) := by
  cases res with
  | none => rfl
  | single n =>
    have := h n (by simp [LeafAtOffset.toList])
    simp only [File.pickLeaf, this, LeafAtOffset.toList, List.find?_cons, List.find?_nil]
    cases p n <;> rfl
  | between l r =>
    have hl := h l (by simp [LeafAtOffset.toList])
    have hr := h r (by simp [LeafAtOffset.toList])
    simp only [File.pickLeaf, hl, hr, LeafAtOffset.toList, List.find?_cons, List.find?_nil]
    cases p l <;> cases p r <;> rfl

/-! ## Swapping two siblings -/

theorem take_eq_bytes (text : List α) (a : Nat) : text.take a = bytes text 0 a := by simp [bytes]

theorem drop_eq_bytes (text : List α) (a : Nat) : text.drop a = bytes text a text.length := by
  rw [bytes, List.take_of_length_le (by simp)]

theorem exchange_bytes (text : List α) {a b c d : Nat} (h1 : a ≤ b) (h2 : b ≤ c) (h3 : c ≤ d)
    (h4 : d ≤ text.length) :
    Exchange text ⟨a, b⟩ ⟨c, d⟩ (bytes text 0 a ++ bytes text c d ++ bytes text b c ++ bytes text a b ++
      bytes text d text.length) := by
  refine ⟨bytes text 0 a, bytes text a b, bytes text b c, bytes text c d, bytes text d text.length, ?_, ?_, ?_, rfl⟩
  · rw [bytes_append_bytes text (Nat.zero_le _) h1, bytes_append_bytes text (Nat.zero_le _) h2,
      bytes_append_bytes text (Nat.zero_le _) h3, bytes_append_bytes text (Nat.zero_le _) h4, bytes_full]
  · rw [bytes_length text (by omega), bytes_length text (by omega), TextRange.mk.injEq]
    omega
  · rw [bytes_length text (by omega), bytes_length text (by omega), bytes_length text (by omega),
      bytes_length text h4, TextRange.mk.injEq]
    omega

theorem swapEdit_spec {f : File α} (hf : ConsistentFile f) {p l r : Nat} {pre mid post : List Nat}
    (hp : IsNode f p) (hk : kids f p = pre ++ l :: (mid ++ r :: post)) :
    ∃ edit out, f.swapEdit l r = some edit ∧ edit.apply (Text.ofBuf f.text) = some out ∧
      Exchange f.text (rng f l) (rng f r) out := by
  have hc := hf.nodes
  have hl : l ∈ kids f p := by rw [hk]; simp
  have hr : r ∈ kids f p := by rw [hk]; simp
  obtain ⟨lp, il, -⟩ := kids_spec hc hp hl
  obtain ⟨rp, ir, -⟩ := kids_spec hc hp hr
  have hnd := kids_nodup hc hp
  have hne : l ≠ r := by
    rw [hk, List.nodup_append, List.nodup_cons] at hnd
    rintro rfl
    exact hnd.2.1.1 (by simp)
  let e : FileEdit α := ⟨[], [(l, bytes f.text (rng f r).start (rng f r).stop),
    (r, bytes f.text (rng f l).start (rng f l).stop)], []⟩
  have he : f.swapEdit l r = e.intoTextEdit f := by
    simp [File.swapEdit, FileEdit.replace, textOf_eq hf il, textOf_eq hf ir, FileEdit.replaceWithText,
      FileEdit.new, e]
  have hnamed : ∀ m, Named e m ↔ m = l ∨ m = r := by
    intro m
    simp only [Named, e, List.not_mem_nil, exists_false, or_false, List.mem_cons, Prod.mk.injEq, false_or]
    constructor
    · rintro ⟨s, ⟨h, -⟩ | ⟨h, -⟩⟩
      · exact .inl h
      · exact .inr h
    · rintro (h | h)
      · exact ⟨_, .inl ⟨h, rfl⟩⟩
      · exact ⟨_, .inr ⟨h, rfl⟩⟩
  obtain ⟨edit, o, h1, h2, h3⟩ := C22_local f hf e p (rng f p) (range_rng hp) (by
    intro m hm
    rcases (hnamed m).1 hm with rfl | rfl
    · exact (Desc.refl p).snoc (child_iff.2 ⟨hp, hl⟩)
    · exact (Desc.refl p).snoc (child_iff.2 ⟨hp, hr⟩))
  have hpn : ¬ Named e p := by
    rw [hnamed]
    rintro (h | h) <;> subst h <;> exact absurd rfl (Nat.ne_of_gt (by assumption))
  -- the rendering of the parent
  have hlook : ∀ m s t, Rendered f e m s → m ∉ e.deleted → e.replaced.lookup m = some t → s = t := by
    intro m s t h hd hlk
    cases h with
    | deleted h => exact absurd h hd
    | replaced _ h => rw [hlk] at h; cases h; rfl
    | leaf _ h => rw [hlk] at h; cases h
    | inner _ h => rw [hlk] at h; cases h
  have ht := kids_tile hc hp (List.ne_nil_of_mem hl)
  cases h2 with
  | deleted h => exact absurd (.inl h) hpn
  | replaced _ h => exact absurd h (not_named_replaced hpn)
  | leaf _ _ h _ =>
    rw [children_kids hp] at h
    simp only [Option.some.injEq] at h
    rw [h] at hl
    simp at hl
  | @inner _ cs o _ _ g1 g2 g3 =>
    rw [children_kids hp] at g1
    cases g1
    rw [hk] at g3
    obtain ⟨o1, o2, r1, r2, rfl⟩ := RenderedAll_append g3
    cases r2 with
    | @cons _ _ s1 o3 r2 r3 =>
      obtain ⟨o4, o5, r4, r5, rfl⟩ := RenderedAll_append r3
      cases r5 with
      | @cons _ _ s2 o6 r5 r6 =>
        have hother : ∀ d ∈ kids f p, d ≠ l → d ≠ r → ∀ m, Desc f d m → ¬ Named e m := by
          intro d hd hdl hdr m hm hnm
          rcases (hnamed m).1 hnm with rfl | rfl
          · exact siblings_disjoint hc (child_iff.2 ⟨hp, hd⟩) (child_iff.2 ⟨hp, hl⟩) hdl hm (.refl _)
          · exact siblings_disjoint hc (child_iff.2 ⟨hp, hd⟩) (child_iff.2 ⟨hp, hr⟩) hdr hm (.refl _)
        have hs1 := hlook l s1 (bytes f.text (rng f r).start (rng f r).stop) r2 (by simp [e]) (by simp [e, List.lookup_cons])
        have hs2 := hlook r s2 (bytes f.text (rng f l).start (rng f l).stop) r5 (by simp [e]) (by
          have : (r == l) = false := by simpa using fun h => hne h.symm
          simp [e, List.lookup_cons, this, hne.symm])
        rw [hk] at hnd
        have d1 : ∀ d ∈ pre, d ≠ l ∧ d ≠ r := fun d hd => by
          rw [List.nodup_append] at hnd
          exact ⟨hnd.2.2 d hd l (by simp), hnd.2.2 d hd r (by simp)⟩
        have d2 : ∀ d ∈ mid, d ≠ l ∧ d ≠ r := fun d hd => by
          rw [List.nodup_append, List.nodup_cons] at hnd
          have h1 := hnd.2.1.1
          have h2 := hnd.2.1.2
          rw [List.nodup_append] at h2
          exact ⟨fun h => h1 (by simp [← h, hd]), h2.2.2 d hd r (by simp)⟩
        have d3 : ∀ d ∈ post, d ≠ l ∧ d ≠ r := fun d hd => by
          rw [List.nodup_append, List.nodup_cons] at hnd
          have h1 := hnd.2.1.1
          have h2 := hnd.2.1.2
          rw [List.nodup_append, List.nodup_cons] at h2
          exact ⟨fun h => h1 (by simp [← h, hd]), fun h => h2.2.1.1 (h ▸ hd)⟩
        have m1 : ∀ d ∈ pre, d ∈ kids f p := fun d hd => by rw [hk]; simp [hd]
        have m2 : ∀ d ∈ mid, d ∈ kids f p := fun d hd => by rw [hk]; simp [hd]
        have m3 : ∀ d ∈ post, d ∈ kids f p := fun d hd => by rw [hk]; simp [hd]
        have e1 := renderedAll_unnamed hf (fun d hd => (kids_spec hc hp (m1 d hd)).2.1)
          (fun d hd => hother d (m1 d hd) (d1 d hd).1 (d1 d hd).2) r1
        have e2 := renderedAll_unnamed hf (fun d hd => (kids_spec hc hp (m2 d hd)).2.1)
          (fun d hd => hother d (m2 d hd) (d2 d hd).1 (d2 d hd).2) r4
        have e3 := renderedAll_unnamed hf (fun d hd => (kids_spec hc hp (m3 d hd)).2.1)
          (fun d hd => hother d (m3 d hd) (d3 d hd).1 (d3 d hd).2) r6
        rw [hk, List.map_append, tiles_append] at ht
        obtain ⟨x, t1, t2, t3, t4⟩ := ht
        rw [List.map_append, tiles_append] at t4
        obtain ⟨y, t5, t6, t7, t8⟩ := t4
        rw [tiles_bytes f.text (rng f) t1] at e1
        rw [tiles_bytes f.text (rng f) t5] at e2
        rw [tiles_bytes f.text (rng f) t8] at e3
        have l1 := tiles_le t1
        have l2 := tiles_le t5
        have l3 := tiles_le t8
        have l4 := node_range_le hf hp
        refine ⟨edit, _, by rw [he]; exact h1, h3, ?_⟩
        rw [not_named_inserted hpn, List.append_nil, e1, e2, e3, hs1, hs2, take_eq_bytes, drop_eq_bytes,
          ← t2, ← t6]
        have key := exchange_bytes f.text (a := (rng f l).start) (b := (rng f l).stop) (c := (rng f r).start)
          (d := (rng f r).stop) t3 (by omega) t7 (by omega)
        have e4 : bytes f.text 0 (rng f l).start = bytes f.text 0 (rng f p).start ++
            bytes f.text (rng f p).start (rng f l).start :=
          (bytes_append_bytes f.text (Nat.zero_le _) (by omega)).symm
        have e5 : bytes f.text (rng f r).stop f.text.length = bytes f.text (rng f r).stop (rng f p).stop ++
            bytes f.text (rng f p).stop f.text.length :=
          (bytes_append_bytes f.text (by omega) l4).symm
        rw [e4, e5] at key
        simpa only [List.append_assoc] using key

/-- The result of an exchange is determined. -/
theorem exchange_back {text out back : List α} {a b a' b' : TextRange} (h : Exchange text a b out)
    (h' : Exchange out a' b' back) (h1 : a'.start = a.start) (h2 : a'.stop - a'.start = b.stop - b.start)
    (h3 : b'.stop = b.stop) (h4 : b'.stop - b'.start = a.stop - a.start) : back = text := by
  obtain ⟨A, L, M, R, B, rfl, rfl, rfl, rfl⟩ := h
  obtain ⟨A', L', M', R', B', e, rfl, rfl, rfl⟩ := h'
  simp only at h1 h2 h3 h4
  have lA : A'.length = A.length := h1
  have lL : L'.length = R.length := by omega
  have lR : R'.length = L.length := by omega
  have lM : M'.length = M.length := by omega
  simp only [List.append_assoc] at e
  obtain ⟨rfl, e2⟩ := List.append_inj e lA.symm
  obtain ⟨rfl, e3⟩ := List.append_inj e2 lL.symm
  obtain ⟨rfl, e4⟩ := List.append_inj e3 lM.symm
  obtain ⟨rfl, rfl⟩ := List.append_inj e4 lR.symm
  simp

/-! ## Siblings -/

theorem sibling_at {f : File α} (hc : Consistent f.nodes) {n p : Nat} {pre post : List Nat}
    (hp : IsNode f p) (hk : kids f p = pre ++ n :: post) :
    f.sibling n .left = some pre.getLast? ∧ f.sibling n .right = some post.head? := by
  have hmem : n ∈ kids f p := by rw [hk]; simp
  obtain ⟨-, hn, hpar⟩ := kids_spec hc hp hmem
  obtain ⟨pre', post', h1, h2, h3⟩ := sibling_eq hc hn hpar
  have hnd := kids_nodup hc hp
  rw [hk] at h1 hnd
  obtain ⟨rfl, rfl⟩ := split_unique hnd h1
  exact ⟨h2, h3⟩

theorem nonwsSiblingN_right {f : File α} (hc : Consistent f.nodes) (isWs : NodeType → Bool) {p : Nat}
    (hp : IsNode f p) : ∀ (post pre : List Nat) (n fuel : Nat), kids f p = pre ++ n :: post →
      post.length < fuel →
      f.nonwsSiblingN isWs .right fuel n = some (post.find? fun m => !isWs (dat f m).ty) := by
  intro post
  induction post with
  | nil =>
    intro pre n fuel hk hfu
    cases fuel with
    | zero => omega
    | succ fuel => simp [File.nonwsSiblingN, (sibling_at hc hp hk).2]
  | cons m post ih =>
    intro pre n fuel hk hfu
    cases fuel with
    | zero => omega
    | succ fuel =>
      have hm : m ∈ kids f p := by rw [hk]; simp
      have im := (kids_spec hc hp hm).2.1
      have hty : f.ty m = some (dat f m).ty := by simp [File.ty, data_dat im]
      simp only [File.nonwsSiblingN, (sibling_at hc hp hk).2, List.head?_cons, Option.bind_eq_bind,
        Option.bind_some, hty, List.find?_cons]
      cases hw : isWs (dat f m).ty with
      | true =>
        have := ih (pre ++ [n]) m fuel (by rw [hk]; simp) (by simp at hfu; omega)
        simpa using this
      | false => simp

theorem nonwsSiblingN_left {f : File α} (hc : Consistent f.nodes) (isWs : NodeType → Bool) {p : Nat}
    (hp : IsNode f p) : ∀ (pre post : List Nat) (n fuel : Nat), kids f p = pre.reverse ++ n :: post →
      pre.length < fuel →
      f.nonwsSiblingN isWs .left fuel n = some (pre.find? fun m => !isWs (dat f m).ty) := by
  intro pre
  induction pre with
  | nil =>
    intro post n fuel hk hfu
    cases fuel with
    | zero => omega
    | succ fuel => simp [File.nonwsSiblingN, (sibling_at hc hp hk).1]
  | cons m pre ih =>
    intro post n fuel hk hfu
    cases fuel with
    | zero => omega
    | succ fuel =>
      have hm : m ∈ kids f p := by rw [hk]; simp
      have im := (kids_spec hc hp hm).2.1
      have hty : f.ty m = some (dat f m).ty := by simp [File.ty, data_dat im]
      simp only [File.nonwsSiblingN, (sibling_at hc hp hk).1, List.reverse_cons, List.getLast?_append,
        List.getLast?_singleton, Option.some_or, Option.bind_eq_bind,
        Option.bind_some, hty, List.find?_cons]
      cases hw : isWs (dat f m).ty with
      | true =>
        have := ih (n :: post) m fuel (by rw [hk]; simp) (by simp at hfu; omega)
        simpa using this
      | false => simp

theorem kids_length {f : File α} (hc : Consistent f.nodes) {p : Nat} (hp : IsNode f p) :
    (kids f p).length ≤ f.nodes.length := by
  have := (kids_nodup hc hp).length_le_of_subset (l₂ := List.range f.nodes.length) (by
    intro c h
    exact List.mem_range.2 (kids_spec hc hp h).2.1)
  simpa using this

theorem nonwsSibling_eq {f : File α} (hc : Consistent f.nodes) (isWs : NodeType → Bool) {n p : Nat}
    {pre post : List Nat} (hp : IsNode f p) (hk : kids f p = pre ++ n :: post) :
    f.nonwsSibling isWs .left n = some (pre.reverse.find? fun m => !isWs (dat f m).ty) ∧
    f.nonwsSibling isWs .right n = some (post.find? fun m => !isWs (dat f m).ty) := by
  have hlen := kids_length hc hp
  rw [hk] at hlen
  simp at hlen
  exact ⟨nonwsSiblingN_left hc isWs hp pre.reverse post n _ (by simpa using hk) (by simp; omega),
    nonwsSiblingN_right hc isWs hp post pre n _ hk (by omega)⟩

/-- The neighbours of a node, passing over some of its siblings. -/
theorem around_iff {f : File α} (hc : Consistent f.nodes) (skip : NodeType → Bool) {c p l r : Nat}
    {pre post : List Nat} (hp : IsNode f p) (hk : kids f p = pre ++ c :: post) :
    Around f skip c l r ↔ (pre.reverse.find? fun m => !skip (dat f m).ty) = some l ∧
      (post.find? fun m => !skip (dat f m).ty) = some r := by
  have hty : ∀ m ∈ kids f p, f.ty m = some (dat f m).ty := fun m hm => by
    simp [File.ty, data_dat (kids_spec hc hp hm).2.1]
  have hnd := kids_nodup hc hp
  have hcm : c ∈ kids f p := by rw [hk]; simp
  constructor
  · rintro ⟨q, before, s1, s2, after, h1, h2, h3⟩
    have hq : IsNode f q := by
      simp only [File.children, File.data, Option.map_eq_some_iff] at h1
      obtain ⟨d, h, _⟩ := h1
      exact isNode_of_getElem h
    rw [children_kids hq] at h1
    simp only [Option.some.injEq] at h1
    have hcq : c ∈ kids f q := by rw [h1]; simp
    have hqp : q = p := by
      have e1 := (kids_spec hc hq hcq).2.2
      have e2 := (kids_spec hc hp hcm).2.2
      rw [e1] at e2
      simpa using e2
    subst hqp
    have heq : pre ++ c :: post = (before ++ [l] ++ s1) ++ c :: (s2 ++ [r] ++ after) := by
      rw [← hk, h1]; simp
    rw [hk] at hnd
    obtain ⟨rfl, rfl⟩ := split_unique hnd heq
    have hskip : ∀ m ∈ s1 ++ s2, skip (dat f m).ty = true := by
      intro m hm
      obtain ⟨ty, e1, e2⟩ := h2 m hm
      rw [hty m (by rw [hk]; simp only [List.mem_append] at hm ⊢; rcases hm with h | h <;> simp [h])] at e1
      cases e1
      exact e2
    have hl : skip (dat f l).ty = false := by
      obtain ⟨ty, e1, e2⟩ := h3 l (by simp)
      rw [hty l (by rw [hk]; simp)] at e1
      cases e1
      exact e2
    have hr : skip (dat f r).ty = false := by
      obtain ⟨ty, e1, e2⟩ := h3 r (by simp)
      rw [hty r (by rw [hk]; simp)] at e1
      cases e1
      exact e2
    have n1 : (s1.reverse.find? fun m => !skip (dat f m).ty) = none := by
      rw [List.find?_eq_none]
      intro m hm
      simp [hskip m (by simp at hm; simp [hm])]
    have n2 : (s2.find? fun m => !skip (dat f m).ty) = none := by
      rw [List.find?_eq_none]
      intro m hm
      simp [hskip m (by simp [hm])]
    constructor
    · simp [List.reverse_append, List.find?_append, n1, hl]
    · simp [List.find?_append, n2, hr]
  · rintro ⟨h1, h2⟩
    rw [List.find?_eq_some_iff_append] at h1 h2
    obtain ⟨hl, a1, b1, e1, k1⟩ := h1
    obtain ⟨hr, a2, b2, e2, k2⟩ := h2
    have e3 : pre = b1.reverse ++ [l] ++ a1.reverse := by
      have := congrArg List.reverse e1
      simpa using this
    subst e3 e2
    refine ⟨p, b1.reverse, a1.reverse, a2, b2, by rw [children_kids hp, hk]; simp, ?_, ?_⟩
    · intro n hn
      refine ⟨_, hty n (by rw [hk]; simp only [List.mem_append] at hn ⊢; rcases hn with h | h <;> simp [h]), ?_⟩
      simp only [List.mem_append, List.mem_reverse] at hn
      rcases hn with h | h
      · simpa using k1 n h
      · simpa using k2 n h
    · intro n hn
      simp only [List.mem_cons, List.not_mem_nil, or_false] at hn
      rcases hn with rfl | rfl
      · exact ⟨_, hty n (by rw [hk]; simp), by simpa using hl⟩
      · exact ⟨_, hty n (by rw [hk]; simp), by simpa using hr⟩

theorem around_kids {f : File α} {skip : NodeType → Bool} {c l r : Nat} (h : Around f skip c l r) :
    ∃ p pre mid post, IsNode f p ∧ kids f p = pre ++ l :: (mid ++ r :: post) ∧ c ∈ kids f p := by
  obtain ⟨p, before, s1, s2, after, h1, -, -⟩ := h
  have hp : IsNode f p := by
    simp only [File.children, File.data, Option.map_eq_some_iff] at h1
    obtain ⟨d, h, _⟩ := h1
    exact isNode_of_getElem h
  rw [children_kids hp] at h1
  simp only [Option.some.injEq] at h1
  exact ⟨p, before, s1 ++ [c] ++ s2, after, hp, by rw [h1]; simp, by rw [h1]; simp⟩

theorem altsAround_eq {f : File α} (hc : Consistent f.nodes) {pipe : TextRange} (hpipe : pipe.start < pipe.stop)
    (xs ys : List Nat) (hx : ∀ x ∈ xs, IsNode f x ∧ (rng f x).stop ≤ pipe.start)
    (hy : ∀ y ∈ ys, IsNode f y ∧ pipe.stop ≤ (rng f y).start) :
    f.altsAround pipe (xs ++ ys) = some (xs.getLast?.bind fun a => ys.head?.map fun b => (a, b)) := by
  have lt1 : ∀ n, IsNode f n → ((rng f n).partialCmp pipe = some .lt ↔ (rng f n).stop ≤ pipe.start) := by
    intro n _
    unfold TextRange.partialCmp
    split
    · simp [*]
    · rename_i h
      simp only [h, iff_false]
      split
      · simp
      · split <;> simp
  have lt2 : ∀ n, IsNode f n → (pipe.partialCmp (rng f n) = some .lt ↔ pipe.stop ≤ (rng f n).start) := by
    intro n _
    unfold TextRange.partialCmp
    split
    · simp [*]
    · rename_i h
      simp only [h, iff_false]
      split
      · simp
      · split <;> simp
  have hys : ∀ ys : List Nat, (∀ y ∈ ys, IsNode f y ∧ pipe.stop ≤ (rng f y).start) →
      f.altsAround pipe ys = some none := by
    intro ys
    induction ys with
    | nil => intro _; rfl
    | cons y ys ih =>
      intro h
      cases ys with
      | nil => rfl
      | cons z ys =>
        have h1 := h y (by simp)
        have h2 := h z (by simp)
        have hv := rng_valid hc h1.1
        simp only [File.altsAround, range_rng h1.1, range_rng h2.1, Option.bind_eq_bind, Option.bind_some, lt1 y h1.1]
        rw [if_neg (by omega)]
        exact ih (fun w hw => h w (List.mem_cons_of_mem _ hw))
  induction xs with
  | nil => rw [List.nil_append]; exact hys ys hy
  | cons x xs ih =>
    have h1 := hx x (by simp)
    cases xs with
    | nil =>
      cases ys with
      | nil => rfl
      | cons y ys =>
        have h2 := hy y (by simp)
        simp only [List.cons_append, List.nil_append, File.altsAround, range_rng h1.1, range_rng h2.1,
          Option.bind_eq_bind, Option.bind_some, lt1 x h1.1, lt2 y h2.1]
        rw [if_pos ⟨h1.2, h2.2⟩]
        rfl
    | cons x' xs =>
      have h2 := hx x' (by simp)
      have hv := rng_valid hc h2.1
      have := ih (fun w hw => hx w (List.mem_cons_of_mem _ hw))
      rw [List.getLast?_cons_cons, ← this]
      simp only [List.cons_append, File.altsAround, range_rng h1.1, range_rng h2.1, Option.bind_eq_bind,
        Option.bind_some, lt2 x' h2.1]
      rw [if_neg (by omega)]

end Fall
