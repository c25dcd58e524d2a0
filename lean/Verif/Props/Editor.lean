import Verif.Lemmas.Editor

/-! Properties of the editor features: C48 and C51. -/

namespace Fall
open Spec

/-! ## C48 extending the selection -/

theorem isNode_of_range {f : File α} {n : Nat} {r : TextRange} (h : f.range n = some r) :
    IsNode f n ∧ rng f n = r := by
  have hn : IsNode f n := by
    simp only [File.range, File.data, Option.map_eq_some_iff] at h
    obtain ⟨d, h, _⟩ := h
    exact isNode_of_getElem h
  rw [range_rng hn] at h
  exact ⟨hn, by simpa using h⟩

/-- C48. Extending a non-empty selection gives the smallest node that contains more than the selection, and
nothing exactly if the whole file is selected. It never panics. -/
theorem C48_extend (f : File UInt8) (hf : ConsistentFile f) (isWs : NodeType → Bool) (q : TextRange)
    (hq : q.start < q.stop) (hl : q.stop ≤ f.text.length) :
    ∃ res, f.extendSelection isWs q = some res ∧ (res = none ↔ q = ⟨0, f.text.length⟩) ∧
      ∀ r, res = some r → (∃ n, f.range n = some r) ∧ Larger r q ∧
        ∀ n r', f.range n = some r' → Larger r' q → Within r r' := by
  have hc := hf.nodes
  obtain ⟨m, h1, h2, h3, -, h5⟩ := covering_least hf (Nat.le_of_lt hq) hl
  obtain ⟨as, e, hlast, hmem, -, hsuf⟩ := ancestors_spec hc m h2
  have hnodes : ∀ a ∈ m :: as, IsNode f a := by
    intro a ha
    exact Nat.lt_of_le_of_lt (desc_le hc ((hmem a).1 ha)) h2
  have hne : q.isEmpty = false := by simp [TextRange.isEmpty]; omega
  have hd : ∀ a, (dat f a).range = rng f a := fun _ => rfl
  have hx : f.extendSelection isWs q = some (((m :: as).find? fun a => !decide (rng f a = q)).map (rng f)) := by
    simp only [File.extendSelection, hne, Bool.false_eq_true, if_false, File.root, h1, Option.bind_eq_bind,
      Option.bind_some, e, findNode_eq _ hnodes, hd]
    cases hfi : (m :: as).find? fun a => !decide (rng f a = q) with
    | none => rfl
    | some a => simp [range_rng (hnodes a (List.mem_of_find?_eq_some hfi))]
  refine ⟨_, hx, ?_, ?_⟩
  · simp only [Option.map_eq_none_iff, List.find?_eq_none, Bool.not_eq_true', decide_eq_false_iff_not]
    constructor
    · intro h
      have := h 0 (List.mem_of_getLast? hlast)
      rw [root_rng hf] at this
      exact (Decidable.not_not.1 this).symm
    · rintro hq0 a ha
      refine Decidable.not_not.2 ?_
      have hda := (hmem a).1 ha
      have g1 := desc_range hc hda
      have g2 := node_range_le hf (hnodes a ha)
      subst hq0
      unfold Within at h3
      simp only at h3
      cases hr : rng f a
      rw [hr] at g1 g2
      simp only at g1 g2
      rw [TextRange.mk.injEq]
      omega
  · intro r hr
    simp only [Option.map_eq_some_iff] at hr
    obtain ⟨a, ha, rfl⟩ := hr
    rw [List.find?_eq_some_iff_append] at ha
    obtain ⟨hpa, pre, post, happ, hpre⟩ := ha
    have ham : a ∈ m :: as := by rw [happ]; simp
    have hda := (hmem a).1 ham
    have g1 := desc_range hc hda
    refine ⟨⟨a, range_rng (hnodes a ham)⟩, ⟨?_, by simpa using hpa⟩, ?_⟩
    · unfold Within at *; omega
    · intro n r' hn hlarge
      obtain ⟨hn', rfl⟩ := isNode_of_range hn
      have hnm := (hmem n).2 (h5 hq n hn' hlarge.1)
      rw [happ, List.mem_append] at hnm
      rcases hnm with hnm | hnm
      · have := hpre n hnm
        simp only [Bool.not_not, decide_eq_true_eq] at this
        exact absurd this hlarge.2
      · have := desc_range hc ((hsuf pre a post happ n).1 hnm)
        exact this

/-- The text `a, b` and a newline, in an outer node, with a node for each letter. -/
def editorOps : List BuilderOp :=
  [.start 1, .start 2, .leaf 3 1, .finish, .leaf 4 1, .leaf 5 1, .start 2, .leaf 3 1, .finish, .leaf 5 1, .finish]

/-- The file of the examples. -/
def editorFile : File UInt8 :=
  ⟨[97, 44, 32, 98, 10],
    [⟨1, none, [1, 3, 4, 5, 7], ⟨0, 5⟩⟩, ⟨2, some 0, [2], ⟨0, 1⟩⟩, ⟨3, some 1, [], ⟨0, 1⟩⟩,
     ⟨4, some 0, [], ⟨1, 2⟩⟩, ⟨5, some 0, [], ⟨2, 3⟩⟩, ⟨2, some 0, [6], ⟨3, 4⟩⟩, ⟨3, some 5, [], ⟨3, 4⟩⟩,
     ⟨5, some 0, [], ⟨4, 5⟩⟩]⟩

theorem editorFile_consistent : ConsistentFile editorFile := by
  obtain ⟨f, h1, _, h2, _⟩ := C14_build_consistent editorOps
    (forest_singleRoot 1 (.node 2 (.leaf 3 1 .nil) (.leaf 4 1 (.leaf 5 1
      (.node 2 (.leaf 3 1 .nil) (.leaf 5 1 .nil)))))) ([97, 44, 32, 98, 10] : List UInt8) rfl
  have : newFile [97, 44, 32, 98, 10] editorOps = some editorFile := by decide
  rw [this] at h1
  cases h1
  exact h2

example : ConsistentFile editorFile ∧ editorFile.extendSelection (· == 5) ⟨3, 4⟩ = some (some ⟨0, 5⟩) ∧
    editorFile.extendSelection (· == 5) ⟨0, 5⟩ = some none := ⟨editorFile_consistent, by decide, by decide⟩

/-- C48. Extending a non-empty selection again and again gives larger and larger selections, until the whole
file is selected. -/
theorem C48_repeat (f : File UInt8) (hf : ConsistentFile f) (isWs : NodeType → Bool) (q : TextRange)
    (hq : q.start < q.stop) (hl : q.stop ≤ f.text.length) :
    ∃ rest : List TextRange,
      Chain (fun a b => f.extendSelection isWs a = some (some b) ∧ Larger b a) (q :: rest) ∧
      (q :: rest).getLast? = some ⟨0, f.text.length⟩ ∧
      f.extendSelection isWs ⟨0, f.text.length⟩ = some none := by
  have whole : f.extendSelection isWs ⟨0, f.text.length⟩ = some none := by
    obtain ⟨res, h1, h2, -⟩ := C48_extend f hf isWs ⟨0, f.text.length⟩
      (by show 0 < f.text.length; omega) (Nat.le_refl _)
    rw [h1, h2.2 rfl]
  generalize hk : f.text.length - (q.stop - q.start) = k
  induction k using Nat.strongRecOn generalizing q with
  | _ k ih =>
    obtain ⟨res, h1, h2, h3⟩ := C48_extend f hf isWs q hq hl
    cases res with
    | none =>
      have := h2.1 rfl
      subst this
      exact ⟨[], trivial, rfl, whole⟩
    | some r =>
      obtain ⟨⟨n, hn⟩, hlarge, -⟩ := h3 r rfl
      obtain ⟨hn', rfl⟩ := isNode_of_range hn
      have hle := node_range_le hf hn'
      obtain ⟨⟨w1, w2⟩, hne⟩ := hlarge
      have hlt : q.stop - q.start < (rng f n).stop - (rng f n).start := by
        rcases Nat.lt_or_ge (q.stop - q.start) ((rng f n).stop - (rng f n).start) with h | h
        · exact h
        · exfalso
          apply hne
          cases hr : rng f n
          cases q
          rw [hr] at w1 w2 h
          simp only at w1 w2 h hq
          rw [TextRange.mk.injEq]
          omega
      obtain ⟨rest, g1, g2, g3⟩ := ih _ (by omega) (rng f n) (by omega) hle rfl
      exact ⟨rng f n :: rest, ⟨⟨h1, ⟨w1, w2⟩, hne⟩, g1⟩, by rw [List.getLast?_cons_cons]; exact g2, g3⟩

example : Chain (fun a b => editorFile.extendSelection (· == 5) a = some (some b)) [⟨1, 2⟩, ⟨0, 5⟩] :=
  ⟨by decide, trivial⟩

theorem mem_bytes_iff {text : List α} {a b : Nat} {x : α} :
    x ∈ bytes text a b ↔ ∃ i, a ≤ i ∧ i < b ∧ text[i]? = some x := by
  simp only [bytes, List.mem_iff_getElem?, List.getElem?_take, List.getElem?_drop]
  constructor
  · rintro ⟨i, h⟩
    split at h
    · exact ⟨a + i, by omega, by omega, h⟩
    · simp at h
  · rintro ⟨i, h1, h2, h3⟩
    refine ⟨i - a, ?_⟩
    rw [if_pos (by omega)]
    have : a + (i - a) = i := by omega
    rw [this]; exact h3

/-- C48. For a caret, the extension is the leaf next to it that is not whitespace, on the left if there are
two. If there is only whitespace it is that whitespace, or, if the caret is in the indentation of a line, the
smallest node with all of that line. The file must not be empty. It never panics. -/
theorem C48_caret (f : File UInt8) (hf : ConsistentFile f) (isWs : NodeType → Bool) (offset : Nat)
    (h : offset ≤ f.text.length) (hne : f.text ≠ []) :
    ∃ r n, f.extendSelection isWs ⟨offset, offset⟩ = some (some r) ∧ f.range n = some r ∧ r.start < r.stop ∧
      (∀ l, Leftmost f (fun l => LeafAt f offset l ∧ ∃ ty, f.ty l = some ty ∧ isWs ty = false) l →
        f.range l = some r) ∧
      ((∀ l ty, LeafAt f offset l → f.ty l = some ty → isWs ty = true) → ∀ w wr, Leftmost f (LeafAt f offset) w →
        f.range w = some wr →
        (∀ b, IndentOf f.text offset wr b → Within ⟨wr.stop, b⟩ r ∧
          (wr.stop < b → ∀ n' r', f.range n' = some r' → Within ⟨wr.stop, b⟩ r' → Within r r')) ∧
        ((∀ b, ¬ IndentOf f.text offset wr b) → r = wr)) := by
  have hc := hf.nodes
  obtain ⟨res, e, hmem, hpw, hnon, hnode⟩ := leaves_at hf h
  have hty : ∀ l ∈ res.toList, f.ty l = some (dat f l).ty := fun l hl => by simp [File.ty, data_dat (hnode l hl)]
  have hleft : ∀ (P : NodeId → Prop) l, (∀ l, P l → l ∈ res.toList) → Leftmost f P l →
      ∀ p : NodeId → Bool, (∀ l ∈ res.toList, p l = true ↔ P l) → res.toList.find? p = some l := by
    intro P l hP hl p hp
    rw [find_leftmost hpw]
    refine ⟨hP l hl.1, (hp l (hP l hl.1)).2 hl.1, fun y hy hpy => ?_⟩
    exact hl.2 y ((hp y hy).1 hpy) _ _ (range_rng (hnode l (hP l hl.1))) (range_rng (hnode y hy))
  simp only [File.extendSelection, TextRange.isEmpty, BEq.rfl, if_true, File.root, e, Option.bind_eq_bind,
    Option.bind_some, findNode_eq _ hnode]
  cases hfi : res.toList.find? fun l => !isWs (dat f l).ty with
  | some l =>
    have hlm := List.mem_of_find?_eq_some hfi
    have hlp := List.find?_some hfi
    simp only [Bool.not_eq_true'] at hlp
    have il := hnode l hlm
    refine ⟨rng f l, l, by simp [range_rng il], range_rng il,
      ((nonEmptyLeaf_iff il).1 ((hmem l).1 hlm).1).2, fun l' hl' => ?_, fun hall => ?_⟩
    · have := hleft _ l' (fun x hx => (hmem x).2 hx.1) hl' (fun l => !isWs (dat f l).ty) (by
        intro x hx
        simp [hty x hx, (hmem x).1 hx])
      rw [hfi] at this
      cases this
      exact range_rng il
    · have := hall l _ ((hmem l).1 hlm) (hty l hlm)
      rw [hlp] at this
      simp at this
  | none =>
    rw [List.find?_eq_none] at hfi
    have hws : ∀ l ∈ res.toList, isWs (dat f l).ty = true := fun l hl => by simpa using hfi l hl
    cases hres : res.toList with
    | nil => exact absurd hres (hnon hne)
    | cons w rest =>
      have hwm : w ∈ res.toList := by rw [hres]; simp
      have iw := hnode w hwm
      have hwl := (nonEmptyLeaf_iff iw).1 ((hmem w).1 hwm).1
      have hwt := (touches_iff iw).1 ((hmem w).1 hwm).2
      have hle := node_range_le hf iw
      have first : ∀ w', Leftmost f (LeafAt f offset) w' → w' = w := by
        intro w' hw'
        have := hleft _ w' (fun x hx => (hmem x).2 hx) hw' (fun _ => true) (by
          intro x hx; simpa using (hmem x).1 hx)
        rw [hres] at this
        simpa using this.symm
      have none1 : ∀ l, ¬ Leftmost f (fun l => LeafAt f offset l ∧ ∃ ty, f.ty l = some ty ∧ isWs ty = false) l := by
        rintro l ⟨⟨h1, ty, h2, h3⟩, -⟩
        have hl := (hmem l).2 h1
        rw [hty l hl] at h2
        cases h2
        rw [hws l hl] at h3
        simp at h3
      have slice : ∀ a b, a ≤ b → b ≤ f.text.length → ∃ t, (Text.ofBuf f.text).slice ⟨a, b⟩ = some t ∧
          t.asStr = some (bytes f.text a b) := by
        intro a b h1 h2
        have := piece_copy (Text.ofBuf_wf f.text) (Text.asStr_ofBuf f.text) ⟨a, b⟩
        simp only [h1, h2, and_self, if_true, TextEditOp.piece, Option.bind_eq_some_iff] at this
        exact this
      obtain ⟨t1, s1, s2⟩ := slice offset (rng f w).stop hwt.2 hle
      obtain ⟨t2, s3, s4⟩ := slice (rng f w).stop f.text.length hle (Nat.le_refl _)
      have s5 : (Text.ofBuf f.text).sliceFrom (rng f w).stop = some t2 := by
        have : (Text.ofBuf f.text).len = f.text.length := by simp [Text.ofBuf, Text.len]
        rw [Text.sliceFrom, this, TextRange.fromTo, if_pos hle]
        exact s3
      simp only [File.extendInWhitespace, range_rng iw, Option.bind_eq_bind, Option.bind_some,
        TextRange.fromTo, hwt.2, if_true, s1, s2, textOf_eq hf iw, s5, s4]
      have contains_iff : ∀ l : List UInt8, l.contains newlineByte = true ↔ (10 : UInt8) ∈ l := by
        intro l; simp [newlineByte]
      split
      · rename_i hcond
        simp only [Bool.and_eq_true, Bool.not_eq_true', Bool.eq_false_iff, ne_eq, contains_iff,
          mem_bytes_iff] at hcond
        obtain ⟨c1, c2⟩ := hcond
        have c2' : ∀ i, offset ≤ i → i < (rng f w).stop → f.text[i]? ≠ some 10 :=
          fun i h1 h2 h3 => c2 ⟨i, h1, h2, h3⟩
        cases hidx : (bytes f.text (rng f w).stop f.text.length).idxOf? newlineByte with
        | none =>
          rw [List.idxOf?_eq_none_iff] at hidx
          refine ⟨rng f w, w, rfl, range_rng iw, hwl.2, fun l hl => absurd hl (none1 l), fun _ w' wr hw' hwr => ?_⟩
          have := first w' hw'
          subst this
          rw [range_rng iw] at hwr
          cases hwr
          refine ⟨fun b hb => absurd (mem_bytes_iff.2 ⟨b, hb.2.2.1, ?_, hb.2.2.2.1⟩) hidx, fun _ => rfl⟩
          rcases Nat.lt_or_ge b f.text.length with h | h
          · exact h
          · have := hb.2.2.2.1
            rw [List.getElem?_eq_none h] at this
            simp at this
        | some k =>
          rw [List.idxOf?_eq_some_iff] at hidx
          obtain ⟨k1, k2, k3⟩ := hidx
          have hlen := bytes_length f.text (a := (rng f w).stop) (b := f.text.length) (Nat.le_refl _)
          have get : ∀ j (hj : j < (bytes f.text (rng f w).stop f.text.length).length),
              f.text[(rng f w).stop + j]? = some (bytes f.text (rng f w).stop f.text.length)[j] := by
            intro j hj
            rw [← List.getElem?_eq_getElem, bytes, List.getElem?_take, List.getElem?_drop]
            rw [if_pos (by omega)]
          obtain ⟨m, m1, m2, m3, m4, m5⟩ := covering_least hf (q := ⟨(rng f w).stop, (rng f w).stop + k⟩)
            (Nat.le_add_right _ _) (by show (rng f w).stop + k ≤ f.text.length; omega)
          have hline : LineEnd f.text (rng f w).stop ((rng f w).stop + k) := by
            refine ⟨Nat.le_add_right _ _, by rw [get k k1, k2]; rfl, fun i h1 h2 h3 => ?_⟩
            have := get (i - (rng f w).stop) (by omega)
            rw [show (rng f w).stop + (i - (rng f w).stop) = i by omega, h3] at this
            simp only [Option.some.injEq] at this
            exact k3 _ (by omega) this.symm
          simp only [TextRange.fromLen, TextRange.fromTo, Nat.le_add_right, if_true, Option.bind_some,
            File.root, m1, range_rng m2]
          refine ⟨rng f m, m, rfl, range_rng m2, m4 hne, fun l hl => absurd hl (none1 l), fun _ w' wr hw' hwr => ?_⟩
          have := first w' hw'
          subst this
          rw [range_rng iw] at hwr
          cases hwr
          refine ⟨fun b hb => ?_, fun hno => absurd ⟨c1, c2', hline⟩ (hno _)⟩
          have hbk : b = (rng f w').stop + k := by
            have g1 := hb.2.2.2.1
            have g2 := hline.2.1
            rcases Nat.lt_trichotomy b ((rng f w').stop + k) with h | h | h
            · exact absurd g1 (hline.2.2 b hb.2.2.1 h)
            · exact h
            · exact absurd g2 (hb.2.2.2.2 _ (Nat.le_add_right _ _) h)
          subst hbk
          refine ⟨m3, fun hlt n' r' hn' hw => ?_⟩
          obtain ⟨hn2, rfl⟩ := isNode_of_range hn'
          exact desc_range hc (m5 hlt n' hn2 hw)
      · rename_i hcond
        refine ⟨rng f w, w, rfl, range_rng iw, hwl.2, fun l hl => absurd hl (none1 l), fun _ w' wr hw' hwr => ?_⟩
        have := first w' hw'
        subst this
        rw [range_rng iw] at hwr
        cases hwr
        refine ⟨fun b hb => absurd ?_ hcond, fun _ => rfl⟩
        simp only [Bool.and_eq_true, Bool.not_eq_true', Bool.eq_false_iff, ne_eq, contains_iff, mem_bytes_iff]
        exact ⟨hb.1, fun ⟨i, h1, h2, h3⟩ => hb.2.1 i h1 h2 h3⟩

example : ConsistentFile editorFile ∧ 3 ≤ editorFile.text.length ∧ editorFile.text ≠ [] ∧
    editorFile.extendSelection (· == 5) ⟨3, 3⟩ = some (some ⟨3, 4⟩) ∧
    editorFile.extendSelection (· == 5) ⟨5, 5⟩ = some (some ⟨4, 5⟩) :=
  ⟨editorFile_consistent, by decide, by decide, by decide, by decide⟩

/-- The text `a`, a newline, two blanks, `b` and a newline. -/
def indentFile : File UInt8 :=
  ⟨[97, 10, 32, 32, 98, 10],
    [⟨1, none, [1, 2, 3, 4], ⟨0, 6⟩⟩, ⟨3, some 0, [], ⟨0, 1⟩⟩, ⟨5, some 0, [], ⟨1, 4⟩⟩,
     ⟨3, some 0, [], ⟨4, 5⟩⟩, ⟨5, some 0, [], ⟨5, 6⟩⟩]⟩

theorem indentFile_consistent : ConsistentFile indentFile := by
  obtain ⟨f, h1, _, h2, _⟩ := C14_build_consistent
    [.start 1, .leaf 3 1, .leaf 5 3, .leaf 3 1, .leaf 5 1, .finish]
    (forest_singleRoot 1 (.leaf 3 1 (.leaf 5 3 (.leaf 3 1 (.leaf 5 1 .nil)))))
    ([97, 10, 32, 32, 98, 10] : List UInt8) rfl
  have : newFile ([97, 10, 32, 32, 98, 10] : List UInt8)
      [.start 1, .leaf 3 1, .leaf 5 3, .leaf 3 1, .leaf 5 1, .finish] = some indentFile := by decide
  rw [this] at h1
  cases h1
  exact h2

/-- C48 is about non-empty selections for a reason: the extension of a caret in the indentation of a line need
not contain the caret. -/
theorem C48_caret_counterexample :
    ∃ (f : File UInt8) (isWs : NodeType → Bool) (offset : Nat) (r : TextRange), ConsistentFile f ∧
      offset ≤ f.text.length ∧ f.extendSelection isWs ⟨offset, offset⟩ = some (some r) ∧
      ¬ Within ⟨offset, offset⟩ r :=
  ⟨indentFile, (· == 5), 3, ⟨4, 5⟩, indentFile_consistent, by decide, by decide, by unfold Within; decide⟩

/-- C48. In an empty file there is nothing to select. -/
theorem C48_empty_file (f : File UInt8) (hf : ConsistentFile f) (isWs : NodeType → Bool) (h : f.text = []) :
    f.extendSelection isWs ⟨0, 0⟩ = some none := by
  obtain ⟨res, e, hmem, -, -, hnode⟩ := leaves_at hf (offset := 0) (Nat.zero_le _)
  have hnil : res.toList = [] := by
    rw [List.eq_nil_iff_forall_not_mem]
    intro l hl
    have h1 := ((nonEmptyLeaf_iff (hnode l hl)).1 ((hmem l).1 hl).1).2
    have h2 := node_range_le hf (hnode l hl)
    rw [h] at h2
    simp at h2
    omega
  simp [File.extendSelection, TextRange.isEmpty, File.root, e, hnil, File.findNode]

example : ∃ f : File UInt8, ConsistentFile f ∧ f.text = [] := by
  obtain ⟨f, -, h1, h2, -⟩ := C14_build_consistent [.start 1, .finish] (forest_singleRoot 1 .nil) ([] : List UInt8) rfl
  exact ⟨f, h2, h1⟩

/-! ## C51 swapping elements -/

/-- C51. At a comma, of two the left one, if the nearest siblings on both sides that are not whitespace have the
same type, then swapping is offered and exchanges exactly the texts of these two. Otherwise nothing is offered. It
never panics. -/
theorem C51_swap (f : File UInt8) (hf : ConsistentFile f) (isWs : NodeType → Bool) (offset : Nat)
    (h : offset ≤ f.text.length) :
    ((∀ l, LeafAt f offset l → f.textOf l ≠ some [44]) → ∀ apply, f.swap isWs offset apply = some none) ∧
    ∀ comma, Leftmost f (fun l => LeafAt f offset l ∧ f.textOf l = some [44]) comma →
      (∀ left right, Around f isWs comma left right → f.ty left = f.ty right →
        f.swapNodes isWs offset = some (some (left, right)) ∧
        f.swap isWs offset false = some (some .available) ∧
        ∃ edit out lr rr, f.swap isWs offset true = some (some (.applied edit)) ∧
          edit.apply (Text.ofBuf f.text) = some out ∧ f.range left = some lr ∧ f.range right = some rr ∧
          Exchange f.text lr rr out) ∧
      ((∀ left right, Around f isWs comma left right → f.ty left ≠ f.ty right) →
        ∀ apply, f.swap isWs offset apply = some none) := by
  have hc := hf.nodes
  obtain ⟨res, e, hmem, hpw, -, hnode⟩ := leaves_at hf h
  have hpick : f.findComma 0 offset = some (res.toList.find? fun l => f.textOf l == some [44]) := by
    simp only [File.findComma, e, Option.bind_eq_bind, Option.bind_some]
    apply pickLeaf_eq
    intro l hl
    simp [textOf_eq hf (hnode l hl), commaByte]
  refine ⟨fun hno apply => ?_, fun comma hcm => ?_⟩
  · have : (res.toList.find? fun l => f.textOf l == some [44]) = none := by
      rw [List.find?_eq_none]
      intro l hl
      simpa using hno l ((hmem l).1 hl)
    simp [File.swap, File.swapNodes, File.root, hpick, this]
  · have hcr := (hmem comma).2 hcm.1.1
    have ic := hnode comma hcr
    have hfind : (res.toList.find? fun l => f.textOf l == some [44]) = some comma := by
      rw [find_leftmost hpw]
      refine ⟨hcr, by simp [hcm.1.2], fun y hy hpy => ?_⟩
      exact hcm.2 y ⟨(hmem y).1 hy, by simpa using hpy⟩ _ _ (range_rng ic) (range_rng (hnode y hy))
    rw [hfind] at hpick
    by_cases h0 : comma = 0
    · have hno : ∀ l r, ¬ Around f isWs comma l r := by
        intro l r har
        obtain ⟨p, -, -, -, hp, -, hmemc⟩ := around_kids har
        have := (kids_spec hc hp hmemc).1
        rw [h0] at this
        exact Nat.not_lt_zero _ this
      have hpos : 0 < f.nodes.length := root_isNode hc
      have hsib : f.nonwsSibling isWs .left comma = some none := by
        subst h0
        unfold File.nonwsSibling
        cases hl : f.nodes.length with
        | zero => omega
        | succ k => simp [File.nonwsSiblingN, sibling_root hc]
      refine ⟨fun l r har => absurd har (hno l r), fun _ apply => ?_⟩
      simp [File.swap, File.swapNodes, File.root, hpick, hsib]
    · obtain ⟨p, hp⟩ := parent_some hc ic h0
      obtain ⟨ip, hk, -⟩ := parent_spec hc ic hp
      obtain ⟨pre, post, hk⟩ := List.append_of_mem hk
      obtain ⟨s1, s2⟩ := nonwsSibling_eq hc isWs ip hk
      have hty : ∀ m ∈ kids f p, f.ty m = some (dat f m).ty := fun m hm => by
        simp [File.ty, data_dat (kids_spec hc ip hm).2.1]
      constructor
      · intro left right har htys
        obtain ⟨a1, a2⟩ := (around_iff hc isWs ip hk).1 har
        obtain ⟨p', pre', mid', post', hp', hk', -⟩ := around_kids har
        have hl : left ∈ kids f p := by
          have := List.mem_of_find?_eq_some a1
          rw [hk]; simp at this; simp [this]
        have hr : right ∈ kids f p := by
          have := List.mem_of_find?_eq_some a2
          rw [hk]; simp [this]
        rw [hty left hl, hty right hr] at htys
        simp only [Option.some.injEq] at htys
        have hnodes : f.swapNodes isWs offset = some (some (left, right)) := by
          simp [File.swapNodes, File.root, hpick, s1, s2, a1, a2, hty left hl, hty right hr, htys]
        obtain ⟨edit, out, g1, g2, g3⟩ := swapEdit_spec hf hp' hk'
        refine ⟨hnodes, by simp [File.swap, hnodes], edit, out, rng f left, rng f right, ?_, g2,
          range_rng (kids_spec hc ip hl).2.1, range_rng (kids_spec hc ip hr).2.1, g3⟩
        simp [File.swap, hnodes, g1]
      · intro hno apply
        have hnodes : f.swapNodes isWs offset = some none := by
          simp only [File.swapNodes, File.root, hpick, Option.bind_eq_bind, Option.bind_some, s1, s2]
          cases a1 : pre.reverse.find? fun m => !isWs (dat f m).ty with
          | none => rfl
          | some left =>
            cases a2 : post.find? fun m => !isWs (dat f m).ty with
            | none => simp
            | some right =>
              have hl : left ∈ kids f p := by
                have := List.mem_of_find?_eq_some a1
                rw [hk]; simp at this; simp [this]
              have hr : right ∈ kids f p := by
                have := List.mem_of_find?_eq_some a2
                rw [hk]; simp [this]
              have := hno left right ((around_iff hc isWs ip hk).2 ⟨a1, a2⟩)
              rw [hty left hl, hty right hr] at this
              simp only [ne_eq, Option.some.injEq] at this
              simp [hty left hl, hty right hr, this]
        simp [File.swap, hnodes]

theorem editorFile_comma : Leftmost editorFile
    (fun l => LeafAt editorFile 2 l ∧ editorFile.textOf l = some [44]) 3 := by
  refine ⟨⟨⟨⟨⟨1, 2⟩, by decide, by decide, by decide⟩, ⟨1, 2⟩, by decide, by decide, by decide⟩, by decide⟩, ?_⟩
  rintro l ⟨⟨⟨r, h1, h2, h3⟩, -⟩, h4⟩ r1 r2 h5 h6
  have hl : l < 8 := (isNode_of_range h2).1
  have : ∀ l < 8, editorFile.textOf l = some [44] → editorFile.range l = some ⟨1, 2⟩ := by decide
  rw [this l hl h4] at h6
  have h7 : editorFile.range 3 = some ⟨1, 2⟩ := by decide
  rw [h7] at h5
  cases h5; cases h6
  exact Nat.le_refl _

theorem editorFile_around : Around editorFile (· == 5) 3 1 5 :=
  ⟨0, [], [], [4], [7], by decide, by decide, by decide⟩

example : ConsistentFile editorFile ∧ Leftmost editorFile
      (fun l => LeafAt editorFile 2 l ∧ editorFile.textOf l = some [44]) 3 ∧
    Around editorFile (· == 5) 3 1 5 ∧ editorFile.ty 1 = editorFile.ty 5 ∧
    ∃ edit, editorFile.swap (· == 5) 2 true = some (some (.applied edit)) ∧
      edit.apply (Text.ofBuf editorFile.text) = some [98, 44, 32, 97, 10] :=
  ⟨editorFile_consistent, editorFile_comma, editorFile_around, by decide,
    ⟨[.insert [98], .copy ⟨1, 3⟩, .insert [97], .copy ⟨4, 5⟩, .copy ⟨5, 5⟩]⟩, by decide, by decide⟩

/-- C51. If the resulting text is parsed again, and the nodes to be swapped are then those at the exchanged
places, swapping once more restores the text. -/
theorem C51_involution (f f' : File UInt8) (hf : ConsistentFile f) (hf' : ConsistentFile f')
    (isWs : NodeType → Bool) (offset offset' : Nat) (ho : offset ≤ f.text.length) (ho' : offset' ≤ f'.text.length)
    (l r l' r' : NodeId) (lr rr : TextRange) (edit : TextEdit UInt8)
    (h1 : f.swapNodes isWs offset = some (some (l, r)))
    (h2 : f.swap isWs offset true = some (some (.applied edit)))
    (h3 : edit.apply (Text.ofBuf f.text) = some f'.text)
    (h4 : f.range l = some lr) (h5 : f.range r = some rr)
    (h6 : f'.swapNodes isWs offset' = some (some (l', r')))
    (h7 : f'.range l' = some ⟨lr.start, lr.start + rr.len⟩) (h8 : f'.range r' = some ⟨rr.stop - lr.len, rr.stop⟩) :
    ∃ edit', f'.swap isWs offset' true = some (some (.applied edit')) ∧
      edit'.apply (Text.ofBuf f'.text) = some f.text := by
  have key : ∀ (f : File UInt8) (offset : Nat) (l r : NodeId) (lr rr : TextRange), ConsistentFile f →
      offset ≤ f.text.length → f.swapNodes isWs offset = some (some (l, r)) → f.range l = some lr →
      f.range r = some rr → ∃ edit out, f.swap isWs offset true = some (some (.applied edit)) ∧
        edit.apply (Text.ofBuf f.text) = some out ∧ Exchange f.text lr rr out := by
    intro f offset l r lr rr hf ho hsw hlr hrr
    obtain ⟨c1, c2⟩ := C51_swap f hf isWs offset ho
    obtain ⟨res, e, hmem, hpw, -, hnode⟩ := leaves_at hf ho
    cases hfi : res.toList.find? fun l => f.textOf l == some [44] with
    | none =>
      rw [List.find?_eq_none] at hfi
      have := c1 (fun l hl => by simpa using hfi l ((hmem l).2 hl)) false
      simp [File.swap, hsw] at this
    | some c =>
      rw [find_leftmost hpw] at hfi
      obtain ⟨g1, g2, g3⟩ := hfi
      obtain ⟨d1, d2⟩ := c2 c ⟨⟨(hmem c).1 g1, by simpa using g2⟩, fun y hy r1 r2 e1 e2 => by
        obtain ⟨-, rfl⟩ := isNode_of_range e1
        obtain ⟨-, rfl⟩ := isNode_of_range e2
        exact g3 y ((hmem y).2 hy.1) (by simpa using hy.2)⟩
      by_cases hex : ∃ left right, Around f isWs c left right ∧ f.ty left = f.ty right
      · obtain ⟨left, right, k1, k2⟩ := hex
        obtain ⟨m1, -, edit, out, lr', rr', m2, m3, m4, m5, m6⟩ := d1 left right k1 k2
        rw [hsw] at m1
        simp only [Option.some.injEq, Prod.mk.injEq] at m1
        obtain ⟨rfl, rfl⟩ := m1
        rw [hlr] at m4
        rw [hrr] at m5
        cases m4; cases m5
        exact ⟨edit, out, m2, m3, m6⟩
      · have := d2 (fun left right k1 k2 => hex ⟨left, right, k1, k2⟩) false
        simp [File.swap, hsw] at this
  obtain ⟨edit1, out, k1, k2, k3⟩ := key f offset l r lr rr hf ho h1 h4 h5
  rw [h2] at k1
  cases k1
  rw [h3] at k2
  cases k2
  obtain ⟨edit', out', m1, m2, m3⟩ := key f' offset' l' r' _ _ hf' ho' h6 h7 h8
  refine ⟨edit', m1, ?_⟩
  rw [m2, exchange_back k3 m3 rfl _ rfl _]
  · simp only [TextRange.len]; omega
  · obtain ⟨A, L, M, R, B, -, rfl, rfl, -⟩ := k3
    simp only [TextRange.len]; omega

/-- The text of `editorFile` after the swap. -/
def swappedFile : File UInt8 := { editorFile with text := [98, 44, 32, 97, 10] }

example : ConsistentFile swappedFile ∧ swappedFile.swapNodes (· == 5) 2 = some (some (1, 5)) ∧
    editorFile.swapNodes (· == 5) 2 = some (some (1, 5)) ∧
    editorFile.range 1 = some ⟨0, 1⟩ ∧ swappedFile.range 1 = some ⟨0, 1⟩ ∧ swappedFile.range 5 = some ⟨3, 4⟩ :=
  ⟨⟨editorFile_consistent.nodes, by decide⟩, by decide, by decide, by decide, by decide, by decide⟩

/-- C51. The action is offered exactly if applying it gives an edit. Neither panics. -/
theorem C51_offered (f : File UInt8) (hf : ConsistentFile f) (isWs : NodeType → Bool) (q : TextRange)
    (h : q.start ≤ f.text.length) (id : String) :
    ∃ actions res, f.defaultContextActions isWs q [] = some actions ∧
      f.applyDefaultContextAction isWs q id = some res ∧
      (id ∈ actions ↔ ∃ edit, res = some (some edit)) ∧ (res = none ↔ id ≠ "Swap") := by
  obtain ⟨c1, c2⟩ := C51_swap f hf isWs q.start h
  obtain ⟨res, e, hmem, hpw, -, hnode⟩ := leaves_at hf h
  have both : (∀ apply, f.swap isWs q.start apply = some none) ∨ (f.swap isWs q.start false = some (some .available) ∧
      ∃ edit, f.swap isWs q.start true = some (some (.applied edit))) := by
    cases hfi : res.toList.find? fun l => f.textOf l == some [44] with
    | none =>
      rw [List.find?_eq_none] at hfi
      exact .inl (c1 (fun l hl => by simpa using hfi l ((hmem l).2 hl)))
    | some c =>
      rw [find_leftmost hpw] at hfi
      obtain ⟨g1, g2, g3⟩ := hfi
      obtain ⟨d1, d2⟩ := c2 c ⟨⟨(hmem c).1 g1, by simpa using g2⟩, fun y hy r1 r2 e1 e2 => by
        obtain ⟨-, rfl⟩ := isNode_of_range e1
        obtain ⟨-, rfl⟩ := isNode_of_range e2
        exact g3 y ((hmem y).2 hy.1) (by simpa using hy.2)⟩
      by_cases hex : ∃ left right, Around f isWs c left right ∧ f.ty left = f.ty right
      · obtain ⟨left, right, k1, k2⟩ := hex
        obtain ⟨-, m1, edit, out, lr', rr', m2, -⟩ := d1 left right k1 k2
        exact .inr ⟨m1, edit, m2⟩
      · exact .inl (d2 (fun left right k1 k2 => hex ⟨left, right, k1, k2⟩))
  have hfind : ∀ id, (f.defaultActions isWs).find? (fun a => a.1 == id) =
      if id = "Swap" then some ("Swap", f.swap isWs) else none := by
    intro id
    simp only [File.defaultActions, List.find?_cons, List.find?_nil]
    by_cases hid : id = "Swap"
    · subst hid; simp
    · have : ("Swap" == id) = false := by simpa using fun h => hid h.symm
      simp [this, hid]
  unfold File.applyDefaultContextAction File.defaultContextActions
  rw [hfind]
  rcases both with hb | ⟨hb, edit, he⟩
  · refine ⟨[], if id = "Swap" then some none else none, by simp [File.defaultActions, hb], ?_, ?_, ?_⟩
    · by_cases hid : id = "Swap" <;> simp [hid, hb]
    · by_cases hid : id = "Swap" <;> simp [hid]
    · by_cases hid : id = "Swap" <;> simp [hid]
  · refine ⟨["Swap"], if id = "Swap" then some (some edit) else none, by simp [File.defaultActions, hb], ?_, ?_, ?_⟩
    · by_cases hid : id = "Swap" <;> simp [hid, he, ActionResult.intoEdit]
    · by_cases hid : id = "Swap" <;> simp [hid]
    · by_cases hid : id = "Swap" <;> simp [hid]

example : editorFile.defaultContextActions (· == 5) ⟨2, 2⟩ [] = some ["Swap"] ∧
    editorFile.defaultContextActions (· == 5) ⟨4, 4⟩ [] = some [] := by decide

/-- C51, for the alternatives of a Fall rule: at a pipe in a block, of two pipes the left one, the nearest
expressions on both sides are exchanged. Otherwise nothing is offered. It never panics. -/
theorem C51_swap_alternatives (f : File α) (hf : ConsistentFile f) (offset : Nat) (h : offset ≤ f.text.length) :
    ((∀ l, LeafAt f offset l → f.ty l ≠ some 112) → ∀ apply, f.swapAlternatives offset apply = some none) ∧
    ∀ pipe, Leftmost f (fun l => LeafAt f offset l ∧ f.ty l = some 112) pipe →
      (∀ p left right, Child f p pipe → f.ty p = some 137 → Around f (fun ty => !FallExpr ty) pipe left right →
        f.swapAlternatives offset false = some (some .available) ∧
        ∃ edit out lr rr, f.swapAlternatives offset true = some (some (.applied edit)) ∧
          edit.apply (Text.ofBuf f.text) = some out ∧ f.range left = some lr ∧ f.range right = some rr ∧
          Exchange f.text lr rr out) ∧
      ((∀ p left right, Child f p pipe → f.ty p = some 137 →
          ¬ Around f (fun ty => !FallExpr ty) pipe left right) →
        ∀ apply, f.swapAlternatives offset apply = some none) := by
  have hc := hf.nodes
  obtain ⟨res, e, hmem, hpw, -, hnode⟩ := leaves_at hf h
  have hexpr : ∀ ty, FallExpr ty = isFallExpr ty := by
    intro ty
    rw [Bool.eq_iff_iff]
    simp only [FallExpr, isFallExpr, List.contains_iff_mem, List.mem_cons, List.not_mem_nil, or_false,
      decide_eq_true_eq]
    have : ∀ n : Nat, 135 ≤ n ∧ n ≤ 140 ↔ n = 135 ∨ n = 140 ∨ n = 137 ∨ n = 138 ∨ n = 139 ∨ n = 136 := by omega
    exact this ty
  have hty' : ∀ l, IsNode f l → f.ty l = some (dat f l).ty := fun l hl => by simp [File.ty, data_dat hl]
  have hpick : File.pickLeaf (fun n => (f.ty n).map (· == fallPipe)) res =
      some (res.toList.find? fun l => f.ty l == some 112) := by
    apply pickLeaf_eq
    intro l hl
    simp [hty' l (hnode l hl), fallPipe]
  refine ⟨fun hno apply => ?_, fun pipe hcm => ?_⟩
  · have : (res.toList.find? fun l => f.ty l == some 112) = none := by
      rw [List.find?_eq_none]
      intro l hl
      simpa using hno l ((hmem l).1 hl)
    simp [File.swapAlternatives, File.findSwappableNodes, File.root, e, hpick, this]
  · have hcr := (hmem pipe).2 hcm.1.1
    have ic := hnode pipe hcr
    have hnz := ((nonEmptyLeaf_iff ic).1 hcm.1.1.1).2
    have hfind : (res.toList.find? fun l => f.ty l == some 112) = some pipe := by
      rw [find_leftmost hpw]
      refine ⟨hcr, by simp [hcm.1.2], fun y hy hpy => ?_⟩
      exact hcm.2 y ⟨(hmem y).1 hy, by simpa using hpy⟩ _ _ (range_rng ic) (range_rng (hnode y hy))
    rw [hfind] at hpick
    by_cases h0 : pipe = 0
    · have hno : ∀ l r, ¬ Around f (fun ty => !FallExpr ty) pipe l r := by
        intro l r har
        obtain ⟨p, -, -, -, hp, -, hmemc⟩ := around_kids har
        have := (kids_spec hc hp hmemc).1
        rw [h0] at this
        exact Nat.not_lt_zero _ this
      refine ⟨fun p l r _ _ har => absurd har (hno l r), fun _ apply => ?_⟩
      subst h0
      simp [File.swapAlternatives, File.findSwappableNodes, File.root, e, hpick, parent_dat ic, root_parent hc]
    · obtain ⟨p, hp⟩ := parent_some hc ic h0
      obtain ⟨ip, hkm, -⟩ := parent_spec hc ic hp
      obtain ⟨pre, post, hk⟩ := List.append_of_mem hkm
      have hchild : ∀ q, Child f q pipe → q = p := by
        intro q hq
        have := (child_spec hc hq).2.2.2
        rw [hp] at this
        simpa using this.symm
      have hpt : (dat f pipe).ty = 112 := by
        have := hcm.1.2
        rw [hty' pipe ic] at this
        simpa using this
      have hall : ∀ c ∈ kids f p, IsNode f c := fun c hc' => (kids_spec hc ip hc').2.1
      have htile := kids_tile hc ip (List.ne_nil_of_mem hkm)
      rw [hk, List.map_append, tiles_append] at htile
      obtain ⟨x, t1, t2, t3, t4⟩ := htile
      have hsw : f.findSwappableNodes offset = some (if (dat f p).ty = 137 then
          (pre.reverse.find? fun m => FallExpr (dat f m).ty).bind fun a =>
            (post.find? fun m => FallExpr (dat f m).ty).map fun b => (a, b) else none) := by
        simp only [File.findSwappableNodes, File.root, e, Option.bind_eq_bind, Option.bind_some, hpick,
          parent_dat ic, hp, hty' p ip, fallBlockExpr]
        by_cases hb : (dat f p).ty = 137
        · have hb' : ((dat f p).ty != 137) = false := by simp [hb]
          simp only [hb', Bool.false_eq_true, if_false, File.astChildren, children_kids ip, Option.bind_eq_bind,
            Option.bind_some, filterNodes_eq _ hall, range_rng ic, hb, if_true]
          have hsplit : (kids f p).filter (fun c => isFallExpr (dat f c).ty) =
              pre.filter (fun c => isFallExpr (dat f c).ty) ++ post.filter (fun c => isFallExpr (dat f c).ty) := by
            have : isFallExpr 112 = false := by decide
            rw [hk, List.filter_append, List.filter_cons, hpt, this]
            simp
          rw [hsplit, altsAround_eq hc hnz]
          · rw [List.getLast?_eq_head?_reverse, ← List.filter_reverse, List.head?_filter, List.head?_filter]
            simp [hexpr]
          · intro y hy
            have hy := (List.mem_filter.1 hy).1
            have := tiles_mem t1 (List.mem_map_of_mem hy)
            exact ⟨hall y (by rw [hk]; simp [hy]), by omega⟩
          · intro y hy
            have hy := (List.mem_filter.1 hy).1
            have := tiles_mem t4 (List.mem_map_of_mem hy)
            exact ⟨hall y (by rw [hk]; simp [hy]), by omega⟩
        · have hb' : ((dat f p).ty != 137) = true := by simp [hb]
          simp [hb', hb]
      have har : ∀ l r, Around f (fun ty => !FallExpr ty) pipe l r ↔
          (pre.reverse.find? fun m => FallExpr (dat f m).ty) = some l ∧
          (post.find? fun m => FallExpr (dat f m).ty) = some r := by
        intro l r
        rw [around_iff hc _ ip hk]
        simp only [Bool.not_not]
      constructor
      · intro q left right hq hqt haround
        have := hchild q hq
        subst this
        rw [hty' q ip] at hqt
        simp only [Option.some.injEq] at hqt
        obtain ⟨a1, a2⟩ := (har left right).1 haround
        rw [a1, a2, if_pos hqt] at hsw
        simp only [Option.bind_some, Option.map_some] at hsw
        obtain ⟨p', pre', mid', post', hp', hk', -⟩ := around_kids haround
        obtain ⟨edit, out, g1, g2, g3⟩ := swapEdit_spec hf hp' hk'
        have hl : left ∈ kids f q := by
          have := List.mem_of_find?_eq_some a1
          rw [hk]; simp at this; simp [this]
        have hr : right ∈ kids f q := by
          have := List.mem_of_find?_eq_some a2
          rw [hk]; simp [this]
        exact ⟨by simp [File.swapAlternatives, hsw], edit, out, rng f left, rng f right,
          by simp [File.swapAlternatives, hsw, g1], g2, range_rng (hall left hl), range_rng (hall right hr), g3⟩
      · intro hno apply
        have hnone : f.findSwappableNodes offset = some none := by
          rw [hsw]
          split
          · rename_i hb
            congr 1
            cases a1 : pre.reverse.find? fun m => FallExpr (dat f m).ty with
            | none => rfl
            | some left =>
              cases a2 : post.find? fun m => FallExpr (dat f m).ty with
              | none => rfl
              | some right =>
                exact absurd ((har left right).2 ⟨a1, a2⟩) (hno p left right (child_iff.2 ⟨ip, hkm⟩)
                  (by rw [hty' p ip, hb]))
          · rfl
        simp [File.swapAlternatives, hnone]

/-- The block `{a|b}`. -/
def blockFile : File UInt8 :=
  ⟨[123, 97, 124, 98, 125],
    [⟨137, none, [1, 2, 4, 5, 7], ⟨0, 5⟩⟩, ⟨119, some 0, [], ⟨0, 1⟩⟩, ⟨136, some 0, [3], ⟨1, 2⟩⟩,
     ⟨130, some 2, [], ⟨1, 2⟩⟩, ⟨112, some 0, [], ⟨2, 3⟩⟩, ⟨136, some 0, [6], ⟨3, 4⟩⟩, ⟨130, some 5, [], ⟨3, 4⟩⟩,
     ⟨120, some 0, [], ⟨4, 5⟩⟩]⟩

theorem blockFile_consistent : ConsistentFile blockFile := by
  obtain ⟨f, h1, _, h2, _⟩ := C14_build_consistent
    [.start 137, .leaf 119 1, .start 136, .leaf 130 1, .finish, .leaf 112 1, .start 136, .leaf 130 1, .finish,
      .leaf 120 1, .finish]
    (forest_singleRoot 137 (.leaf 119 1 (.node 136 (.leaf 130 1 .nil) (.leaf 112 1
      (.node 136 (.leaf 130 1 .nil) (.leaf 120 1 .nil))))))
    ([123, 97, 124, 98, 125] : List UInt8) rfl
  have : newFile ([123, 97, 124, 98, 125] : List UInt8)
    [.start 137, .leaf 119 1, .start 136, .leaf 130 1, .finish, .leaf 112 1, .start 136, .leaf 130 1, .finish,
      .leaf 120 1, .finish] = some blockFile := by decide
  rw [this] at h1
  cases h1
  exact h2

example : ConsistentFile blockFile ∧ LeafAt blockFile 2 4 ∧ blockFile.ty 4 = some 112 ∧
    Around blockFile (fun ty => !FallExpr ty) 4 2 5 ∧ blockFile.ty 0 = some 137 ∧
    ∃ edit, blockFile.swapAlternatives 2 true = some (some (.applied edit)) ∧
      edit.apply (Text.ofBuf blockFile.text) = some [123, 98, 124, 97, 125] :=
  ⟨blockFile_consistent, ⟨⟨⟨2, 3⟩, by decide, by decide, by decide⟩, ⟨2, 3⟩, by decide, by decide, by decide⟩,
    by decide, ⟨0, [1], [], [], [7], by decide, by decide, by decide⟩, by decide,
    ⟨[.copy ⟨0, 1⟩, .insert [98], .copy ⟨2, 3⟩, .insert [97], .copy ⟨4, 5⟩, .copy ⟨5, 5⟩]⟩, by decide, by decide⟩

end Fall
