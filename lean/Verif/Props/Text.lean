import Verif.Lemmas.Text
import Verif.Model.VsEdit

/-!
Property theorems for the text layer: C01 - C09.
-/

namespace Fall
open Spec

/-! ## C01 slicing -/

/-- C01. A slice of a view succeeds exactly for ranges inside the view (not merely inside the
buffer), gives exactly the bytes of the range, and yields a valid view again. -/
theorem C01_slice_bytes (t : Text α) (h : ValidView t) (s : List α) (hs : t.asStr = some s)
    (r : TextRange) :
    (t.slice r).bind Text.asStr =
        (if r.start ≤ r.stop ∧ r.stop ≤ s.length then some (bytes s r.start r.stop) else none) ∧
      ((t.slice r).isSome ↔ r.start ≤ r.stop ∧ r.stop ≤ s.length) ∧
      ∀ u, t.slice r = some u → ValidView u ∧ u.len = r.stop - r.start := by
  refine ⟨piece_copy h hs r, ?_, ?_⟩
  · rw [Text.slice_isSome h, asStr_len h hs]
  · intro u hu
    refine ⟨Text.slice_wf h hu, ?_⟩
    rw [Text.slice_eq_some] at hu
    obtain ⟨_, _, _, rfl⟩ := hu
    simp [Text.len]; omega

/-- The hypotheses of `C01_slice_bytes` are met by a proper sub-view of a longer buffer. -/
example : ValidView (⟨[1, 2, 3, 4, 5], ⟨1, 4⟩⟩ : Text Nat) ∧
    (⟨[1, 2, 3, 4, 5], ⟨1, 4⟩⟩ : Text Nat).asStr = some [2, 3, 4] ∧
    ((⟨[1, 2, 3, 4, 5], ⟨1, 4⟩⟩ : Text Nat).slice ⟨1, 3⟩).bind Text.asStr = some [3, 4] ∧
    (⟨[1, 2, 3, 4, 5], ⟨1, 4⟩⟩ : Text Nat).slice ⟨1, 4⟩ = none := by
  unfold ValidView; decide

/-- C01. Slicing twice is slicing once by the shifted range. -/
theorem C01_slice_slice (t u : Text α) (r q : TextRange) (hu : t.slice r = some u) :
    u.slice q = if q.stop ≤ r.stop - r.start then t.slice ⟨r.start + q.start, r.start + q.stop⟩
      else none := by
  rw [Text.slice_eq_some] at hu
  obtain ⟨h1, h2, h3, rfl⟩ := hu
  simp only [Text.len] at h1
  simp only [Text.slice, Text.len, TextRange.fromTo]
  by_cases hq : q.stop ≤ r.stop - r.start
  · have e1 : t.range.start + r.start + q.start = t.range.start + (r.start + q.start) := by omega
    have e2 : r.start + q.stop - (r.start + q.start) = q.stop - q.start := by omega
    have e3 : r.start + q.stop ≤ t.range.stop - t.range.start := by omega
    have e4 : q.stop ≤ t.range.start + r.stop - (t.range.start + r.start) := by omega
    by_cases hqq : q.start ≤ q.stop
    · have e5 : t.range.start + (r.start + q.start) ≤ t.range.start + r.stop := by omega
      have e6 : t.range.start + (r.start + q.start) ≤ t.range.stop := by omega
      have e7 : r.start + q.start ≤ r.start + q.stop := by omega
      simp [hq, e1, e2, e3, e4, hqq, e5, e6]
    · have e7 : ¬ r.start + q.start ≤ r.start + q.stop := by omega
      simp [hqq, e7]
  · have e4 : ¬ q.stop ≤ t.range.start + r.stop - (t.range.start + r.start) := by omega
    simp [hq, e4]

example : ∃ u, (⟨[1, 2, 3, 4, 5, 6], ⟨1, 6⟩⟩ : Text Nat).slice ⟨1, 4⟩ = some u ∧
    u.slice ⟨1, 3⟩ = (⟨[1, 2, 3, 4, 5, 6], ⟨1, 6⟩⟩ : Text Nat).slice ⟨2, 4⟩ ∧
    (u.slice ⟨1, 3⟩).isSome ∧ u.slice ⟨1, 4⟩ = none :=
  ⟨⟨[1, 2, 3, 4, 5, 6], ⟨2, 5⟩⟩, by decide⟩

/-- C01. The suffix of a view from an offset inside it. -/
theorem C01_slice_suffix (t : Text α) (h : ValidView t) (s : List α) (hs : t.asStr = some s)
    (offset : Nat) :
    (t.sliceFrom offset).bind Text.asStr =
      if offset ≤ s.length then some (s.drop offset) else none := by
  unfold Text.sliceFrom TextRange.fromTo
  have hl := asStr_len h hs
  rw [← hl]
  by_cases ho : offset ≤ s.length
  · simp only [ho, if_true, Option.bind_some]
    have := (C01_slice_bytes t h s hs ⟨offset, s.length⟩).1
    simp only [ho, Nat.le_refl, and_self, if_true] at this
    rw [this]
    simp only [bytes]
    rw [List.take_of_length_le]
    simp
  · simp [ho]

example : ((⟨[1, 2, 3, 4, 5], ⟨1, 4⟩⟩ : Text Nat).sliceFrom 1).bind Text.asStr = some [3, 4] := by
  decide

/-! ## C02 interval meaning of range operations -/

/-- C02. Containment of ranges is containment of the covered offsets (for a non-empty range). -/
theorem C02_subrange (r o : TextRange) (hr : r.start < r.stop) :
    r.isSubrangeOf o = true ↔ ∀ i, Covers r i → Covers o i := by
  simp only [TextRange.isSubrangeOf, Bool.and_eq_true, decide_eq_true_eq, Covers]
  constructor
  · intro ⟨h1, h2⟩ i ⟨h3, h4⟩; omega
  · intro h
    have h1 := h r.start ⟨by omega, by omega⟩
    have h2 := h (r.stop - 1) ⟨by omega, by omega⟩
    omega

example : (⟨2, 4⟩ : TextRange).isSubrangeOf ⟨1, 4⟩ = true ∧
    (⟨2, 5⟩ : TextRange).isSubrangeOf ⟨1, 4⟩ = false := by decide

/-- C02. For an empty range containment means that its offset touches the other range. -/
theorem C02_subrange_empty (r o : TextRange) (hr : r.isEmpty = true) :
    r.isSubrangeOf o = true ↔ o.start ≤ r.start ∧ r.start ≤ o.stop := by
  simp [TextRange.isSubrangeOf, TextRange.isEmpty] at *
  omega

example : (⟨4, 4⟩ : TextRange).isEmpty = true ∧ (⟨4, 4⟩ : TextRange).isSubrangeOf ⟨1, 4⟩ = true := by
  decide

/-- C02. Containment is a partial order. -/
theorem C02_subrange_order (a b c : TextRange) :
    a.isSubrangeOf a = true ∧
    (a.isSubrangeOf b = true → b.isSubrangeOf c = true → a.isSubrangeOf c = true) ∧
    (a.isSubrangeOf b = true → b.isSubrangeOf a = true → a = b) := by
  simp only [TextRange.isSubrangeOf, Bool.and_eq_true, decide_eq_true_eq]
  refine ⟨by omega, by omega, ?_⟩
  intro h1 h2
  cases a; cases b; simp at *; omega

/-- C02. Ranges intersect exactly when they share an offset (both non-empty), `disjoint` is the
complement, and both are symmetric. -/
theorem C02_intersects (r o : TextRange) (hr : r.start < r.stop) (ho : o.start < o.stop) :
    (r.intersects o = true ↔ ∃ i, Covers r i ∧ Covers o i) ∧
    (r.disjoint o = !r.intersects o) ∧ r.intersects o = o.intersects r := by
  simp only [TextRange.intersects, TextRange.disjoint, Covers]
  refine ⟨?_, by simp, ?_⟩
  · simp
    constructor
    · intro ⟨h1, h2⟩
      exact ⟨max r.start o.start, by omega, by omega⟩
    · rintro ⟨i, h1, h2⟩; omega
  · rw [Bool.or_comm]

example : (⟨1, 4⟩ : TextRange).intersects ⟨3, 6⟩ = true ∧
    (⟨1, 4⟩ : TextRange).intersects ⟨4, 6⟩ = false := by decide

/-- C02. `glue` succeeds exactly on adjacent ranges and covers the union. -/
theorem C02_glue (r o : TextRange) (hr : r.Valid) (ho : o.Valid) :
    ((r.glue o).isSome ↔ r.stop = o.start) ∧
    ∀ g, r.glue o = some g → ∀ i, Covers g i ↔ Covers r i ∨ Covers o i := by
  simp only [TextRange.Valid] at hr ho
  simp only [TextRange.glue]
  by_cases h : r.stop = o.start
  · have h2 : r.start ≤ o.stop := by omega
    simp only [h, if_true, TextRange.fromTo, h2, Option.isSome_some, Option.some.injEq,
      true_and]
    rintro g rfl i
    simp only [Covers]
    omega
  · simp [h]

example : (⟨1, 4⟩ : TextRange).glue ⟨4, 6⟩ = some ⟨1, 6⟩ ∧ (⟨1, 4⟩ : TextRange).glue ⟨5, 6⟩ = none := by
  decide

/-- C02. `shift_right` never fails on valid ranges and moves every covered offset. -/
theorem C02_shift (r : TextRange) (hr : r.Valid) (k : Nat) :
    ∃ s, r.shiftRight k = some s ∧ s.len = r.len ∧ ∀ i, Covers s i ↔ ∃ j, Covers r j ∧ i = j + k := by
  simp only [TextRange.Valid] at hr
  refine ⟨⟨r.start + k, r.stop + k⟩, ?_, ?_, ?_⟩
  · have : r.start + k + (r.stop - r.start) = r.stop + k := by omega
    simp [TextRange.shiftRight, TextRange.fromLen, TextRange.fromTo, TextRange.len, this]
    omega
  · simp [TextRange.len]; omega
  · intro i
    simp only [Covers]
    constructor
    · intro h; exact ⟨i - k, by omega, by omega⟩
    · rintro ⟨j, h, rfl⟩; omega

example : (⟨1, 4⟩ : TextRange).Valid ∧ (⟨1, 4⟩ : TextRange).shiftRight 3 = some ⟨4, 7⟩ := by decide

/-- C02. The checked constructors: `from_to` accepts exactly ordered end points, `from_len` always
succeeds with the given length. -/
theorem C02_constructors (a b n : Nat) :
    ((TextRange.fromTo a b).isSome ↔ a ≤ b) ∧
    (∀ r, TextRange.fromTo a b = some r → r.start = a ∧ r.stop = b ∧ r.len = b - a) ∧
    ∃ r, TextRange.fromLen a n = some r ∧ r.start = a ∧ r.len = n ∧ (r.isEmpty = true ↔ n = 0) := by
  refine ⟨?_, ?_, ⟨a, a + n⟩, ?_⟩
  · unfold TextRange.fromTo; split <;> simp_all
  · intro r hr
    rw [fromTo_eq_some] at hr
    obtain ⟨_, rfl⟩ := hr
    simp [TextRange.len]
  · simp [TextRange.fromLen, TextRange.fromTo, TextRange.len, TextRange.isEmpty]

/-! ## C03 comparison -/

/-- C03, for non-empty ranges. Missing from the full claim: empty ranges, for which it is false
(`C03_counterexample`). -/
theorem C03_cmp_partial (a b c : TextRange) (ha : a.start < a.stop) (hb : b.start < b.stop)
    (hc : c.start < c.stop) :
    (a.partialCmp b = some .eq ↔ a = b) ∧
    (a.partialCmp b = some .lt ↔ b.partialCmp a = some .gt) ∧
    a.partialCmp a ≠ some .lt ∧
    (a.partialCmp b = some .lt → b.partialCmp c = some .lt → a.partialCmp c = some .lt) ∧
    (a.partialCmp b = some .lt ↔ ∀ i j, Covers a i → Covers b j → i < j) ∧
    (a.partialCmp b = none ↔ a ≠ b ∧ ∃ i, Covers a i ∧ Covers b i) := by
  have key : ∀ x y : TextRange, x.start < x.stop → y.start < y.stop →
      (x.partialCmp y = some .lt ↔ x.stop ≤ y.start) ∧
      (x.partialCmp y = some .gt ↔ y.stop ≤ x.start) ∧
      (x.partialCmp y = some .eq ↔ x = y) ∧
      (x.partialCmp y = none ↔ x ≠ y ∧ ¬ x.stop ≤ y.start ∧ ¬ y.stop ≤ x.start) := by
    intro x y hx hy
    unfold TextRange.partialCmp
    by_cases h1 : x.stop ≤ y.start
    · have h2 : ¬ y.stop ≤ x.start := by omega
      have h3 : x ≠ y := by rintro rfl; omega
      simp only [h1, h2, h3, if_true]; simp
    · by_cases h2 : y.stop ≤ x.start
      · have h3 : x ≠ y := by rintro rfl; omega
        simp only [h1, h2, h3, if_true, if_false]; simp
      · by_cases h3 : x = y
        · simp only [h1, h2, if_false]
          subst h3
          simp
        · simp only [h1, h2, h3, if_false]; simp [h3]
  rw [(key a b ha hb).1, (key a b ha hb).2.2.1, (key a b ha hb).2.2.2, (key b a hb ha).2.1,
    (key a c ha hc).1, (key b c hb hc).1]
  refine ⟨Iff.rfl, Iff.rfl, ?_, by omega, ?_, ?_⟩
  · rw [Ne, (key a a ha ha).1]; omega
  · simp only [Covers]
    constructor
    · intro h i j h1 h2; omega
    · intro h
      have := h (a.stop - 1) b.start ⟨by omega, by omega⟩ ⟨by omega, by omega⟩
      omega
  · simp only [Covers]
    constructor
    · rintro ⟨h0, h1, h2⟩
      exact ⟨h0, max a.start b.start, by omega, by omega⟩
    · rintro ⟨h0, i, h1, h2⟩
      exact ⟨h0, by omega, by omega⟩

example : (⟨1, 3⟩ : TextRange).partialCmp ⟨3, 4⟩ = some .lt ∧
    (⟨1, 3⟩ : TextRange).partialCmp ⟨2, 4⟩ = none := by decide

/-- C03 is false for empty ranges: an empty range is less than itself (so not equal to itself in
the order, although `==` holds), and two ranges can each be less than the other. -/
theorem C03_counterexample :
    (⟨5, 5⟩ : TextRange).partialCmp ⟨5, 5⟩ = some .lt ∧
    ¬ ∀ a b : TextRange, a.Valid → b.Valid →
      (a.partialCmp b = some .lt ↔ b.partialCmp a = some .gt) := by
  refine ⟨by decide, ?_⟩
  intro h
  have := h ⟨5, 5⟩ ⟨5, 5⟩ (by decide) (by decide)
  revert this
  decide

/-! ## C04 edit builder -/

/-- C04. A sequence of requests builds successfully exactly when the requests are in order and
inside the text, and then applying the edit performs the simultaneous replacement. -/
theorem C04_build_apply (t : Text α) (h : ValidView t) (s : List α) (hs : t.asStr = some s)
    (reqs : List (EditReq α)) :
    ((buildEdit t reqs).isSome ↔ InOrder s.length 0 (reqs.map request)) ∧
    ∀ e, buildEdit t reqs = some e → e.apply t = some (splice s 0 (reqs.map request)) := by
  have hl := asStr_len h hs
  have hb : Built s (TextEditBuilder.new t) [] := by
    simp [Built, TextEditBuilder.new, applyOps, hl]
  have fwd : InOrder s.length 0 (reqs.map request) → ∃ e, buildEdit t reqs = some e ∧
      applyOps s e.ops = some (splice s 0 (reqs.map request)) := by
    intro ho
    have := runs_built reqs hb ho
    simpa [TextEditBuilder.new, buildEdit] using this
  have bwd : ∀ e, buildEdit t reqs = some e → InOrder s.length 0 (reqs.map request) := by
    intro e he
    exact runs_inOrder s.length reqs (b := TextEditBuilder.new t) hl.symm he
  refine ⟨⟨?_, ?_⟩, ?_⟩
  · intro hsome
    obtain ⟨e, he⟩ := Option.isSome_iff_exists.1 hsome
    exact bwd e he
  · intro ho
    obtain ⟨e, he, _⟩ := fwd ho
    simp [he]
  · intro e he
    obtain ⟨e', he', hap⟩ := fwd (bwd e he)
    rw [he] at he'
    cases he'
    rw [apply_eq h hs, hap]

example : (buildEdit (Text.ofBuf [1, 2, 3, 4, 5, 6])
      [.replace ⟨0, 2⟩ [7, 8, 9], .insert 3 [10], .delete ⟨4, 6⟩]).bind
      (·.apply (Text.ofBuf [1, 2, 3, 4, 5, 6])) = some [7, 8, 9, 3, 10, 4] ∧
    buildEdit (Text.ofBuf [1, 2, 3]) [.delete ⟨1, 3⟩, .insert 2 [7]] = none ∧
    buildEdit (Text.ofBuf [1, 2, 3]) [.delete ⟨1, 4⟩] = none := by
  decide

/-- C04. What `splice` says about each byte: bytes before the first range and after the last are
kept; an empty list of requests changes nothing. -/
theorem C04_untouched (t : Text α) (h : ValidView t) (s : List α) (hs : t.asStr = some s)
    (reqs : List (EditReq α)) (e : TextEdit α) (he : buildEdit t reqs = some e)
    (out : List α) (hout : e.apply t = some out) (a : Nat)
    (ha : ∀ q ∈ reqs, a ≤ (request q).1.start) (hal : a ≤ s.length)
    (b : Nat) (hb : ∀ q ∈ reqs, (request q).1.stop ≤ b) (hbl : b ≤ s.length) :
    s.take a <+: out ∧ s.drop b <:+ out := by
  obtain ⟨h1, h2⟩ := C04_build_apply t h s hs reqs
  rw [h2 e he] at hout
  cases hout
  have ho : InOrder s.length 0 (reqs.map request) := h1.1 (by simp [he])
  have main : ∀ (rs : List (TextRange × List α)) (pos : Nat), InOrder s.length pos rs → pos ≤ b →
      (∀ q ∈ rs, a ≤ q.1.start) → (∀ q ∈ rs, q.1.stop ≤ b) →
      bytes s pos (max pos a) <+: splice s pos rs ∧ s.drop b <:+ splice s pos rs := by
    intro rs
    induction rs with
    | nil =>
      intro pos ho hpos _ _
      simp only [splice, InOrder] at *
      constructor
      · rw [← bytes_append_bytes s (show pos ≤ max pos a by omega) (show max pos a ≤ s.length by omega)]
        exact List.prefix_append _ _
      · rw [← bytes_append_bytes s hpos hbl]
        have : bytes s b s.length = s.drop b := by
          simp only [bytes]; rw [List.take_of_length_le]; simp
        rw [this]
        exact List.suffix_append _ _
    | cons q rs ih =>
      intro pos ho hpos h1 h2
      obtain ⟨g1, g2, g3⟩ := ho
      have i := ih q.1.stop g3 (h2 q (by simp)) (fun x hx => h1 x (by simp [hx]))
        (fun x hx => h2 x (by simp [hx]))
      have hq := h1 q (by simp)
      simp only [splice]
      constructor
      · rw [← bytes_append_bytes s (show pos ≤ max pos a by omega) (show max pos a ≤ q.1.start by omega)]
        simp only [List.append_assoc]
        exact List.prefix_append _ _
      · exact i.2.trans (List.suffix_append _ _)
  have := main (reqs.map request) 0 ho (Nat.zero_le _) (by simpa using ha) (by simpa using hb)
  refine ⟨?_, this.2⟩
  have e1 : bytes s 0 (max 0 a) = s.take a := by simp [bytes]
  rw [← e1]
  exact this.1

example : ∃ e, buildEdit (Text.ofBuf [1, 2, 3, 4, 5]) [.replace ⟨1, 2⟩ [9, 9], .delete ⟨3, 4⟩] = some e ∧
    e.apply (Text.ofBuf [1, 2, 3, 4, 5]) = some [1, 9, 9, 3, 5] :=
  ⟨⟨[.copy ⟨0, 1⟩, .insert [9, 9], .copy ⟨2, 3⟩, .copy ⟨4, 5⟩]⟩, by decide⟩

/-! ## C05 applying scripts -/

/-- C05. `apply` fails exactly when some copied range is invalid or out of bounds; otherwise the
result is the concatenation of the pieces, so in particular its length is the sum of theirs. -/
theorem C05_apply (t : Text α) (h : ValidView t) (s : List α) (hs : t.asStr = some s)
    (e : TextEdit α) :
    ((e.apply t).isSome ↔ ∀ r, .copy r ∈ e.ops → r.start ≤ r.stop ∧ r.stop ≤ s.length) ∧
    ∀ out, e.apply t = some out →
      out = e.ops.flatMap (fun | .copy r => bytes s r.start r.stop | .insert i => i) ∧
      out.length = (e.ops.map (fun | .copy r => r.stop - r.start | .insert i => i.length)).sum := by
  rw [apply_eq h hs]
  have main : ∀ ops : List (TextEditOp α),
      ((applyOps s ops).isSome ↔ ∀ r, .copy r ∈ ops → r.start ≤ r.stop ∧ r.stop ≤ s.length) ∧
      ∀ out, applyOps s ops = some out →
        out = ops.flatMap (fun | .copy r => bytes s r.start r.stop | .insert i => i) ∧
        out.length = (ops.map (fun | .copy r => r.stop - r.start | .insert i => i.length)).sum := by
    intro ops
    induction ops with
    | nil => simp [applyOps]
    | cons op ops ih =>
      obtain ⟨ih1, ih2⟩ := ih
      cases op with
      | insert i =>
        simp only [applyOps, opBytes, Option.bind_some, Option.isSome_map, List.mem_cons,
          reduceCtorEq, false_or]
        refine ⟨ih1, ?_⟩
        intro out hout
        rw [Option.map_eq_some_iff] at hout
        obtain ⟨o, ho, rfl⟩ := hout
        obtain ⟨i1, i2⟩ := ih2 o ho
        constructor
        · simp [i1]
        · simp [i2]
      | copy r =>
        simp only [applyOps, opBytes]
        by_cases hr : r.start ≤ r.stop ∧ r.stop ≤ s.length
        · simp only [hr, and_self, if_true, Option.bind_some, Option.isSome_map, List.mem_cons,
            TextEditOp.copy.injEq]
          refine ⟨?_, ?_⟩
          · rw [ih1]
            constructor
            · rintro h r' (rfl | h')
              · exact hr
              · exact h _ h'
            · intro h r' h'
              exact h r' (.inr h')
          · intro out hout
            rw [Option.map_eq_some_iff] at hout
            obtain ⟨o, ho, rfl⟩ := hout
            obtain ⟨i1, i2⟩ := ih2 o ho
            constructor
            · simp [i1]
            · simp [i2, bytes_length s hr.2]
        · simp only [hr, if_false, Option.bind_none, Option.isSome_none, Bool.false_eq_true,
            false_iff, reduceCtorEq, false_imp_iff, implies_true, and_true]
          intro h
          exact hr (h r (by simp))
  exact main e.ops

example : (⟨[.copy ⟨2, 4⟩, .insert [9], .copy ⟨0, 3⟩]⟩ : TextEdit Nat).apply (Text.ofBuf [1, 2, 3, 4]) =
      some [3, 4, 9, 1, 2, 3] ∧
    (⟨[.copy ⟨2, 5⟩]⟩ : TextEdit Nat).apply (Text.ofBuf [1, 2, 3, 4]) = none := by
  decide

/-- C05. Applying a script is applying its parts one after another. -/
theorem C05_apply_append (t : Text α) (h : ValidView t) (xs ys : List (TextEditOp α)) :
    (⟨xs ++ ys⟩ : TextEdit α).apply t =
      ((⟨xs⟩ : TextEdit α).apply t).bind fun a => ((⟨ys⟩ : TextEdit α).apply t).map (a ++ ·) := by
  have hs := Text.asStr_eq h
  simp only [apply_eq h hs]
  exact applyOps_append _ xs ys

example : ValidView (Text.ofBuf [1, 2, 3]) := Text.ofBuf_wf _

/-! ## C06, C07 editor edits -/

theorem toVsEditsLoop_spec (s : List α) (ops : List (TextEditOp α)) (acc : List (VsEdit α))
    (offset : Nat) (h : CopiesInOrder s.length offset ops) :
    ∃ es, toVsEditsLoop ops acc offset = some (acc ++ es) ∧
      InOrder s.length offset (es.map fun e => (e.delete, e.insert)) ∧
      applyOps s ops = some (splice s offset (es.map fun e => (e.delete, e.insert))) := by
  induction ops generalizing acc offset with
  | nil =>
    refine ⟨[], by simp [toVsEditsLoop], ?_, ?_⟩
    · simpa [InOrder] using Nat.le_of_eq h
    · simp only [CopiesInOrder] at h
      simp [applyOps, splice, h, bytes_self]
  | cons op ops ih =>
    cases op with
    | insert i =>
      simp only [CopiesInOrder] at h
      obtain ⟨es, e1, e2, e3⟩ := ih (acc ++ [⟨⟨offset, offset⟩, i⟩]) offset h
      refine ⟨⟨⟨offset, offset⟩, i⟩ :: es, ?_, ?_, ?_⟩
      · simp [toVsEditsLoop, TextRange.fromLen, TextRange.fromTo, e1]
      · simpa [InOrder] using e2
      · simp [applyOps, opBytes, e3, splice, bytes_self]
    | copy r =>
      obtain ⟨h1, h2, h3⟩ := h
      have hle : r.stop ≤ s.length := by
        clear ih
        revert h3
        generalize r.stop = x
        intro h3
        induction ops generalizing x with
        | nil => exact Nat.le_of_eq h3
        | cons op ops ih =>
          cases op with
          | insert i => exact ih x h3
          | copy q => exact Nat.le_trans (Nat.le_trans h3.1 h3.2.1) (ih _ h3.2.2)
      -- unchanged text after a boundary followed by a splice is a splice from the boundary
      have merge : ∀ (rs : List (TextRange × List α)), InOrder s.length r.stop rs →
          bytes s r.start r.stop ++ splice s r.stop rs = splice s r.start rs := by
        intro rs hrs
        cases rs with
        | nil => simp only [splice]; exact bytes_append_bytes s h2 hle
        | cons q rs =>
          simp only [splice, ← List.append_assoc]
          rw [bytes_append_bytes s h2 hrs.1]
      have mono : ∀ (rs : List (TextRange × List α)), InOrder s.length r.stop rs →
          InOrder s.length r.start rs := by
        intro rs hrs
        cases rs with
        | nil => simp only [InOrder] at *; omega
        | cons q rs => exact ⟨Nat.le_trans h2 hrs.1, hrs.2⟩
      by_cases hr : r.start = offset
      · obtain ⟨es, e1, e2, e3⟩ := ih acc r.stop h3
        refine ⟨es, ?_, ?_, ?_⟩
        · simp [toVsEditsLoop, hr, e1]
        · rw [← hr]; exact mono _ e2
        · simp [applyOps, opBytes, h2, hle, e3]
          rw [merge _ e2, hr]
      · obtain ⟨es, e1, e2, e3⟩ := ih (acc ++ [⟨⟨offset, r.start⟩, []⟩]) r.stop h3
        refine ⟨⟨⟨offset, r.start⟩, []⟩ :: es, ?_, ?_, ?_⟩
        · simp [toVsEditsLoop, hr, TextRange.fromTo, h1, e1]
        · exact ⟨Nat.le_refl _, h1, mono _ e2⟩
        · simp only [applyOps, opBytes, h2, hle, e3, and_self, if_true, Option.bind_some,
            Option.map_some, List.map_cons, splice, bytes_self, List.append_nil, List.nil_append]
          rw [merge _ e2]

/-- C06. For a script with ordered copies that reaches the end of the text, the records sent to the
editor are in order and inside the document, and applying them (as simultaneous replacements) gives
what applying the script gives. -/
theorem C06_to_vs_edits (t : Text α) (h : ValidView t) (s : List α) (hs : t.asStr = some s)
    (e : TextEdit α) (ho : CopiesInOrder s.length 0 e.ops) :
    ∃ es, toVsEdits e = some es ∧ InOrder s.length 0 (es.map fun v => (v.delete, v.insert)) ∧
      e.apply t = some (splice s 0 (es.map fun v => (v.delete, v.insert))) := by
  obtain ⟨es, e1, e2, e3⟩ := toVsEditsLoop_spec s e.ops [] 0 ho
  refine ⟨es, by simpa [toVsEdits] using e1, e2, ?_⟩
  rw [apply_eq h hs, e3]

example : CopiesInOrder 5 0 [.copy ⟨1, 3⟩, .insert [9], .copy ⟨4, 4⟩, .copy ⟨5, 5⟩] ∧
    toVsEdits (⟨[.copy ⟨1, 3⟩, .insert [9], .copy ⟨4, 4⟩, .copy ⟨5, 5⟩]⟩ : TextEdit Nat) =
      some [⟨⟨0, 1⟩, []⟩, ⟨⟨3, 3⟩, [9]⟩, ⟨⟨3, 4⟩, []⟩, ⟨⟨4, 5⟩, []⟩] := by
  simp [CopiesInOrder]; decide

/-- C06. The final copy is needed: a builder-made edit that deletes the end of the text is sent to
the editor as "no change". -/
theorem C06_counterexample :
    ∃ e : TextEdit Nat, buildEdit (Text.ofBuf [1, 2, 3]) [.delete ⟨1, 3⟩] = some e ∧
      e.apply (Text.ofBuf [1, 2, 3]) = some [1] ∧ toVsEdits e = some [] :=
  ⟨⟨[.copy ⟨0, 1⟩]⟩, by decide⟩

/-- C07. Records received from the editor, if in order and inside the document, become an edit that
performs the simultaneous replacement; otherwise the conversion panics. -/
theorem C07_from_vs_edits (t : Text α) (h : ValidView t) (s : List α) (hs : t.asStr = some s)
    (es : List (VsEdit α)) :
    ((fromVsEdits t es).isSome ↔ InOrder s.length 0 (es.map fun v => (v.delete, v.insert))) ∧
    ∀ e, fromVsEdits t es = some e →
      e.apply t = some (splice s 0 (es.map fun v => (v.delete, v.insert))) := by
  have key : fromVsEdits t es = buildEdit t (es.map fun v => .replace v.delete v.insert) := by
    unfold fromVsEdits buildEdit
    congr 1
    generalize TextEditBuilder.new t = b
    induction es generalizing b with
    | nil => rfl
    | cons e es ih =>
      simp only [List.map_cons, List.foldlM_cons]
      congr 1
      funext b'
      exact ih b'
  have := C04_build_apply t h s hs (es.map fun v => .replace v.delete v.insert)
  rw [← key] at this
  have e : (es.map fun v => EditReq.replace v.delete v.insert).map request =
      es.map fun v => (v.delete, v.insert) := by
    simp [request, Function.comp_def]
  rw [e] at this
  exact this

example : (fromVsEdits (Text.ofBuf [1, 2, 3, 4]) [⟨⟨1, 2⟩, [8]⟩, ⟨⟨2, 2⟩, [9]⟩]).bind
    (·.apply (Text.ofBuf [1, 2, 3, 4])) = some [1, 8, 9, 3, 4] := by decide

/-! ## C08 random edits -/

theorem scale_eq (x n : Nat) (hx : x < 2 ^ 32) (hn : n < 2 ^ 32) :
    Prop_.scale x n = x * n / (2 ^ 32 - 1) ∧ Prop_.scale x n ≤ n := by
  have h1 : x * n < 2 ^ 64 := by
    calc x * n < 2 ^ 32 * 2 ^ 32 := Nat.mul_lt_mul'' hx hn
      _ = 2 ^ 64 := by decide
  have h2 : x * n / (2 ^ 32 - 1) ≤ n := by
    apply Nat.div_le_of_le_mul
    exact Nat.mul_le_mul_right n (by omega)
  have h3 : Prop_.scale x n = x * n / (2 ^ 32 - 1) := by
    unfold Prop_.scale
    rw [Nat.mod_eq_of_lt h1, Nat.mod_eq_of_lt (Nat.lt_of_le_of_lt h2 hn)]
  exact ⟨h3, h3 ▸ h2⟩

/-- C08. Scaling 32-bit offsets to a text length is monotone, bounded by the length, exact at both
ends, and no intermediate value overflows. -/
theorem C08_scale (x y n : Nat) (hxy : x ≤ y) (hy : y < 2 ^ 32) (hn : n < 2 ^ 32) :
    Prop_.scale x n ≤ Prop_.scale y n ∧ Prop_.scale y n ≤ n ∧
    Prop_.scale 0 n = 0 ∧ Prop_.scale (2 ^ 32 - 1) n = n := by
  have hx : x < 2 ^ 32 := by omega
  refine ⟨?_, (scale_eq y n hy hn).2, by simp [Prop_.scale], ?_⟩
  · rw [(scale_eq x n hx hn).1, (scale_eq y n hy hn).1]
    exact Nat.div_le_div_right (Nat.mul_le_mul_right n hxy)
  · rw [(scale_eq (2 ^ 32 - 1) n (by decide) hn).1]
    exact Nat.mul_div_cancel_left n (by decide)

example : Prop_.scale 2147483648 10 = 5 ∧ Prop_.scale 4294967295 10 = 10 := by decide

/-- C08. A generated list of operations (its ranges made from arbitrary 32-bit end points) becomes
an edit that applies to the text without panicking. -/
theorem C08_arb_edit (t : Text α) (h : ValidView t) (s : List α) (hs : t.asStr = some s)
    (hlen : s.length < 2 ^ 32) (pts : List (Bool × Nat × Nat))
    (hpts : ∀ p ∈ pts, p.2.1 < 2 ^ 32 ∧ p.2.2 < 2 ^ 32) :
    ∃ ops e, pts.mapM (fun p => (Prop_.range p.2.1 p.2.2).map fun r => (p.1, r)) = some ops ∧
      Prop_.asTextEdit ops t = some e ∧ (e.apply t).isSome ∧ e.ops.length = pts.length := by
  have hl := asStr_len h hs
  have main : ∃ ops eops, pts.mapM (fun p => (Prop_.range p.2.1 p.2.2).map fun r => (p.1, r)) = some ops ∧
      ops.mapM (Prop_.asTextEditOp t) = some eops ∧
      (∀ r, .copy r ∈ eops → r.start ≤ r.stop ∧ r.stop ≤ s.length) ∧ eops.length = pts.length := by
    induction pts with
    | nil => exact ⟨[], [], rfl, rfl, by simp, rfl⟩
    | cons p pts ih =>
      obtain ⟨ops, eops, i1, i2, i3, i4⟩ := ih (fun q hq => hpts q (by simp [hq]))
      obtain ⟨b, x, y⟩ := p
      obtain ⟨hx, hy⟩ := hpts (b, x, y) (by simp)
      simp only at hx hy
      have hr : ∃ r, Prop_.range x y = some r ∧ r.start ≤ r.stop ∧ r.stop < 2 ^ 32 := by
        unfold Prop_.range
        by_cases hxy : x < y
        · exact ⟨⟨x, y⟩, by simp [hxy, TextRange.fromTo, Nat.le_of_lt hxy], Nat.le_of_lt hxy, hy⟩
        · exact ⟨⟨y, x⟩, by simp [hxy, TextRange.fromTo, Nat.le_of_not_lt hxy], Nat.le_of_not_lt hxy, hx⟩
      obtain ⟨r, hr1, hr2, hr3⟩ := hr
      have hsc := C08_scale r.start r.stop s.length hr2 hr3 hlen
      have hq : Prop_.scaleRange r t.len =
          some ⟨Prop_.scale r.start s.length, Prop_.scale r.stop s.length⟩ := by
        simp [Prop_.scaleRange, TextRange.fromTo, ← hl, hsc.1]
      have hop : ∃ op, Prop_.asTextEditOp t (b, r) = some op ∧
          ∀ q, op = .copy q → q.start ≤ q.stop ∧ q.stop ≤ s.length := by
        unfold Prop_.asTextEditOp
        simp only [hq, Option.bind_some]
        cases b with
        | true =>
          refine ⟨_, rfl, ?_⟩
          rintro q hq'
          cases hq'
          exact ⟨hsc.1, hsc.2.1⟩
        | false =>
          have := (C01_slice_bytes t h s hs ⟨Prop_.scale r.start s.length, Prop_.scale r.stop s.length⟩).1
          simp only [hsc.1, hsc.2.1, and_self, if_true] at this
          simp only [this, Bool.false_eq_true, if_false, Option.map_some]
          exact ⟨_, rfl, by simp⟩
      obtain ⟨op, hop1, hop2⟩ := hop
      refine ⟨(b, r) :: ops, op :: eops, ?_, ?_, ?_, by simp [i4]⟩
      · simp [List.mapM_cons, hr1, i1]
      · simp [List.mapM_cons, hop1, i2]
      · intro q hq'
        rcases List.mem_cons.1 hq' with h1 | h1
        · exact hop2 q h1.symm
        · exact i3 q h1
  obtain ⟨ops, eops, m1, m2, m3, m4⟩ := main
  refine ⟨ops, ⟨eops⟩, m1, by simp [Prop_.asTextEdit, m2], ?_, m4⟩
  rw [(C05_apply t h s hs ⟨eops⟩).1]
  exact m3

example : ∃ e, Prop_.asTextEdit [(true, ⟨0, 2147483648⟩), (false, ⟨2147483648, 4294967295⟩)]
      (Text.ofBuf [1, 2, 3, 4]) = some e ∧ e.apply (Text.ofBuf [1, 2, 3, 4]) = some [1, 2, 3, 4] :=
  ⟨⟨[.copy ⟨0, 2⟩, .insert [3, 4]]⟩, by decide⟩

/-! ## C09 trim -/

theorem utf8Len_append (a b : List Char) : utf8Len (a ++ b) = utf8Len a + utf8Len b := by
  simp [utf8Len]

theorem dropBytes_append (a b : List Char) : dropBytes (a ++ b) (utf8Len a) = some b := by
  induction a with
  | nil => simp [utf8Len, dropBytes]
  | cons c a ih =>
    have hp := c.utf8Size_pos
    have e : utf8Len (c :: a) = c.utf8Size + utf8Len a := by simp [utf8Len]
    rw [e]
    obtain ⟨k, hk⟩ : ∃ k, c.utf8Size + utf8Len a = k + 1 := ⟨c.utf8Size + utf8Len a - 1, by omega⟩
    have h1 : c.utf8Size ≤ k + 1 := by omega
    have h2 : k + 1 - c.utf8Size = utf8Len a := by omega
    rw [hk]
    simp only [List.cons_append, dropBytes, h1, if_true, h2]
    exact ih

theorem takeBytes_append (a b : List Char) : takeBytes (a ++ b) (utf8Len a) = some a := by
  induction a with
  | nil => cases b <;> simp [utf8Len, takeBytes]
  | cons c a ih =>
    have hp := c.utf8Size_pos
    have e : utf8Len (c :: a) = c.utf8Size + utf8Len a := by simp [utf8Len]
    rw [e]
    obtain ⟨k, hk⟩ : ∃ k, c.utf8Size + utf8Len a = k + 1 := ⟨c.utf8Size + utf8Len a - 1, by omega⟩
    have h1 : c.utf8Size ≤ k + 1 := by omega
    have h2 : k + 1 - c.utf8Size = utf8Len a := by omega
    rw [hk]
    simp only [List.cons_append, takeBytes, h1, if_true, h2, ih, Option.map_some]

/-- First match of a predicate, as a decomposition. -/
theorem findChar_spec (p : Char → Bool) (s : List Char) :
    ∃ pre post, s = pre ++ post ∧ (∀ c ∈ pre, p c = false) ∧
      (findChar p s).getD (utf8Len s) = utf8Len pre ∧ (∀ c ∈ post.head?, p c = true) := by
  induction s with
  | nil => exact ⟨[], [], by simp [findChar]⟩
  | cons c s ih =>
    by_cases hc : p c = true
    · exact ⟨[], c :: s, by simp [findChar, hc, utf8Len]⟩
    · obtain ⟨pre, post, rfl, h2, h3, h4⟩ := ih
      refine ⟨c :: pre, post, by simp, ?_, ?_, h4⟩
      · simp only [Bool.not_eq_true] at hc
        simp [hc]; exact h2
      · simp only [findChar, hc]
        have e : ∀ l, utf8Len (c :: l) = c.utf8Size + utf8Len l := by simp [utf8Len]
        rw [e, e, ← h3]
        cases findChar p (pre ++ post) <;> simp <;> omega

/-- Last match of a predicate, as a decomposition. -/
theorem rfindChar_spec (p : Char → Bool) (s : List Char) :
    (rfindChar p s = none ∧ ∀ c ∈ s, p c = false) ∨
    ∃ pre c post, s = pre ++ c :: post ∧ p c = true ∧ (∀ d ∈ post, p d = false) ∧
      rfindChar p s = some (utf8Len pre) := by
  induction s with
  | nil => simp [rfindChar]
  | cons c s ih =>
    rcases ih with ⟨h1, h2⟩ | ⟨pre, d, post, rfl, h2, h3, h4⟩
    · by_cases hc : p c = true
      · right
        exact ⟨[], c, s, by simp, hc, h2, by simp [rfindChar, h1, hc, utf8Len]⟩
      · left
        simp only [Bool.not_eq_true] at hc
        refine ⟨by simp [rfindChar, h1, hc], ?_⟩
        simp [hc]; exact h2
    · right
      refine ⟨c :: pre, d, post, by simp, h2, h3, ?_⟩
      simp [rfindChar, h4, utf8Len]; omega

/-- C09. `trim` never panics (all its byte offsets are character boundaries) and removes exactly
the maximal runs of whitespace at both ends. -/
theorem C09_trim (ws : Char → Bool) (s : List Char) :
    ∃ pre mid post, s = pre ++ mid ++ post ∧ trim ws s = some mid ∧
      (∀ c ∈ pre, ws c = true) ∧ (∀ c ∈ post, ws c = true) ∧
      (∀ c ∈ mid.head?, ws c = false) ∧ (∀ c ∈ mid.getLast?, ws c = false) := by
  obtain ⟨pre, rest, rfl, h2, h3, h4⟩ := findChar_spec (fun c => !ws c) s
  have hpre : ∀ c ∈ pre, ws c = true := fun c hc => by simpa using h2 c hc
  unfold trim
  simp only [h3, dropBytes_append, Option.bind_some]
  rcases rfindChar_spec (fun c => !ws c) rest with ⟨g1, g2⟩ | ⟨mid, c, post, rfl, g2, g3, g4⟩
  · refine ⟨pre, [], rest, by simp, ?_, hpre, fun c hc => by simpa using g2 c hc, by simp, by simp⟩
    simp only [g1, Option.bind_some]
    cases rest <;> simp [takeBytes]
  · refine ⟨pre, mid ++ [c], post, by simp, ?_, hpre, fun c hc => by simpa using g3 c hc, ?_, ?_⟩
    · simp only [g4, dropBytes_append, Option.bind_some, List.head?_cons, Option.map_some]
      have e : utf8Len mid + c.utf8Size = utf8Len (mid ++ [c]) := by simp [utf8Len]
      rw [e]
      have := takeBytes_append (mid ++ [c]) post
      simpa using this
    · intro d hd
      have : (mid ++ [c]).head? = (mid ++ c :: post).head? := by cases mid <;> rfl
      rw [this] at hd
      simpa using h4 d hd
    · intro d hd
      simp at hd
      subst hd
      simpa using g2

example : trim Char.isWhitespace [' ', 'é', ' ', 'x', '\n', ' '] = some ['é', ' ', 'x'] := by decide

/-- C09. Trimming is idempotent. -/
theorem C09_trim_idem (ws : Char → Bool) (s t : List Char) (h : trim ws s = some t) :
    trim ws t = some t := by
  obtain ⟨pre0, mid0, post0, rfl, h2, _, _, h5, h6⟩ := C09_trim ws s
  rw [h2] at h
  cases h
  obtain ⟨pre, mid, post, he, g2, g3, g4, g5, g6⟩ := C09_trim ws t
  rw [g2]
  have hpre : pre = [] := by
    cases pre with
    | nil => rfl
    | cons c pre =>
      have := h5 c (by rw [he]; simp)
      have := g3 c (by simp)
      simp_all
  have hpost : post = [] := by
    rcases List.eq_nil_or_concat post with hp | ⟨q, c, hp⟩
    · exact hp
    · subst hp
      have := h6 c (by rw [he]; simp)
      have := g4 c (by simp)
      simp_all
  subst hpre hpost
  simp at he
  rw [he]

example : trim Char.isWhitespace ['\t', 'a', 'b'] = some ['a', 'b'] := by decide

end Fall
