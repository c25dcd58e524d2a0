import Verif.Spec.TestTools
import Verif.Model.TestTools
import Verif.Props.Dump

/-!
C88: carets in the texts of tests. C89: the tests that are written in a grammar. C90: how tests are handed to a parser.
-/

namespace Fall
open Spec

/-! ## Searching -/

theorem occursAt_zero {p s : List UInt8} : OccursAt p s 0 ↔ p <+: s := by
  constructor
  · rintro ⟨a, b, rfl, h⟩
    cases List.length_eq_zero_iff.1 h
    simp
  · rintro ⟨b, rfl⟩
    exact ⟨[], b, by simp, rfl⟩

theorem occursAt_succ {p s : List UInt8} {x : UInt8} {i : Nat} : OccursAt p (x :: s) (i + 1) ↔ OccursAt p s i := by
  constructor
  · rintro ⟨a, b, h, hl⟩
    cases a with
    | nil => simp at hl
    | cons y a =>
      simp only [List.cons_append, List.cons.injEq] at h
      exact ⟨a, b, h.2, by simpa using hl⟩
  · rintro ⟨a, b, rfl, hl⟩
    exact ⟨x :: a, b, by simp, by simpa using hl⟩

theorem occursAt_nil {p : List UInt8} {i : Nat} : OccursAt p [] i ↔ p = [] ∧ i = 0 := by
  constructor
  · rintro ⟨a, b, h, rfl⟩
    have := congrArg List.length h
    simp only [List.length_nil, List.length_append] at this
    exact ⟨List.length_eq_zero_iff.1 (by omega), by omega⟩
  · rintro ⟨rfl, rfl⟩
    exact ⟨[], [], rfl, rfl⟩

theorem occursAt_iff {p s : List UInt8} {i : Nat} : OccursAt p s i ↔ i ≤ s.length ∧ p <+: s.drop i := by
  constructor
  · rintro ⟨a, b, rfl, rfl⟩
    refine ⟨by simp, ?_⟩
    rw [List.append_assoc, List.drop_left]
    exact List.prefix_append ..
  · rintro ⟨h, b, hb⟩
    exact ⟨s.take i, b, by rw [List.append_assoc, hb, List.take_append_drop], by simp [h]⟩

theorem findBytes_spec (p : List UInt8) : ∀ s, (∀ i, findBytes p s = some i → FirstAt p s i) ∧
    (findBytes p s = none → Absent p s)
  | [] => by
    unfold findBytes
    split
    · rename_i h
      have : p = [] := by simpa using h
      subst this
      refine ⟨fun i hi => ?_, fun h => (by cases h)⟩
      cases hi
      exact ⟨⟨[], [], rfl, rfl⟩, fun j hj => by omega⟩
    · rename_i h
      refine ⟨fun i hi => (by cases hi), fun _ i hi => h ?_⟩
      rw [(occursAt_nil.1 hi).1]
      rfl
  | b :: s => by
    obtain ⟨h1, h2⟩ := findBytes_spec p s
    unfold findBytes
    split
    · rename_i h
      refine ⟨fun i hi => ?_, fun h => (by cases h)⟩
      cases hi
      exact ⟨occursAt_zero.2 (List.isPrefixOf_iff_prefix.1 h), fun j hj => by omega⟩
    · rename_i h
      have h0 : ¬ OccursAt p (b :: s) 0 := fun hc => h (List.isPrefixOf_iff_prefix.2 (occursAt_zero.1 hc))
      constructor
      · intro i hi
        obtain ⟨j, hj, rfl⟩ := Option.map_eq_some_iff.1 hi
        obtain ⟨k1, k2⟩ := h1 j hj
        refine ⟨occursAt_succ.2 k1, fun k hk => ?_⟩
        cases k with
        | zero => exact h0
        | succ k => exact fun hc => k2 k (by omega) (occursAt_succ.1 hc)
      · intro hn i
        cases i with
        | zero => exact h0
        | succ i => exact fun hc => h2 (by simpa using hn) i (occursAt_succ.1 hc)

theorem firstAt_unique {p s : List UInt8} {i j : Nat} (hi : FirstAt p s i) (hj : FirstAt p s j) : i = j := by
  rcases Nat.lt_trichotomy i j with h | h | h
  · exact absurd hi.1 (hj.2 i h)
  · exact h
  · exact absurd hj.1 (hi.2 j h)

theorem findBytes_some {p s : List UInt8} {i : Nat} : findBytes p s = some i ↔ FirstAt p s i := by
  refine ⟨(findBytes_spec p s).1 i, fun h => ?_⟩
  cases hf : findBytes p s with
  | none => exact absurd h.1 ((findBytes_spec p s).2 hf i)
  | some j => rw [firstAt_unique ((findBytes_spec p s).1 j hf) h]

theorem findBytes_none {p s : List UInt8} : findBytes p s = none ↔ Absent p s := by
  refine ⟨(findBytes_spec p s).2, fun h => ?_⟩
  cases hf : findBytes p s with
  | none => rfl
  | some j => exact absurd ((findBytes_spec p s).1 j hf).1 (h j)

/-! ## Carets -/

/-- C88. The text is what is before and after the first caret, and the offset is that of the caret. -/
theorem C88_offset (input caret text : List UInt8) (o : Nat) : extractOffset input caret = some (text, o) ↔
    ∃ a b, input = a ++ caret ++ b ∧ FirstAt caret input o ∧ a.length = o ∧ text = a ++ b := by
  unfold extractOffset
  simp only [Option.bind_eq_bind, Option.bind_eq_some_iff, findBytes_some, pure, Option.some.injEq, Prod.mk.injEq]
  constructor
  · rintro ⟨i, hi, h, rfl⟩
    obtain ⟨a, b, e, rfl⟩ := hi.1
    refine ⟨a, b, e, hi, rfl, ?_⟩
    rw [← h, e, List.append_assoc, List.take_left, ← List.append_assoc, ← List.length_append, List.drop_left]
  · rintro ⟨a, b, e, hi, rfl, rfl⟩
    refine ⟨_, hi, ?_, rfl⟩
    rw [e, List.append_assoc, List.take_left, ← List.append_assoc, ← List.length_append, List.drop_left]

/-- C88. It panics exactly if there is no caret. -/
theorem C88_offset_panics (input caret : List UInt8) : extractOffset input caret = none ↔ Absent caret input := by
  rw [← findBytes_none, extractOffset]
  cases findBytes caret input <;> simp

/-- C88. The text is what is around the first caret and the next caret after it, and the range is what was between
them. -/
theorem C88_range (input caret text : List UInt8) (r : TextRange) : extractRange input caret = some (text, r) ↔
    ∃ a m b, input = a ++ caret ++ (m ++ caret ++ b) ∧ FirstAt caret input a.length ∧
      FirstAt caret (m ++ caret ++ b) m.length ∧ text = a ++ m ++ b ∧ r = ⟨a.length, a.length + m.length⟩ := by
  unfold extractRange
  simp only [Option.bind_eq_bind, Option.bind_eq_some_iff, findBytes_some, pure, Option.some.injEq, Prod.mk.injEq]
  have cut : ∀ a m b : List UInt8,
      (a ++ caret ++ (m ++ caret ++ b)).take a.length ++
        ((a ++ caret ++ (m ++ caret ++ b)).take (a.length + caret.length + m.length)).drop (a.length + caret.length) ++
        (a ++ caret ++ (m ++ caret ++ b)).drop (a.length + caret.length + m.length + caret.length) = a ++ m ++ b := by
    intro a m b
    have e1 : (a ++ caret ++ (m ++ caret ++ b)).take a.length = a := by
      rw [List.append_assoc, List.take_left]
    have e2 : (a ++ caret ++ (m ++ caret ++ b)).take (a.length + caret.length + m.length) = a ++ caret ++ m := by
      rw [show a.length + caret.length + m.length = (a ++ caret ++ m).length by simp [Nat.add_assoc],
        show a ++ caret ++ (m ++ caret ++ b) = (a ++ caret ++ m) ++ (caret ++ b) by simp, List.take_left]
    have e3 : (a ++ caret ++ (m ++ caret ++ b)).drop (a.length + caret.length + m.length + caret.length) = b := by
      rw [show a.length + caret.length + m.length + caret.length = (a ++ caret ++ m ++ caret).length by
          simp [Nat.add_assoc],
        show a ++ caret ++ (m ++ caret ++ b) = (a ++ caret ++ m ++ caret) ++ b by simp, List.drop_left]
    rw [e1, e2, e3, ← List.length_append, List.drop_left]
  constructor
  · rintro ⟨i, hi, j, hj, h, rfl⟩
    obtain ⟨a, rest, e, rfl⟩ := hi.1
    have hd : input.drop (a.length + caret.length) = rest := by
      rw [e, ← List.length_append, List.drop_left]
    rw [hd] at hj
    obtain ⟨m, b, e', rfl⟩ := hj.1
    subst e'
    refine ⟨a, m, b, e, hi, hj, ?_, ?_⟩
    · rw [← h, e, cut]
    · congr 1
      omega
  · rintro ⟨a, m, b, e, hi, hj, rfl, rfl⟩
    refine ⟨_, hi, m.length, ?_, ?_, ?_⟩
    · rw [e, ← List.length_append, List.drop_left]
      exact hj
    · rw [e, cut]
    · congr 1
      omega

/-- C88. It panics exactly if there is no caret, or none after the first one. -/
theorem C88_range_panics (input caret : List UInt8) : extractRange input caret = none ↔
    Absent caret input ∨ ∃ a b, input = a ++ caret ++ b ∧ FirstAt caret input a.length ∧ Absent caret b := by
  unfold extractRange
  cases h : findBytes caret input with
  | none => simp [findBytes_none.1 h]
  | some i =>
    have hi := findBytes_some.1 h
    obtain ⟨a, b, e, rfl⟩ := hi.1
    have hd : input.drop (a.length + caret.length) = b := by
      rw [e, ← List.length_append, List.drop_left]
    simp only [Option.bind_eq_bind, Option.bind_some, hd]
    have no : ¬ Absent caret input := fun hc => hc _ hi.1
    cases hb : findBytes caret b with
    | none => simp only [Option.bind_none, true_iff]; exact .inr ⟨a, b, e, hi, findBytes_none.1 hb⟩
    | some j =>
      simp only [Option.bind_some, pure, reduceCtorEq, false_iff]
      rintro (hc | ⟨a', b', e', hi', hc⟩)
      · exact no hc
      · have hl := firstAt_unique hi hi'
        rw [e] at e'
        have : b = b' := by
          have := congrArg (List.drop (a.length + caret.length)) e'
          rwa [← List.length_append, List.drop_left, List.length_append, hl, ← List.length_append, List.drop_left] at this
        subst this
        rw [findBytes_none.2 hc] at hb
        cases hb

theorem firstAt_fresh {c : UInt8} {cs a b : List UInt8} (h : c ∉ a) : FirstAt (c :: cs) (a ++ c :: cs ++ b) a.length := by
  refine ⟨⟨a, b, rfl, rfl⟩, fun j hj => ?_⟩
  rintro ⟨x, y, e, rfl⟩
  refine h ?_
  have := congrArg (·[x.length]?) e
  simp only [List.append_assoc] at this
  rw [List.getElem?_append_left hj, List.getElem?_append_right (Nat.le_refl _)] at this
  simp only [Nat.sub_self, List.cons_append, List.getElem?_cons_zero] at this
  exact List.mem_of_getElem? this

/-- C88. A caret that is put at any offset of a text is found there, if its first byte is not in the text before it. -/
theorem C88_offset_round (c : UInt8) (cs a b : List UInt8) (h : c ∉ a) :
    extractOffset (a ++ c :: cs ++ b) (c :: cs) = some (a ++ b, a.length) :=
  (C88_offset _ _ _ _).2 ⟨a, b, rfl, firstAt_fresh h, rfl, rfl⟩

/-- C88. The same for two carets around any range of a text. -/
theorem C88_range_round (c : UInt8) (cs a m b : List UInt8) (ha : c ∉ a) (hm : c ∉ m) :
    extractRange (a ++ c :: cs ++ (m ++ c :: cs ++ b)) (c :: cs) = some (a ++ m ++ b, ⟨a.length, a.length + m.length⟩) :=
  (C88_range _ _ _ _).2 ⟨a, m, b, rfl, firstAt_fresh ha, firstAt_fresh hm, rfl, rfl⟩

example : extractOffset (ascii "let x^ = 1; // ^") (ascii "^") = some (ascii "let x = 1; // ^", 5) ∧
    extractRange (ascii "let <|>x<|> = 1;") (ascii "<|>") = some (ascii "let x = 1;", ⟨4, 5⟩) ∧
    extractRange (ascii "let ^x") (ascii "^") = none ∧ extractOffset (ascii "let x") (ascii "^") = none := by decide

/-- C88. That the text does not have the caret is not enough: it is found too early if the end of the text before it and
the caret look like a caret. -/
theorem C88_overlap_counterexample : Absent (ascii "aa") (ascii "ab") ∧
    extractOffset (ascii "a" ++ ascii "aa" ++ ascii "b") (ascii "aa") = some (ascii "ab", 0) :=
  ⟨findBytes_none.1 (by decide), by decide⟩

/-! ## Cutting at a separator -/

theorem splitBy_unique {sep : List UInt8} {s : List UInt8} {ps qs : List (List UInt8)}
    (h : SplitBy sep s ps) (h' : SplitBy sep s qs) : ps = qs := by
  induction h generalizing qs with
  | last ha =>
    cases h' with
    | last => rfl
    | more hf => exact absurd hf.1 (ha _)
  | @more a b ps hf _ ih =>
    generalize e : a ++ sep ++ b = s at h'
    cases h' with
    | last ha => exact absurd (e ▸ hf.1) (ha _)
    | @more a' b' ps' hf' hr =>
      have hl := firstAt_unique (e ▸ hf) hf'
      obtain ⟨h1, h2⟩ := List.append_inj (by simpa using e) hl
      rw [h1, ih (List.append_cancel_left h2 ▸ hr)]

theorem splitSteps_by {sep : List UInt8} (hs : sep ≠ []) : ∀ (k : Nat) (s : List UInt8), s.length ≤ k →
    SplitBy sep s (splitSteps sep k s)
  | 0, s, h => by
    cases List.length_eq_zero_iff.1 (Nat.le_zero.1 h)
    exact .last fun i hi => hs (occursAt_nil.1 hi).1
  | k + 1, s, h => by
    unfold splitSteps
    split
    · rename_i hf
      exact .last (findBytes_none.1 hf)
    · rename_i i hf
      have hi := findBytes_some.1 hf
      obtain ⟨a, b, rfl, rfl⟩ := hi.1
      have hl : 0 < sep.length := List.length_pos_iff.2 hs
      rw [← List.length_append, List.drop_left, List.append_assoc, List.take_left, ← List.append_assoc]
      exact .more hi (splitSteps_by hs k b (by simp only [List.length_append] at h; omega))

/-- Cutting a text is described by `SplitBy`. -/
theorem splitText_iff {sep : List UInt8} (hs : sep ≠ []) (s : List UInt8) (ps : List (List UInt8)) :
    splitText sep s = ps ↔ SplitBy sep s ps :=
  ⟨fun h => h ▸ splitSteps_by hs _ _ (Nat.le_refl _), fun h => splitBy_unique (splitSteps_by hs _ _ (Nat.le_refl _)) h⟩

theorem splitBy_some {sep s : List UInt8} {ps : List (List UInt8)} (h : SplitBy sep s ps) : ps ≠ [] := by
  cases h <;> simp

theorem splitBy_join {sep s : List UInt8} {ps : List (List UInt8)} (h : SplitBy sep s ps) : sep.intercalate ps = s := by
  induction h with
  | last => simp [List.intercalate]
  | @more a b ps hf hr ih =>
    cases hr with
    | last => simp [List.intercalate]
    | more => rw [← ih]; simp [List.intercalate]

theorem absent_left {p s t : List UInt8} (h : Absent p (s ++ t)) : Absent p s := by
  rintro i ⟨a, b, rfl, rfl⟩
  exact h a.length ⟨a, b ++ t, by simp, rfl⟩

theorem splitBy_absent {sep s : List UInt8} {ps : List (List UInt8)} (hs : sep ≠ []) (h : SplitBy sep s ps) :
    ∀ p ∈ ps, Absent sep p := by
  induction h with
  | last ha => simpa using ha
  | @more a b ps hf _ ih =>
    intro p hp
    rcases List.mem_cons.1 hp with rfl | hp
    · rintro i ⟨x, y, rfl, rfl⟩
      have hl : 0 < sep.length := List.length_pos_iff.2 hs
      exact hf.2 x.length (by simp; omega) ⟨x, y ++ sep ++ b, by simp, rfl⟩
    · exact ih p hp

/-- Where a separator is found too early, the text before it has it or ends with a part of it. -/
theorem early_iff {sep a b : List UInt8} (hs : sep ≠ []) : FirstAt sep (a ++ sep ++ b) a.length ↔
    Absent sep a ∧ ∀ i, 0 < i → i < sep.length → sep.take i <:+ a → ¬ sep.drop i <+: sep ++ b := by
  have hl : 0 < sep.length := List.length_pos_iff.2 hs
  constructor
  · rintro ⟨-, h⟩
    constructor
    · rintro i ⟨x, y, rfl, rfl⟩
      exact h x.length (by simp; omega) ⟨x, y ++ sep ++ b, by simp, rfl⟩
    · rintro i h0 hi ⟨x, rfl⟩ ⟨y, hy⟩
      refine h x.length (by simp; omega) ⟨x, y, ?_, rfl⟩
      rw [List.append_assoc, List.append_assoc, ← hy, ← List.append_assoc (sep.take i), List.take_append_drop,
        List.append_assoc]
  · rintro ⟨h1, h2⟩
    refine ⟨⟨a, b, rfl, rfl⟩, ?_⟩
    rintro j hj ⟨x, y, e, rfl⟩
    obtain ⟨a', rfl⟩ : x <+: a := by
      refine List.prefix_of_prefix_length_le (l₃ := a ++ sep ++ b) ?_ ?_ (Nat.le_of_lt hj)
      · rw [e, List.append_assoc]
        exact List.prefix_append ..
      · rw [List.append_assoc]
        exact List.prefix_append ..
    simp only [List.append_assoc, List.append_cancel_left_eq] at e
    rcases Nat.lt_or_ge a'.length sep.length with hlt | hge
    · have hp : a' <+: sep := by
        refine List.prefix_of_prefix_length_le (l₃ := sep ++ y) ?_ (List.prefix_append ..) (Nat.le_of_lt hlt)
        rw [← e]
        exact List.prefix_append ..
      have ht : sep.take a'.length = a' := (List.prefix_iff_eq_take.1 hp).symm
      refine h2 a'.length (by simp at hj; omega) hlt ⟨x, by rw [ht]⟩ ⟨y, ?_⟩
      have := congrArg (List.drop a'.length) e
      rw [List.drop_left, List.drop_append_of_le_length (Nat.le_of_lt hlt)] at this
      exact this.symm
    · obtain ⟨z, rfl⟩ : sep <+: a' := by
        refine List.prefix_of_prefix_length_le (l₃ := sep ++ y) (List.prefix_append ..) ?_ hge
        rw [← e]
        exact List.prefix_append ..
      exact h1 x.length ⟨x, z, by simp, rfl⟩

/-! ## Tests in a grammar -/

theorem firstAt_plain {p a b : List UInt8} (hp : p ≠ []) (h : ∀ i < p.length, 0 < i → ¬ p.drop i <+: p)
    (ha : Absent p a) : FirstAt p (a ++ p ++ b) a.length :=
  (early_iff hp).2 ⟨ha, fun i h0 hi _ hc =>
    h i hi h0 (List.prefix_of_prefix_length_le hc (List.prefix_append ..) (by simp))⟩

theorem rawEnd_plain (k : Nat) : ∀ i < (rawEnd k).length, 0 < i → ¬ (rawEnd k).drop i <+: rawEnd k := by
  intro i hi h0 hc
  cases i with
  | zero => omega
  | succ i =>
    simp only [rawEnd, List.length_cons, List.length_replicate] at hi
    rw [rawEnd, List.drop_succ_cons, List.drop_replicate] at hc
    obtain ⟨m, hm⟩ : ∃ m, k - i = m + 1 := ⟨k - i - 1, by omega⟩
    rw [hm, List.replicate_succ, List.cons_prefix_cons] at hc
    exact absurd hc.1 (by decide)

theorem takeWhile_hashes (k : Nat) (s : List UInt8) :
    ((List.replicate k 35 ++ 34 :: s).takeWhile (· == 35)).length = k := by
  induction k with
  | zero => simp
  | succ k ih => simp [List.replicate_succ]

theorem collectSteps_plain : ∀ (ts : List InlineTest) (k : Nat) (start rest : List UInt8), PlainTests start ts rest →
    (start ++ testedGrammar ts rest).length ≤ k →
    collectSteps k (start ++ testedGrammar ts rest) = some (ts.map fun t => trimText t.body)
  | [], k, start, rest, h, _ => by
    cases k with
    | zero => rfl
    | succ k =>
      unfold collectSteps
      rw [show ascii "test r" = [116, 101, 115, 116, 32, 114] by decide, testedGrammar, findBytes_none.2 h]
      rfl
  | t :: ts, k, start, rest, h, hk => by
    obtain ⟨h1, h2, h3, h4, h5⟩ := h
    have e : start ++ testedGrammar (t :: ts) rest =
        (start ++ t.before) ++ ascii "test r" ++ (t.quoted ++ testedGrammar ts rest) := by
      rw [show ascii "test r" = [116, 101, 115, 116, 32, 114] by decide, testedGrammar]
      simp
    have eq : t.quoted ++ testedGrammar ts rest =
        List.replicate t.hashes 35 ++ 34 :: (t.body ++ rawEnd t.hashes ++ testedGrammar ts rest) := by
      simp [InlineTest.quoted]
    have hf : findBytes (ascii "test r") ((start ++ t.before) ++ ascii "test r" ++ (t.quoted ++ testedGrammar ts rest)) =
        some (start ++ t.before).length :=
      findBytes_some.2 (firstAt_plain (by decide) (by decide) h1)
    rw [e] at hk ⊢
    cases k with
    | zero => simp [show (ascii "test r").length = 6 by decide] at hk
    | succ k =>
      have hd : ((start ++ t.before) ++ ascii "test r" ++ (t.quoted ++ testedGrammar ts rest)).drop
          ((start ++ t.before).length + 6) = t.quoted ++ testedGrammar ts rest := by
        rw [show (start ++ t.before).length + 6 = (start ++ t.before ++ ascii "test r").length by
          rw [List.length_append (bs := ascii "test r")]; rfl, List.drop_left]
      have hd2 : (t.quoted ++ testedGrammar ts rest).drop (t.hashes + 1) =
          t.body ++ rawEnd t.hashes ++ testedGrammar ts rest := by
        rw [eq, ← List.drop_drop, List.drop_append_of_le_length (by simp)]
        simp
      have hb : isBoundary (t.quoted ++ testedGrammar ts rest) (t.hashes + 1) = true := by
        have hg : (t.quoted ++ testedGrammar ts rest)[t.hashes + 1]? =
            (t.body ++ rawEnd t.hashes ++ testedGrammar ts rest)[0]? := by
          rw [← hd2, List.getElem?_drop, Nat.add_zero]
        unfold isBoundary
        rw [hg]
        cases hbody : t.body with
        | nil => simp [rawEnd]
        | cons b bs =>
          have := h4 b (by simp [hbody])
          simpa using this
      have ih := collectSteps_plain ts k (t.body ++ rawEnd t.hashes) rest h5 (by
        have := congrArg List.length hd2
        simp only [List.length_drop] at this
        simp only [List.length_append, show (ascii "test r").length = 6 by decide] at hk this ⊢
        omega)
      have hf2 : findBytes (34 :: List.replicate t.hashes 35) (t.body ++ rawEnd t.hashes ++ testedGrammar ts rest) =
          some t.body.length :=
        findBytes_some.2 (firstAt_plain (p := rawEnd t.hashes) (by simp [rawEnd]) (rawEnd_plain _) h3)
      have ht : ((t.quoted ++ testedGrammar ts rest).takeWhile (· == 35)).length = t.hashes := by
        rw [eq, takeWhile_hashes]
      unfold collectSteps
      rw [hf]
      simp only [hd, ht, hb, hd2, ih, hf2, Bool.not_true, Bool.false_eq_true, if_false, Option.bind_eq_bind,
        Option.bind_some, show ¬ t.hashes > 16 by omega, pure, List.map_cons, Option.some.injEq, List.cons.injEq, and_true]
      rw [List.append_assoc, List.take_left]

/-- C89. If `test r` is in a grammar just where tests are, their texts are found, in their order and without white space
around them. -/
theorem C89_collect (ts : List InlineTest) (rest : List UInt8) (h : PlainTests [] ts rest) :
    ∃ tests, collectTests (testedGrammar ts rest) = some tests ∧ tests.length = ts.length ∧
      ∀ (i : Nat) t test, ts[i]? = some t → tests[i]? = some test → Spec.Trimmed t.body test := by
  refine ⟨_, collectSteps_plain ts _ [] rest h (Nat.le_refl _), by simp, ?_⟩
  intro i t test h1 h2
  simp only [List.getElem?_map, h1, Option.map_some, Option.some.injEq] at h2
  rw [← h2]
  exact trim_iff.1 rfl

example : PlainTests [] [⟨ascii "rule a {}\n", 0, ascii "\n a a \n"⟩, ⟨ascii " rule b {}\n", 1, ascii " \"a\" "⟩]
    (ascii "\n") :=
  ⟨findBytes_none.1 (by decide), by decide, findBytes_none.1 (by decide), fun b hb => (by cases hb; decide),
    findBytes_none.1 (by decide), by decide, findBytes_none.1 (by decide), fun b hb => (by cases hb; decide),
    findBytes_none.1 (by decide)⟩

example : collectTests (ascii "tokenizer { a 'a' }\ntest r\"\n a a \n\" rule b {}\ntest r#\" \"a\" \"#\n") =
    some [ascii "a a", ascii "\"a\""] := by decide +kernel

/-- C89. What looks like a test is one, also in a comment or in a test, and tests with another kind of string are not
found. A comment may lead to a panic: if the file ends there, or if there are many `#`. -/
theorem C89_collect_counterexample :
    collectTests (ascii "// the latest rule \"a\"\nrule b { \"c\" }") = some [ascii "le"] ∧
    collectTests (ascii "test r#\"test r\"a\"\"#") = some [ascii "test r\"a\"", ascii "a"] ∧
    collectTests (ascii "test \"a\"") = some [] ∧
    collectTests (ascii "// test r") = none ∧
    collectTests (ascii "// test r################# ") = none := by decide +kernel

theorem sameTrimmed_iff {s t : List UInt8} : SameTrimmed s t ↔ trimText s = trimText t :=
  ⟨fun ⟨_, h1, h2⟩ => (trim_iff.2 h1).trans (trim_iff.2 h2).symm, fun h => ⟨_, trim_iff.1 rfl, trim_iff.1 h.symm⟩⟩

theorem compareSections_iff : ∀ es as : List (List UInt8), compareSections es as = some () ↔
    ∀ (i : Nat) e a, es[i]? = some e → as[i]? = some a → SameTrimmed e a
  | [], as => by simp [compareSections]
  | _ :: _, [] => by simp [compareSections]
  | e :: es, a :: as => by
    have ih := compareSections_iff es as
    have key : compareSections (e :: es) (a :: as) = some () ↔ trimText e = trimText a ∧ compareSections es as = some () := by
      conv => lhs; unfold compareSections
      by_cases h : e = a
      · simp [h]
      · by_cases ht : trimText e = trimText a
        · simp [h, ht, reportDiff]
        · simp [h, ht, reportDiff]
    rw [key, ih, ← sameTrimmed_iff]
    constructor
    · rintro ⟨h1, h2⟩ i x y hx hy
      cases i with
      | zero =>
        simp only [List.getElem?_cons_zero, Option.some.injEq] at hx hy
        rw [← hx, ← hy]
        exact h1
      | succ i => exact h2 i x y (by simpa using hx) (by simpa using hy)
    · intro h
      exact ⟨h 0 e a rfl rfl, fun i x y hx hy => h (i + 1) x y (by simpa using hx) (by simpa using hy)⟩

/-- C89. The check of the tests of a grammar passes exactly if the parts of the expected and the actual text are the same
up to white space around them, for as many parts as both have. It changes nothing. -/
theorem C89_check (render : List UInt8 → Option (List UInt8)) (grammar : List UInt8) (data : Option (List UInt8))
    (tests : List (List UInt8)) (expected : List UInt8) (ht : collectTests grammar = some tests)
    (he : renderTests render tests = some expected) (es as : List (List UInt8))
    (hes : SplitBy testSeparator expected es) (has : SplitBy testSeparator (data.getD []) as)
    (result : Option (List UInt8)) :
    checkInlineTests render false grammar data = some result ↔
      result = data ∧ ∀ (i : Nat) e a, es[i]? = some e → as[i]? = some a → SameTrimmed e a := by
  have hs : testSeparator ≠ [] := by decide
  unfold checkInlineTests
  simp only [ht, he, Option.bind_eq_bind, Option.bind_some, Bool.false_eq_true, if_false]
  split
  · rename_i h
    rw [h] at hes
    cases splitBy_unique hes has
    simp only [pure, Option.some.injEq]
    refine ⟨fun h => ⟨h.symm, fun i e a h1 h2 => ?_⟩, fun h => h.1.symm⟩
    rw [h1, Option.some.injEq] at h2
    rw [h2]
    exact sameTrimmed_iff.2 rfl
  · rw [(splitText_iff hs _ _).2 hes, (splitText_iff hs _ _).2 has, ← compareSections_iff]
    cases compareSections es as with
    | none => simp
    | some u => simp [eq_comm]

/-- C89. After the file with the trees is rewritten the check passes, and what is written is the rendering of the
tests. -/
theorem C89_rewrite (render : List UInt8 → Option (List UInt8)) (grammar : List UInt8) (data data' : Option (List UInt8))
    (h : checkInlineTests render true grammar data = some data') :
    checkInlineTests render false grammar data' = some data' ∧
    ∃ tests, collectTests grammar = some tests ∧ renderTests render tests = some (data'.getD []) := by
  unfold checkInlineTests at h ⊢
  cases ht : collectTests grammar with
  | none => simp [ht] at h
  | some tests =>
    simp only [ht, Option.bind_eq_bind, Option.bind_some] at h ⊢
    cases he : renderTests render tests with
    | none => simp [he] at h
    | some expected =>
      simp only [he, Option.bind_some, if_true] at h ⊢
      split at h
      · rename_i hx
        simp only [pure, Option.some.injEq] at h
        subst h
        simp only [hx, if_true, pure, true_and]
        exact ⟨tests, rfl, he.trans (by rw [hx])⟩
      · simp only [pure, Option.some.injEq] at h
        subst h
        simp only [Option.getD_some, if_true, pure, true_and]
        exact ⟨tests, rfl, he⟩

theorem separator_first {s b : List UInt8} (h : Absent testSeparator (s ++ [10])) :
    FirstAt testSeparator (s ++ [10] ++ testSeparator ++ b) (s ++ [10]).length := by
  refine (early_iff (by decide)).2 ⟨h, fun i h0 hi ⟨x, hx⟩ _ => ?_⟩
  have := congrArg List.getLast? hx
  rw [List.getLast?_concat, List.getLast?_append] at this
  have key : ∀ i < testSeparator.length, 0 < i → (testSeparator.take i).getLast? = some 45 := by decide
  rw [key i hi h0] at this
  cases this

theorem absent_cons {p s : List UInt8} {b c : UInt8} (h : Absent (c :: p) s) (hb : b ≠ c) : Absent (c :: p) (b :: s) := by
  intro i hi
  cases i with
  | zero =>
    have := occursAt_zero.1 hi
    rw [List.cons_prefix_cons] at this
    exact hb this.1.symm
  | succ i => exact h i (occursAt_succ.1 hi)

/-- The parts of a file with trees. -/
def cutTrees (start : List UInt8) : List (List UInt8 × List UInt8) → List (List UInt8)
  | [] => [start]
  | p :: ps => (start ++ testSection p.1 p.2) :: cutTrees [10] ps

theorem splitBy_trees : ∀ (ps : List (List UInt8 × List UInt8)) (start : List UInt8), (start = [] ∨ start = [10]) →
    PlainTrees testSeparator ps → SplitBy testSeparator (start ++ treesText testSeparator ps) (cutTrees start ps)
  | [], start, hs, _ => by
    rw [treesText, List.append_nil]
    exact .last (by rcases hs with rfl | rfl <;> exact findBytes_none.1 (by decide))
  | p :: ps, start, hs, h => by
    have ih := splitBy_trees ps [10] (.inr rfl) fun q hq => h q (List.mem_cons_of_mem _ hq)
    have hp := (h p (by simp)).1
    have ha : Absent testSeparator (start ++ testSection p.1 p.2) := by
      rcases hs with rfl | rfl
      · exact hp
      · exact absent_cons (c := 45) hp (by decide)
    have e : start ++ treesText testSeparator (p :: ps) =
        start ++ testSection p.1 p.2 ++ testSeparator ++ ([10] ++ treesText testSeparator ps) := by
      simp [treesText]
    rw [e, cutTrees]
    refine .more ?_ ih
    have e2 : start ++ testSection p.1 p.2 = (start ++ (p.1 ++ [10, 10] ++ p.2)) ++ [10] := by simp [testSection]
    rw [e2] at ha ⊢
    exact separator_first ha

theorem trim_start (start s : List UInt8) (hs : start = [] ∨ start = [10]) : trimText (start ++ s) = trimText s := by
  rcases hs with rfl | rfl
  · rfl
  · obtain ⟨a, b, e, h1, h2, h3, h4⟩ := trim_iff.1 (rfl : trimText s = trimText s)
    refine trim_iff.2 ⟨10 :: a, b, by rw [List.cons_append, List.cons_append, List.cons_append, ← e]; rfl, ?_, h2, h3, h4⟩
    intro x hx
    rcases List.mem_cons.1 hx with rfl | hx
    · simp [SpaceByte]
    · exact h1 x hx

theorem trim_visible {s : List UInt8} {b : UInt8} (hb : b ∈ s) (hv : ¬ SpaceByte b) : trimText s ≠ [] := by
  intro h
  obtain ⟨x, y, e, h1, h2, -⟩ := trim_iff.1 h
  rw [e] at hb
  simp only [List.append_nil, List.mem_append] at hb
  rcases hb with hb | hb
  · exact hv (h1 b hb)
  · exact hv (h2 b hb)

theorem compare_trees : ∀ (ps qs : List (List UInt8 × List UInt8)) (start : List UInt8), (start = [] ∨ start = [10]) →
    PlainTrees testSeparator ps → PlainTrees testSeparator qs →
    (compareSections (cutTrees start ps) (cutTrees start qs) = some () ↔ ps.length = qs.length ∧
      ∀ (i : Nat) p q, ps[i]? = some p → qs[i]? = some q → SameTrimmed (testSection p.1 p.2) (testSection q.1 q.2)) := by
  have key : ∀ (x y : List UInt8) (xs ys : List (List UInt8)), compareSections (x :: xs) (y :: ys) = some () ↔
      trimText x = trimText y ∧ compareSections xs ys = some () := by
    intro x y xs ys
    conv => lhs; unfold compareSections
    by_cases h : x = y
    · simp [h]
    · by_cases ht : trimText x = trimText y
      · simp [h, ht, reportDiff]
      · simp [h, ht, reportDiff]
  have blank : ∀ start : List UInt8, (start = [] ∨ start = [10]) → trimText start = [] := by
    rintro _ (rfl | rfl) <;> decide
  intro ps
  induction ps with
  | nil =>
    intro qs start hs hp hq
    cases qs with
    | nil =>
      simp only [cutTrees, key, List.length_nil, List.getElem?_nil, reduceCtorEq, false_implies, implies_true, and_true]
      simp [compareSections]
    | cons q qs =>
      obtain ⟨b, hb, hv⟩ := (hq q (by simp)).2
      simp only [cutTrees, key, blank start hs, trim_start start _ hs, List.length_nil, List.length_cons]
      constructor
      · exact fun h => absurd h.1.symm (trim_visible hb hv)
      · exact fun h => absurd h.1 (by simp)
  | cons p ps ih =>
    intro qs start hs hp hq
    cases qs with
    | nil =>
      obtain ⟨b, hb, hv⟩ := (hp p (by simp)).2
      simp only [cutTrees, key, blank start hs, trim_start start _ hs, List.length_nil, List.length_cons]
      constructor
      · exact fun h => absurd h.1 (trim_visible hb hv)
      · exact fun h => absurd h.1 (by simp)
    | cons q qs =>
      rw [cutTrees, cutTrees, key, trim_start start _ hs, trim_start start _ hs,
        ih qs [10] (.inr rfl) (fun x hx => hp x (List.mem_cons_of_mem _ hx)) (fun x hx => hq x (List.mem_cons_of_mem _ hx)),
        ← sameTrimmed_iff, List.length_cons, List.length_cons, Nat.add_right_cancel_iff]
      constructor
      · rintro ⟨h1, h2, h3⟩
        refine ⟨h2, fun i x y hx hy => ?_⟩
        cases i with
        | zero =>
          simp only [List.getElem?_cons_zero, Option.some.injEq] at hx hy
          rw [← hx, ← hy]
          exact h1
        | succ i => exact h3 i x y (by simpa using hx) (by simpa using hy)
      · rintro ⟨h2, h3⟩
        exact ⟨h3 0 p q rfl rfl, h2, fun i x y hx hy => h3 (i + 1) x y (by simpa using hx) (by simpa using hy)⟩

theorem renderTests_trees {render : List UInt8 → Option (List UInt8)} : ∀ {tests trees : List (List UInt8)},
    tests.mapM render = some trees → renderTests render tests = some (treesText testSeparator (tests.zip trees))
  | [], trees, h => by
    simp only [List.mapM_nil, pure, Option.some.injEq] at h
    subst h
    rfl
  | t :: ts, trees, h => by
    rw [List.mapM_cons] at h
    simp only [Option.bind_eq_bind, Option.bind_eq_some_iff, pure, Option.some.injEq] at h
    obtain ⟨d, h1, ds, h2, rfl⟩ := h
    have ih := renderTests_trees h2
    unfold renderTests at ih ⊢
    simp only [Option.bind_eq_bind, Option.bind_eq_some_iff, pure, Option.some.injEq] at ih
    obtain ⟨parts, h3, h4⟩ := ih
    rw [List.mapM_cons]
    simp only [renderTest, h1, Option.bind_eq_bind, Option.bind_some, pure]
    rw [h3]
    simp only [Option.bind_some, List.flatten_cons, h4, Option.some.injEq, List.zip_cons_cons, treesText, testSection]
    rw [show ascii "\n\n" = [10, 10] by decide, show ascii "\n" = [10] by decide]
    simp

/-- C89. If the file with the trees is complete, the check passes exactly if the file has as many tests as the grammar,
and these and their trees are those of the grammar, up to white space around a test with its tree. Tests and trees are
not to have the separator in them. -/
theorem C89_trees (render : List UInt8 → Option (List UInt8)) (grammar : List UInt8) (tests trees : List (List UInt8))
    (ht : collectTests grammar = some tests) (hr : tests.mapM render = some trees)
    (hp : PlainTrees testSeparator (tests.zip trees)) (qs : List (List UInt8 × List UInt8))
    (hq : PlainTrees testSeparator qs) :
    (checkInlineTests render false grammar (some (treesText testSeparator qs))).isSome = true ↔
      tests.length = qs.length ∧ ∀ (i : Nat) test tree q, tests[i]? = some test → trees[i]? = some tree → qs[i]? = some q →
        SameTrimmed (testSection test tree) (testSection q.1 q.2) := by
  have hlen : trees.length = tests.length := by
    clear hp ht
    induction tests generalizing trees with
    | nil => simp_all
    | cons t ts ih =>
      rw [List.mapM_cons] at hr
      simp only [Option.bind_eq_bind, Option.bind_eq_some_iff, pure, Option.some.injEq] at hr
      obtain ⟨d, -, ds, h2, rfl⟩ := hr
      simp [ih ds h2]
  have h1 := splitBy_trees (tests.zip trees) [] (.inl rfl) hp
  have h2 := splitBy_trees qs [] (.inl rfl) hq
  have h := C89_check render grammar (some (treesText testSeparator qs)) tests _ ht (renderTests_trees hr) _ _
    (by simpa using h1) (by simpa using h2)
  have hc := compare_trees (tests.zip trees) qs [] (.inl rfl) hp hq
  rw [compareSections_iff] at hc
  rw [Option.isSome_iff_exists]
  constructor
  · rintro ⟨r, hr⟩
    obtain ⟨g1, g2⟩ := hc.1 ((h r).1 hr).2
    refine ⟨by simpa [hlen] using g1, fun i test tree q e1 e2 e3 => ?_⟩
    exact g2 i (test, tree) q (by simp [List.getElem?_zip_eq_some, e1, e2]) e3
  · rintro ⟨g1, g2⟩
    refine ⟨_, (h _).2 ⟨rfl, hc.2 ⟨by simpa [hlen] using g1, fun i p q e1 e2 => ?_⟩⟩⟩
    obtain ⟨k1, k2⟩ := List.getElem?_zip_eq_some.1 e1
    exact g2 i _ _ q k1 k2 e2

example : PlainTrees testSeparator [(ascii "a", ascii "FILE\n  A \"a\""), (ascii "b", ascii "FILE")] := by
  intro p hp
  simp only [List.mem_cons, List.not_mem_nil, or_false] at hp
  rcases hp with rfl | rfl
  · exact ⟨findBytes_none.1 (by decide +kernel), 97, by decide, by simp [SpaceByte]⟩
  · exact ⟨findBytes_none.1 (by decide +kernel), 98, by decide, by simp [SpaceByte]⟩

/-- C89. A test with a file for the tree passes exactly if there is such a file with the tree, up to white space around
it; or, if files are rewritten, always. Then the file has the tree, and afterwards the test passes. -/
theorem C89_file (tree : List UInt8) (data : Option (List UInt8)) :
    (∀ result, checkFile false tree data = some result ↔ result = data ∧ ∃ d, data = some d ∧ SameTrimmed d tree) ∧
    ∃ d, checkFile true tree data = some (some d) ∧ SameTrimmed d tree ∧ checkFile false tree (some d) = some (some d) := by
  have key : ∀ d : List UInt8, checkFile false tree (some d) = if trimText d = trimText tree then some (some d) else none := by
    intro d
    simp only [checkFile, reportDiff]
    split <;> rfl
  constructor
  · intro result
    cases data with
    | none => simp [checkFile]
    | some d =>
      rw [key]
      by_cases h : trimText d = trimText tree
      · simp [h, sameTrimmed_iff, eq_comm]
      · simp [h, sameTrimmed_iff]
  · cases data with
    | none => exact ⟨tree, rfl, sameTrimmed_iff.2 rfl, by rw [key, if_pos rfl]⟩
    | some d =>
      by_cases h : trimText tree = trimText d
      · exact ⟨d, by simp [checkFile, h], sameTrimmed_iff.2 h.symm, by rw [key, if_pos h.symm]⟩
      · exact ⟨tree, by simp [checkFile, h], sameTrimmed_iff.2 rfl, by rw [key, if_pos rfl]⟩

/-- C89. A file with trees that was cut off passes: the parts that are missing are not compared. -/
theorem C89_cut_counterexample (render : List UInt8 → Option (List UInt8)) (h : render (ascii "a") = some (ascii "FILE"))
    (h' : render (ascii "b") = some (ascii "FILE")) :
    checkInlineTests render false (ascii "test r\"a\" test r\"b\"") (some (ascii "a\n\nFILE\n")) =
      some (some (ascii "a\n\nFILE\n")) := by
  have ht : collectTests (ascii "test r\"a\" test r\"b\"") = some [ascii "a", ascii "b"] := by decide +kernel
  have he := renderTests_trees (render := render) (tests := [ascii "a", ascii "b"]) (trees := [ascii "FILE", ascii "FILE"])
    (by rw [List.mapM_cons, h, List.mapM_cons, h']; rfl)
  have hs : testSeparator ≠ [] := by decide
  have hc : compareSections (splitText testSeparator (treesText testSeparator
      [(ascii "a", ascii "FILE"), (ascii "b", ascii "FILE")])) (splitText testSeparator (ascii "a\n\nFILE\n")) = some () := by
    decide +kernel
  exact (C89_check render _ _ _ _ ht he _ _ ((splitText_iff hs _ _).1 rfl) ((splitText_iff hs _ _).1 rfl) _).2
    ⟨rfl, (compareSections_iff _ _).1 hc⟩

/-! ## Handing tests to a parser -/

/-- C90. The tests of a grammar that are parsed are those that are written there exactly if there is a test, none of them
has the separator in it, and none but the last ends with the separator up to its line end. -/
theorem C90_tests (tests : List (List UInt8)) : renderedTests tests = tests ↔ tests ≠ [] ∧
    (∀ t ∈ tests, Absent renderSeparator t) ∧ ∀ t ∈ tests.dropLast, ¬ ascii "\n***###***" <:+ t := by
  have hs : renderSeparator ≠ [] := by decide
  have early : ∀ a b : List UInt8, FirstAt renderSeparator (a ++ renderSeparator ++ b) a.length ↔
      Absent renderSeparator a ∧ ¬ ascii "\n***###***" <:+ a := by
    intro a b
    rw [early_iff hs]
    refine and_congr_right fun _ => ⟨fun h hc => ?_, fun h i h0 hi ht hp => ?_⟩
    · refine h 10 (by decide) (by decide) hc ?_
      rw [show renderSeparator.drop 10 = [10] by decide, show renderSeparator = 10 :: ascii "***###***\n" by decide]
      exact ⟨_, rfl⟩
    · have hlen : renderSeparator.length = 11 := by decide
      rw [hlen] at hi
      have hp' : renderSeparator.drop i <+: renderSeparator :=
        List.prefix_of_prefix_length_le hp (List.prefix_append ..) (by simp)
      have key : ∀ i < 11, 0 < i → renderSeparator.drop i <+: renderSeparator → i = 10 := by decide
      rw [key i hi h0 hp'] at ht
      exact h ht
  unfold renderedTests
  rw [splitText_iff hs]
  induction tests with
  | nil =>
    simp only [ne_eq, not_true_eq_false, false_and, iff_false]
    intro h
    exact absurd rfl (splitBy_some h)
  | cons t ts ih =>
    cases ts with
    | nil =>
      have e : renderSeparator.intercalate [t] = t := by simp [List.intercalate]
      rw [e]
      simp only [ne_eq, reduceCtorEq, not_false_eq_true, List.mem_singleton, forall_eq, List.dropLast_singleton,
        List.not_mem_nil, false_implies, implies_true, and_true, true_and]
      constructor
      · intro h
        exact splitBy_absent hs h t (by simp)
      · exact .last
    | cons u us =>
      have e : renderSeparator.intercalate (t :: u :: us) =
          t ++ renderSeparator ++ renderSeparator.intercalate (u :: us) := by simp [List.intercalate]
      rw [e]
      have step : SplitBy renderSeparator (t ++ renderSeparator ++ renderSeparator.intercalate (u :: us)) (t :: u :: us) ↔
          FirstAt renderSeparator (t ++ renderSeparator ++ renderSeparator.intercalate (u :: us)) t.length ∧
          SplitBy renderSeparator (renderSeparator.intercalate (u :: us)) (u :: us) := by
        constructor
        · intro h
          generalize hx : t ++ renderSeparator ++ renderSeparator.intercalate (u :: us) = x at h
          cases h with
          | @more a b ps hf hr =>
            rw [List.append_cancel_left_eq] at hx
            subst hx
            exact ⟨hf, hr⟩
        · exact fun h => .more h.1 h.2
      refine (step.trans (and_congr (early _ _) ih)).trans ?_
      simp only [ne_eq, reduceCtorEq, not_false_eq_true, true_and, List.dropLast_cons_cons, List.forall_mem_cons]
      constructor
      · rintro ⟨⟨a1, a2⟩, a3, a4⟩
        exact ⟨⟨a1, a3⟩, a2, a4⟩
      · rintro ⟨⟨a1, a3⟩, a2, a4⟩
        exact ⟨⟨a1, a2⟩, a3, a4⟩

example : renderedTests [ascii "rule a", [], ascii "***###***"] = [ascii "rule a", [], ascii "***###***"] := by decide

/-- C90. A grammar without tests has the empty text as a test. A test that has the separator is parsed as two. A test that
ends with most of the separator loses that, and the next one begins with the line end. -/
theorem C90_tests_counterexample : renderedTests [] = [[]] ∧
    renderedTests [ascii "a\n***###***\nb"] = [ascii "a", ascii "b"] ∧
    renderedTests [ascii "a\n***###***", ascii "b"] = [ascii "a", ascii "***###***\nb"] := by decide

end Fall
