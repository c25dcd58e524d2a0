import Verif.Lemmas.FallFormat
import Verif.Props.FallEditor

/-! Properties of the formatter of grammars. -/

namespace Fall
open Spec

/-- C70. Formatting does not panic, and the formatted text is determined by the tree: whitespace in a line is removed
after `<` and before `>`, made one space next to `|`, and a space is put between `|` and other neighbours. All the
rest, in particular whitespace with newlines, is kept. -/
theorem C70_reformat (f : File UInt8) (hf : ConsistentFile f) :
    ∃ edit out, reformat f = some edit ∧ edit.apply (Text.ofBuf f.text) = some out ∧ Formatted f 0 out ∧
      ∀ out', Formatted f 0 out' → out' = out := by
  obtain ⟨e, h1, h2, h3, h4⟩ := walk_adds hf
  obtain ⟨edit, out, h5, h6, h7⟩ := C22_edit_renders f hf e
  have h8 := formatted_of_rendered hf h2 h3 h4 h6
  refine ⟨edit, out, ?_, h7, h8, fun out' h => formatted_unique h8 h⟩
  simp only [reformat, reformatFile, File.root, Ty.whitespace, h1, Option.bind_eq_bind, Option.bind_some]
  exact h5

/-- C70. Formatting changes blanks only: newlines and all other characters are the same and in the same order. -/
theorem C70_ink (f : File UInt8) (hf : ConsistentFile f) (hb : BlankSpaces f) {edit : TextEdit UInt8}
    {out : List UInt8} (h : reformat f = some edit) (ho : edit.apply (Text.ofBuf f.text) = some out) :
    out.filter isInk = f.text.filter isInk := by
  obtain ⟨edit', out', h1, h2, h3, -⟩ := C70_reformat f hf
  rw [h1] at h
  cases h
  rw [h2] at ho
  cases ho
  exact formatted_ink hf hb h3 (C16_leaves_spell_text f hf).2.2

theorem matches_star {r : Re} {p : Nat → Prop} (hr : ∀ t, Matches r t → ∀ b, b ∈ t → p b) {s : List Nat}
    (h : Matches (.star r) s) : ∀ b, b ∈ s → p b := by
  generalize e : Re.star r = q at h
  induction h with
  | starNil => simp
  | starCons h1 _ _ ih =>
    cases e
    intro b hb
    rcases List.mem_append.1 hb with hb | hb
    · exact hr _ h1 b hb
    · exact ih rfl b hb
  | _ => cases e

theorem matches_blank {s : List Nat} (h : Matches (.plus .blank) s) :
    ∀ b, b ∈ s → (9 ≤ b ∧ b ≤ 13) ∨ b = 32 ∨ 128 ≤ b := by
  have hset : ∀ {rs : List (Nat × Nat)} t, Matches (.set rs) t → (∀ r, r ∈ rs → (9 ≤ r.1 ∧ r.2 ≤ 13) ∨ (r = (32, 32)) ∨ 128 ≤ r.1) →
      ∀ b, b ∈ t → (9 ≤ b ∧ b ≤ 13) ∨ b = 32 ∨ 128 ≤ b := by
    intro rs t h hr b hb
    cases h with
    | set h1 h2 h3 =>
      rw [List.mem_singleton] at hb
      subst hb
      have := hr _ h1
      simp only [Prod.mk.injEq] at this
      omega
  have hone : ∀ t, Matches .blank t → ∀ b, b ∈ t → (9 ≤ b ∧ b ≤ 13) ∨ b = 32 ∨ 128 ≤ b := by
    intro t ht
    cases ht with
    | left h => exact hset t h (by simp)
    | right h =>
      obtain ⟨x, y, rfl, h1, h2⟩ := Re.seq_iff.1 h
      intro b hb
      rcases List.mem_append.1 hb with hb | hb
      · exact hset x h1 (by simp) b hb
      · exact matches_star (fun t ht => hset t ht (by simp)) h2 b hb
  obtain ⟨x, y, rfl, h1, h2⟩ := Re.seq_iff.1 h
  intro b hb
  rcases List.mem_append.1 hb with hb | hb
  · exact hone x h1 b hb
  · exact matches_star hone h2 b hb

section
variable {lexer : Lexer Nat} (hlex : LexesBy fallLexRules lexer) {n : Nat} {text : List UInt8} {file : File Nat}
  {data : Definition.IncrementalData} (h : (fallDefinition lexer).parse n (text.map UInt8.toNat) = .ok (file, data))
include hlex h

theorem fall_blankSpaces : BlankSpaces ⟨text, file.nodes⟩ := by
  obtain ⟨hf, -⟩ := C60_parsed hlex h
  intro m s hm hs b hb hi
  have hn := ofType_isNode hm
  obtain ⟨r, hr⟩ := range_total hn
  have hlx := fall_token hlex h (m := m) (t := 100) (r := r) hm hr (by decide +kernel) (by decide +kernel)
  rcases hlex.token ((text.map UInt8.toNat).drop r.start) with he | ⟨rule, h1, h2, h3⟩
  · rw [hlx] at he
    cases he
  · rw [hlx] at h2 h3
    have hmem : rule ∈ fallLexRules.filter fun r => r.ty == 100 := by
      rw [List.mem_filter]
      exact ⟨h1, by simpa using h2⟩
    have hone : fallLexRules.filter (fun r => r.ty == 100) = [⟨100, .plus .blank, none⟩] := rfl
    rw [hone, List.mem_singleton] at hmem
    subst hmem
    have h3 : Matches (.plus .blank) (((text.map UInt8.toNat).drop r.start).take (r.stop - r.start)) := h3
    have hrng : rng (⟨text, file.nodes⟩ : File UInt8) m = r := by
      have := hr
      simp only [File.range, data_dat hn, Option.map_some, Option.some.injEq] at this
      exact this
    rw [textOf_eq hf hn, Option.some.injEq, hrng, bytes] at hs
    rw [← List.map_drop, ← List.map_take] at h3
    have hb : b.toNat ∈ ((text.drop r.start).take (r.stop - r.start)).map UInt8.toNat := by
      rw [List.mem_map]
      exact ⟨b, hs ▸ hb, rfl⟩
    have := matches_blank h3 b.toNat hb
    simp only [isInk, Bool.or_eq_true, beq_iff_eq, Bool.and_eq_true, decide_eq_true_eq, bne_iff_ne, ne_eq,
      Bool.not_eq_true', Bool.and_eq_false_iff, decide_eq_false_iff_not, UInt8.lt_iff_toNat_lt, UInt8.le_iff_toNat_le,
      ← UInt8.toNat_inj] at hi
    rw [← UInt8.toNat_inj]
    simp only [UInt8.reduceToNat] at *
    omega

/-- C70. Formatting a parsed grammar does not panic and changes blanks only. -/
theorem C70_fall : ∃ edit out, reformat ⟨text, file.nodes⟩ = some edit ∧ edit.apply (Text.ofBuf text) = some out ∧
    Formatted ⟨text, file.nodes⟩ 0 out ∧ out.filter isInk = text.filter isInk := by
  obtain ⟨hf, -⟩ := C60_parsed hlex h
  obtain ⟨edit, out, h1, h2, h3, -⟩ := C70_reformat ⟨text, file.nodes⟩ hf
  exact ⟨edit, out, h1, h2, h3, C70_ink ⟨text, file.nodes⟩ hf (fall_blankSpaces hlex h) h1 h2⟩

end

/-- The text that a text is formatted to. -/
def formattedText (text : List UInt8) : Option (List UInt8) := do
  let nodes ← parsedNodes 1000 text
  let edit ← reformat ⟨text, nodes⟩
  edit.apply (Text.ofBuf text)

/-- `rule x {< a  >|b}` is formatted to `rule x {<a> | b}`. -/
example : formattedText [114, 117, 108, 101, 32, 120, 32, 123, 60, 32, 97, 32, 32, 62, 124, 98, 125] =
    some [114, 117, 108, 101, 32, 120, 32, 123, 60, 97, 62, 32, 124, 32, 98, 125] := by decide +kernel

/-- C70, counterexample to "formatting a formatted text changes nothing": `rule x { | a }` gets another space each
time, as there is an empty alternative between the space and the `|`. -/
theorem C70_again_counterexample :
    ∃ a b c, formattedText [114, 117, 108, 101, 32, 120, 32, 123, 32, 124, 32, 97, 32, 125] = some a ∧
      formattedText a = some b ∧ formattedText b = some c ∧ a.length < b.length ∧ b.length < c.length :=
  ⟨[114, 117, 108, 101, 32, 120, 32, 123, 32, 32, 124, 32, 97, 32, 125],
   [114, 117, 108, 101, 32, 120, 32, 123, 32, 32, 32, 124, 32, 97, 32, 125],
   [114, 117, 108, 101, 32, 120, 32, 123, 32, 32, 32, 32, 124, 32, 97, 32, 125],
   by decide +kernel, by decide +kernel, by decide +kernel, by decide, by decide⟩

end Fall
