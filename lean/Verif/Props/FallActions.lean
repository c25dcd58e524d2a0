import Verif.Props.Editor
import Verif.Props.FallExtract

/-! Properties of the context actions for grammars. -/

namespace Fall
open Spec

theorem swap_dependable (f : File UInt8) (hf : ConsistentFile f) (isWs : NodeType → Bool) {offset : Nat}
    (h : offset ≤ f.text.length) : Dependable f (f.swap isWs offset) := by
  obtain ⟨c1, c2⟩ := C51_swap f hf isWs offset h
  obtain ⟨res, e, hmem, hpw, -, hnode⟩ := leaves_at hf h
  cases hfi : res.toList.find? fun l => f.textOf l == some [44] with
  | none =>
    rw [List.find?_eq_none] at hfi
    exact .inl (c1 (fun l hl => by simpa using hfi l ((hmem l).2 hl)))
  | some c =>
    rw [find_leftmost hpw] at hfi
    obtain ⟨g1, g2, g3⟩ := hfi
    obtain ⟨d1, d2⟩ := c2 c ⟨⟨(hmem c).1 g1, by simpa using g2⟩, fun y hy r1 r2 e1 e2 => by
      obtain ⟨-, rfl⟩ := isNode_of_range e1
      obtain ⟨-, rfl⟩ := isNode_of_range e2
      exact g3 y ((hmem y).2 hy.1) (by simpa using hy.2)⟩
    by_cases hex : ∃ left right, Around f isWs c left right ∧ f.ty left = f.ty right
    · obtain ⟨left, right, k1, k2⟩ := hex
      obtain ⟨-, m1, edit, out, lr', rr', m2, m3, -⟩ := d1 left right k1 k2
      exact .inr ⟨m1, edit, out, m2, m3⟩
    · exact .inl (d2 (fun left right k1 k2 => hex ⟨left, right, k1, k2⟩))

theorem swapAlternatives_dependable (f : File UInt8) (hf : ConsistentFile f) {offset : Nat}
    (h : offset ≤ f.text.length) : Dependable f (f.swapAlternatives offset) := by
  obtain ⟨c1, c2⟩ := C51_swap_alternatives f hf offset h
  obtain ⟨res, e, hmem, hpw, -, hnode⟩ := leaves_at hf h
  cases hfi : res.toList.find? fun l => f.ty l == some 112 with
  | none =>
    rw [List.find?_eq_none] at hfi
    exact .inl (c1 (fun l hl => by simpa using hfi l ((hmem l).2 hl)))
  | some c =>
    rw [find_leftmost hpw] at hfi
    obtain ⟨g1, g2, g3⟩ := hfi
    obtain ⟨d1, d2⟩ := c2 c ⟨⟨(hmem c).1 g1, by simpa using g2⟩, fun y hy r1 r2 e1 e2 => by
      obtain ⟨-, rfl⟩ := isNode_of_range e1
      obtain ⟨-, rfl⟩ := isNode_of_range e2
      exact g3 y ((hmem y).2 hy.1) (by simpa using hy.2)⟩
    by_cases hex : ∃ p left right, Child f p c ∧ f.ty p = some 137 ∧ Around f (fun ty => !FallExpr ty) c left right
    · obtain ⟨p, left, right, k1, k2, k3⟩ := hex
      obtain ⟨m1, edit, out, lr', rr', m2, m3, -⟩ := d1 p left right k1 k2 k3
      exact .inr ⟨m1, edit, out, m2, m3⟩
    · exact .inl (d2 (fun p left right k1 k2 k3 => hex ⟨p, left, right, k1, k2, k3⟩))

/-- C74. The context actions of a grammar, if extracting a rule does not panic. -/
theorem C74_offered (f : File UInt8) (hf : ConsistentFile f) (isWs : NodeType → Bool) (q : TextRange)
    (hq : q.start ≤ f.text.length) (hx : Dependable f (extractRule f q)) (id : String) :
    ∃ actions res, contextActions f isWs q = some actions ∧ applyContextAction f isWs q id = some res ∧
      actions.Sublist ["Swap", "Swap alternatives", "Extract rule"] ∧
      (id ∈ actions ↔ ∃ edit, res = some edit) ∧
      ∀ edit, res = some edit → ∃ out, edit.apply (Text.ofBuf f.text) = some out := by
  have h1 := swap_dependable f hf isWs hq
  have h2 := swapAlternatives_dependable f hf hq
  have hfind1 : (f.defaultActions isWs).find? (fun a => a.1 == id) =
      if id = "Swap" then some ("Swap", f.swap isWs) else none := by
    simp only [File.defaultActions, List.find?_cons, List.find?_nil]
    by_cases hid : id = "Swap"
    · subst hid; simp
    · have : ("Swap" == id) = false := by simpa using fun h => hid h.symm
      simp [this, hid]
  have hfind2 : (fallActions f).find? (fun a => a.1 == id) =
      if id = "Swap alternatives" then some ("Swap alternatives", fun range apply => f.swapAlternatives range.start apply)
      else if id = "Extract rule" then some ("Extract rule", extractRule f) else none := by
    simp only [fallActions, List.find?_cons, List.find?_nil]
    by_cases hid : id = "Swap alternatives"
    · subst hid; simp
    · have h : ("Swap alternatives" == id) = false := by simpa using fun h => hid h.symm
      by_cases hid' : id = "Extract rule"
      · subst hid'; simp
      · have h' : ("Extract rule" == id) = false := by simpa using fun h => hid' h.symm
        simp [h, h', hid, hid']
  unfold contextActions applyContextAction File.applyDefaultContextAction File.defaultContextActions
  rw [hfind1, hfind2]
  simp only [File.defaultActions, fallActions, List.foldlM_cons, List.foldlM_nil]
  have strings : "Swap" ≠ "Swap alternatives" ∧ "Swap" ≠ "Extract rule" ∧ "Swap alternatives" ≠ "Extract rule" := by
    decide
  rcases h1 with h1 | ⟨h1, e1, o1, h1', h1''⟩ <;> rcases h2 with h2 | ⟨h2, e2, o2, h2', h2''⟩ <;>
    rcases hx with hx | ⟨hx, e3, o3, hx', hx''⟩ <;>
    by_cases i1 : id = "Swap" <;> by_cases i2 : id = "Swap alternatives" <;> by_cases i3 : id = "Extract rule" <;>
    simp_all [ActionResult.intoEdit, List.sublist_cons_self]
  all_goals decide

/-- C74. For a parsed grammar, asking for the context actions and applying one never panics; every action that is
offered gives an edit for the text, and no other action does. -/
theorem C74_fall {lexer : Lexer Nat} (hlex : LexesBy fallLexRules lexer) {n : Nat} {text : List UInt8} {file : File Nat}
    {data : Definition.IncrementalData} (h : (fallDefinition lexer).parse n (text.map UInt8.toNat) = .ok (file, data))
    (q : TextRange) (hq : q.start ≤ q.stop) (hl : q.stop ≤ text.length) (id : String) :
    ∃ actions res, contextActions ⟨text, file.nodes⟩ fallIsWs q = some actions ∧
      applyContextAction ⟨text, file.nodes⟩ fallIsWs q id = some res ∧
      actions.Sublist ["Swap", "Swap alternatives", "Extract rule"] ∧
      (id ∈ actions ↔ ∃ edit, res = some edit) ∧
      ∀ edit, res = some edit → ∃ out, edit.apply (Text.ofBuf text) = some out := by
  obtain ⟨hf, -⟩ := C60_parsed hlex h
  refine C74_offered ⟨text, file.nodes⟩ hf fallIsWs q (Nat.le_trans hq hl) ?_ id
  rcases C71_fall hlex h q hq hl with ⟨h1, h2⟩ | ⟨h1, edit, e, rule, r, er, rr, h2, -, -, -, -, -, -, -, -, h3⟩
  · exact .inl fun apply => by cases apply <;> assumption
  · exact .inr ⟨h1, edit, _, h2, h3⟩

/-- The context actions that are offered for a part of a text. -/
def offeredActions (text : List UInt8) (q : TextRange) : Option (List String) := do
  let nodes ← parsedNodes 1000 text
  contextActions ⟨text, nodes⟩ fallIsWs q

set_option maxRecDepth 10000 in
/-- At a pipe, at a comma, and in a reference. -/
example : offeredActions (ascii "rule x {a b|c}") ⟨11, 12⟩ = some ["Swap alternatives", "Extract rule"] ∧
    offeredActions (ascii "rule x(a,b) {}") ⟨8, 8⟩ = some ["Swap"] ∧
    offeredActions (ascii "rule x {a b|c}") ⟨8, 9⟩ = some [] := by decide +kernel

end Fall
