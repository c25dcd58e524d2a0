import Verif.Lemmas.FallExtract
import Verif.Props.FallEditor

/-! Properties of the extraction of rules. -/

namespace Fall
open Spec

/-- C71. Extracting a rule is offered exactly if the innermost expression around the selection is not a reference; it
is never a panic to ask. -/
theorem C71_offered (f : File UInt8) (hf : ConsistentFile f) (q : TextRange) (hq : q.start ≤ q.stop)
    (hl : q.stop ≤ f.text.length) : ∃ o, extractRule f q false = some o ∧ (o = none ∨ o = some .available) ∧
      (o = some .available ↔ q.start < q.stop ∧ ∃ e, Selected f q e ∧ ¬ OfType f 135 e) := by
  by_cases hlt : q.start < q.stop
  · have hne : ¬ q.isEmpty = true := by simp only [TextRange.isEmpty, beq_iff_eq]; omega
    obtain ⟨node, as, o, h1, h2, h3, h4⟩ := selected_find hf hlt hl
    have h1 : f.findCoveringNode f.root q = some node := h1
    simp only [extractRule, if_neg hne, h1, h2, h3, Option.bind_eq_bind, Option.bind_some]
    rcases h4 with ⟨rfl, h4⟩ | ⟨e, rfl, h4⟩
    · exact ⟨none, rfl, .inl rfl, by simp, fun ⟨_, e, h, _⟩ => absurd h (h4 e)⟩
    · have he := isExpr_isNode h4.1
      dsimp only
      rw [ty_dat he, Option.bind_some]
      by_cases hr : (dat f e).ty == Ty.refExpr
      · rw [if_pos hr]
        refine ⟨none, rfl, .inl rfl, by simp, fun ⟨_, e', h, h'⟩ => ?_⟩
        rw [selected_unique hf h h4] at h'
        exact absurd ((ty_dat he).trans (congrArg some (eq_of_beq hr))) h'
      · rw [if_neg hr]
        refine ⟨some .available, rfl, .inr rfl, fun _ => ⟨hlt, e, h4, fun h => hr ?_⟩, fun _ => rfl⟩
        exact beq_iff_eq.2 (Option.some.inj ((ty_dat he).symm.trans h))
  · have hne : q.isEmpty = true := by simp only [TextRange.isEmpty, beq_iff_eq]; omega
    refine ⟨none, ?_, .inl rfl, by simp, fun h => absurd h.1 hlt⟩
    simp [extractRule, hne]

/-- C71. What extracting a rule does: the part of the expression that contains the selection is replaced by the name
`new_rule`, and the rule with this name, whose body is that part, is put right after the rule around it. Nothing else
changes. -/
theorem C71_extract (f : File UInt8) (hf : ConsistentFile f) (q : TextRange) (hq : q.start < q.stop)
    (hl : q.stop ≤ f.text.length) {e rule : Nat} (he : Selected f q e) (hne : ¬ OfType f 135 e)
    (hr : EnclosingRule f e rule) {er rr : TextRange} (her : f.range e = some er) (hrr : f.range rule = some rr) :
    ∃ edit r, extractRule f q true = some (some (.applied edit)) ∧
      (∀ r', Piece f q e r' ↔ r' = r) ∧ Within q r ∧ Within r er ∧
        edit.apply (Text.ofBuf f.text) = some (extractedText f.text r rr.stop) := by
  have hc := hf.nodes
  have hnode := isExpr_isNode he.1
  have hnn : ¬ q.isEmpty = true := by simp only [TextRange.isEmpty, beq_iff_eq]; omega
  have hr1 := hr
  obtain ⟨rule', g1, g2⟩ := enclosing_total hf hnode hr
  have g3 := enclosing_eval hf hnode g1
  cases enclosing_unique hf g3.1 hr
  rw [range_rng hnode, Option.some.injEq] at her
  rw [range_rng g2, Option.some.injEq] at hrr
  subst her hrr
  have hw : Within q (rng f e) := by
    obtain ⟨r, h1, h2⟩ := he.2.1
    rw [range_rng hnode, Option.some.injEq] at h1
    exact h1 ▸ h2
  obtain ⟨r, k1, k2, k3, k4⟩ := piece_total hf hq hnode hw
  have hlt : r.start < r.stop := by
    unfold Within at k3
    omega
  have hle := node_range_le hf hnode
  have hrl : r.stop ≤ f.text.length := by
    unfold Within at k4
    omega
  obtain ⟨m, m1, m2, m3, -, m4⟩ := covering_least hf (Nat.le_of_lt hlt) hrl
  have hem := m4 hlt e hnode k4
  have hrm : Desc f rule m := hr.1.trans hem
  have hrne : rule ≠ m := by
    rintro rfl
    have h1 := desc_le hc hem
    have h2 := desc_le hc hr.1
    have h3 : e = rule := Nat.le_antisymm h1 h2
    subst h3
    obtain ⟨ty, h4, h5⟩ := he.1
    rw [show f.ty e = some 132 from hr.2.1] at h4
    cases h4
    cases h5
  have p1 := piece_copy (Text.ofBuf_wf f.text) (Text.asStr_ofBuf f.text) r
  rw [if_pos ⟨Nat.le_of_lt hlt, hrl⟩] at p1
  have hml := node_range_le hf m2
  have p2 := piece_copy (Text.ofBuf_wf f.text) (Text.asStr_ofBuf f.text) ⟨(rng f m).start, r.start⟩
  have p3 := piece_copy (Text.ofBuf_wf f.text) (Text.asStr_ofBuf f.text) ⟨r.stop, (rng f m).stop⟩
  rw [if_pos ⟨m3.1, by dsimp only; omega⟩] at p2
  rw [if_pos ⟨m3.2, hml⟩] at p3
  simp only [TextEditOp.piece, Option.bind_eq_some_iff] at p1 p2 p3
  obtain ⟨t1, a1, a2⟩ := p1
  obtain ⟨t2, b1, b2⟩ := p2
  obtain ⟨t3, c1, c2⟩ := p3
  have hsub : r.isSubrangeOf ⟨0, f.text.length⟩ = true := by simp [TextRange.isSubrangeOf, hrl]
  have hrep : FileEdit.new.replaceSubstring f r (ascii "new_rule") =
      some (FileEdit.new.replaceWithText m
        (bytes f.text (rng f m).start r.start ++ ascii "new_rule" ++ bytes f.text r.stop (rng f m).stop)) := by
    simp only [FileEdit.replaceSubstring, File.root, hf.covers, Option.bind_eq_bind, Option.bind_some, hsub,
      Bool.not_true, Bool.false_eq_true, if_false, m1, range_rng m2, TextRange.fromTo, m3.1, m3.2, if_true, b1, b2, c1,
      c2]
    rfl
  obtain ⟨edit, out, d1, d2, d3⟩ := C22_edit_renders f hf ((FileEdit.new.replaceWithText m
        (bytes f.text (rng f m).start r.start ++ ascii "new_rule" ++ bytes f.text r.stop (rng f m).stop)).insertTextAfter
          rule (newRule (bytes f.text r.start r.stop)))
  have hout := rendered_both hf hrm hrne g2 d2
  refine ⟨edit, r, ?_, fun r' => ⟨fun h => ?_, fun h => h ▸ k2⟩, k3, k4, ?_⟩
  · obtain ⟨node, as, o, h1, h2, h3, h4⟩ := selected_find hf hq hl
    have h1 : f.findCoveringNode f.root q = some node := h1
    rcases h4 with ⟨rfl, h4⟩ | ⟨e', rfl, h4⟩
    · exact absurd he (h4 e)
    · cases selected_unique hf h4 he
      have hty : ¬ ((dat f e).ty == Ty.refExpr) = true :=
        fun h => hne ((ty_dat hnode).trans (congrArg some (eq_of_beq h)))
      simp only [extractRule, if_neg hnn, h1, h2, h3, Option.bind_eq_bind, Option.bind_some, ty_dat hnode, if_neg hty,
        Bool.not_true, Bool.false_eq_true, if_false, extractEdit, g1, k1, a1, a2, hrep, d1, Option.pure_def]
  · exact piece_unique hf hnode h k2
  · rw [d3, hout, extractedText, newRule]
    congr 1
    have e1 : f.text.take r.start = bytes f.text 0 (rng f m).start ++ bytes f.text (rng f m).start r.start := by
      rw [bytes_append_bytes f.text (Nat.zero_le _) m3.1]
      simp [bytes]
    have hrd := desc_range hc hrm
    have e2 : bytes f.text r.stop (rng f rule).stop =
        bytes f.text r.stop (rng f m).stop ++ bytes f.text (rng f m).stop (rng f rule).stop :=
      (bytes_append_bytes f.text m3.2 hrd.2).symm
    have e3 : f.text.drop (rng f rule).stop = bytes f.text (rng f rule).stop f.text.length := by
      have : (f.text.drop (rng f rule).stop).length ≤ f.text.length - (rng f rule).stop := by simp
      simp [bytes, List.take_of_length_le this]
    rw [e1, e2, e3]
    simp only [List.append_assoc]

/-- C71. Extracting a rule panics exactly if the expression is in no rule. -/
theorem C71_panics (f : File UInt8) (hf : ConsistentFile f) (q : TextRange) (hq : q.start ≤ q.stop)
    (hl : q.stop ≤ f.text.length) : extractRule f q true = none ↔
      q.start < q.stop ∧ ∃ e, Selected f q e ∧ ¬ OfType f 135 e ∧ ∀ rule, ¬ EnclosingRule f e rule := by
  by_cases hlt : q.start < q.stop
  · have hne : ¬ q.isEmpty = true := by simp only [TextRange.isEmpty, beq_iff_eq]; omega
    constructor
    · intro h
      refine ⟨hlt, ?_⟩
      obtain ⟨node, as, o, h1, h2, h3, h4⟩ := selected_find hf hlt hl
      have h1 : f.findCoveringNode f.root q = some node := h1
      rcases h4 with ⟨rfl, h4⟩ | ⟨e, rfl, h4⟩
      · simp only [extractRule, if_neg hne, h1, h2, h3, Option.bind_eq_bind, Option.bind_some] at h
        cases h
      · have he := isExpr_isNode h4.1
        have href : ¬ OfType f 135 e := by
          intro hr
          have hr' : ((dat f e).ty == Ty.refExpr) = true := beq_iff_eq.2 (Option.some.inj ((ty_dat he).symm.trans hr))
          simp only [extractRule, if_neg hne, h1, h2, h3, Option.bind_eq_bind, Option.bind_some, ty_dat he,
            if_pos hr'] at h
          cases h
        refine ⟨e, h4, href, fun rule hr => ?_⟩
        obtain ⟨rr, hrr⟩ := range_total (desc_isNode' hf hr.1 he)
        obtain ⟨edit, r, h5, -⟩ := C71_extract f hf q hlt hl h4 href hr (range_rng he) hrr
        rw [h] at h5
        cases h5
    · rintro ⟨-, e, h4, href, hno⟩
      have he := isExpr_isNode h4.1
      obtain ⟨node, as, o, h1, h2, h3, h5⟩ := selected_find hf hlt hl
      have h1 : f.findCoveringNode f.root q = some node := h1
      rcases h5 with ⟨rfl, h5⟩ | ⟨e', rfl, h5⟩
      · exact absurd h4 (h5 e)
      · cases selected_unique hf h5 h4
        have hty : ¬ ((dat f e).ty == Ty.refExpr) = true :=
          fun h => href ((ty_dat he).trans (congrArg some (eq_of_beq h)))
        obtain ⟨res, g1, -, -⟩ := astAncestor_spec hf.nodes he (· == Ty.synRule)
        have g2 := enclosing_eval hf he g1
        cases res with
        | some r => exact absurd g2.1 (hno r)
        | none =>
          simp only [extractRule, if_neg hne, h1, h2, h3, Option.bind_eq_bind, Option.bind_some, ty_dat he, if_neg hty,
            Bool.not_true, Bool.false_eq_true, if_false, extractEdit, g1, Option.bind_none]
  · have hne : q.isEmpty = true := by simp only [TextRange.isEmpty, beq_iff_eq]; omega
    simp [extractRule, hne, hlt]

/-- A block that is the root of its tree: the panic. -/
example : extractRule ⟨[123, 125], [⟨137, none, [], ⟨0, 2⟩⟩]⟩ ⟨0, 1⟩ true = none := by decide

section
variable {lexer : Lexer Nat} (hlex : LexesBy fallLexRules lexer) {n : Nat} {text : List UInt8} {file : File Nat}
  {data : Definition.IncrementalData} (h : (fallDefinition lexer).parse n (text.map UInt8.toNat) = .ok (file, data))
include hlex h

/-- C71. In a parsed grammar extracting a rule does not panic, and it is applied wherever it is offered: the text
changes as told in `C71_extract`. -/
theorem C71_fall (q : TextRange) (hq : q.start ≤ q.stop) (hl : q.stop ≤ text.length) :
    (extractRule ⟨text, file.nodes⟩ q false = some none ∧ extractRule ⟨text, file.nodes⟩ q true = some none) ∨
      (extractRule ⟨text, file.nodes⟩ q false = some (some .available) ∧
        ∃ edit e rule r er rr, extractRule ⟨text, file.nodes⟩ q true = some (some (.applied edit)) ∧
          Selected ⟨text, file.nodes⟩ q e ∧ EnclosingRule ⟨text, file.nodes⟩ e rule ∧
          file.range e = some er ∧ file.range rule = some rr ∧
          Piece ⟨text, file.nodes⟩ q e r ∧ Within q r ∧ Within r er ∧ Within er rr ∧
          edit.apply (Text.ofBuf text) = some (extractedText text r rr.stop)) := by
  obtain ⟨hf, -⟩ := C60_parsed hlex h
  have hc := hf.nodes
  obtain ⟨o, h1, h2, h3⟩ := C71_offered ⟨text, file.nodes⟩ hf q hq hl
  rcases h2 with rfl | rfl
  · refine .inl ⟨h1, ?_⟩
    cases h4 : extractRule ⟨text, file.nodes⟩ q true with
    | none =>
      obtain ⟨h5, e, h6, h7, -⟩ := (C71_panics ⟨text, file.nodes⟩ hf q hq hl).1 h4
      exact absurd (h3.2 ⟨h5, e, h6, h7⟩) (by simp)
    | some o =>
      by_cases hlt : q.start < q.stop
      · have hne : ¬ q.isEmpty = true := by simp only [TextRange.isEmpty, beq_iff_eq]; omega
        obtain ⟨node, as, o', g1, g2, g3, g4⟩ := selected_find hf hlt hl
        have g1 : File.findCoveringNode (⟨text, file.nodes⟩ : File UInt8) (File.root ⟨text, file.nodes⟩) q = some node := g1
        simp only [extractRule, if_neg hne, g1, g2, g3, Option.bind_eq_bind, Option.bind_some] at h4 h1
        rcases g4 with ⟨rfl, g4⟩ | ⟨e, rfl, g4⟩
        · cases h4
          rfl
        · have he := isExpr_isNode g4.1
          dsimp only at h4 h1
          rw [ty_dat he, Option.bind_some] at h4 h1
          split at h4
          · cases h4
            rfl
          · rename_i hr
            rw [if_neg hr] at h1
            cases h1
      · have hne : q.isEmpty = true := by simp only [TextRange.isEmpty, beq_iff_eq]; omega
        simp only [extractRule, if_pos hne] at h4
        cases h4
        rfl
  · obtain ⟨hlt, e, h4, h5⟩ := h3.1 rfl
    have he := isExpr_isNode h4.1
    have hin : ∃ a, Desc (⟨text, file.nodes⟩ : File UInt8) a e ∧ OfType ⟨text, file.nodes⟩ 132 a := by
      obtain ⟨ty, h6, h7⟩ := h4.1
      simp only [FallExpr, decide_eq_true_eq] at h7
      have key : ∀ t : Nat, 135 ≤ t ∧ t ≤ 140 → t ∈ [135, 136, 137, 138, 139, 140] := by
        intro t ht
        simp only [List.mem_cons, List.not_mem_nil, or_false]
        omega
      obtain ⟨a, h8, h9⟩ := (C64_fall_within hlex h).1 ty (key ty h7) e h6
      exact ⟨a, desc_of_nodes h8, h9⟩
    obtain ⟨res, g1, -, g3⟩ := astAncestor_spec hc he (· == Ty.synRule)
    have g2 := enclosing_eval hf he g1
    cases res with
    | none =>
      obtain ⟨a, h6, h7⟩ := hin
      have := g3 rfl a 132 h6 h7
      cases this
    | some rule =>
      have hrule := g2.2
      have her := range_rng he
      have hrr := range_rng hrule
      obtain ⟨edit, r, k1, k2, k3, k4, k5⟩ := C71_extract ⟨text, file.nodes⟩ hf q hlt hl h4 h5 g2.1 her hrr
      exact .inr ⟨h1, edit, e, rule, r, _, _, k1, h4, g2.1, her, hrr, (k2 r).2 rfl, k3, k4, desc_range hc g2.1.1, k5⟩

end

/-- The text after extracting a rule. -/
def extracted (text : List UInt8) (q : TextRange) : Option (List UInt8) := do
  let nodes ← parsedNodes 1000 text
  match ← extractRule ⟨text, nodes⟩ q true with
  | some (.applied edit) => edit.apply (Text.ofBuf text)
  | _ => none

set_option maxRecDepth 10000 in
/-- `rule x {a b c}` with `a b` selected. -/
example : extracted (ascii "rule x {a b c}") ⟨8, 11⟩ =
    some (ascii "rule x {new_rule c}\n\nrule new_rule {\n  a b\n}") := by decide +kernel

set_option maxRecDepth 10000 in
/-- C71, counterexample to "only the expressions in the selection are extracted": with the space before `b c` selected,
too, it is all of the sequence. -/
theorem C71_selection_counterexample : extracted (ascii "rule x {a b c}") ⟨9, 13⟩ =
    some (ascii "rule x {new_rule}\n\nrule new_rule {\n  a b c\n}") := by decide +kernel

set_option maxRecDepth 10000 in
/-- C71, counterexample to "the new name is new": extracting twice makes two rules with the same name. -/
theorem C71_name_counterexample : ∃ a, extracted (ascii "rule x {a b c}") ⟨8, 11⟩ = some a ∧ extracted a ⟨8, 18⟩ =
    some (ascii "rule x {new_rule}\n\nrule new_rule {\n  new_rule c\n}\n\nrule new_rule {\n  a b\n}") :=
  ⟨ascii "rule x {new_rule c}\n\nrule new_rule {\n  a b\n}", by decide +kernel, by decide +kernel⟩

end Fall
