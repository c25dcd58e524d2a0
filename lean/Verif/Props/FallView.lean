import Verif.Lemmas.FallView
import Verif.Lemmas.Codegen
import Verif.Props.Editor
import Verif.Props.FallEditor

/-! Properties of the outline and of the colours of grammars. -/

namespace Fall
open Spec AProg

/-! ## C72: the outline -/

theorem before_range {f : File α} (hc : Consistent f.nodes) {x y : Nat} (h : Before f x y) :
    (rng f x).stop ≤ (rng f y).start := by
  obtain ⟨n, cs, c, d, h1, h2, h3, h4⟩ := h
  have hn : IsNode f n := by
    simp only [File.children, File.data, Option.map_eq_some_iff] at h1
    obtain ⟨dt, h, _⟩ := h1
    exact isNode_of_getElem h
  rw [children_kids hn, Option.some.injEq] at h1
  subst h1
  have hm1 : c ∈ kids f n := h2.subset (by simp)
  have hm2 : d ∈ kids f n := h2.subset (by simp)
  have e1 := desc_range hc h3
  have e2 := desc_range hc h4
  have key : ∀ (cs : List Nat) (a b : Nat), Tiles (cs.map (rng f)) a b → [c, d].Sublist cs →
      (rng f c).stop ≤ (rng f d).start := by
    intro cs
    induction cs with
    | nil => intro _ _ _ h; cases h
    | cons e cs ih =>
      intro a b ht hs
      obtain ⟨g1, g2, g3⟩ := ht
      cases hs with
      | cons _ hs => exact ih _ _ g3 hs
      | cons_cons _ hs => exact (tiles_mem g3 (List.mem_map_of_mem (hs.subset (by simp)))).1
  have := key _ _ _ (kids_tile hc hn (by intro h0; rw [h0] at hm1; cases hm1)) h2
  omega

section
variable {f : File UInt8} (hf : ConsistentFile f)
include hf

theorem top_desc_eq {x y : Nat} (hx : Child f 0 x) (hy : Child f 0 y) (h : Desc f y x) : x = y := by
  rcases desc_cases hf.nodes h with h | ⟨p, h1, h2⟩
  · exact h.symm
  · rw [(child_spec hf.nodes hx).2.2.2, Option.some.injEq] at h1
    subst h1
    have h3 := desc_le hf.nodes h2
    have h4 := (child_spec hf.nodes hy).1
    omega

theorem structureNode_step {n : Nat} (hn : IsNode f n) (acc : List StructureNode) :
    ∃ o : Option StructureNode, structureNode f acc n = some (acc ++ o.toList) ∧ ∀ e, o = some e ↔ Outlined f n e := by
  have ht : OfType f (dat f n).ty n := ty_dat hn
  have same : ∀ {ty}, OfType f ty n → (dat f n).ty = ty := fun h => Option.some.inj (ht.symm.trans h)
  unfold structureNode
  simp only [ty_dat hn, range_rng hn, Option.bind_eq_bind, Option.bind_some]
  by_cases h1 : (dat f n).ty = 132
  · rw [if_pos (show ((dat f n).ty == Ty.synRule) = true from beq_iff_eq.2 h1)]
    rw [h1] at ht
    obtain ⟨o, ho⟩ := ruleName_total hf hn
    have hev := ruleName_eval hf hn ho
    rw [ho, Option.bind_some]
    cases o with
    | none =>
      refine ⟨none, by simp, fun e => ⟨fun h => (by cases h), fun h => ?_⟩⟩
      cases h with
      | rule _ h2 _ => cases (hev _).2 h2
      | tokenizer h2 _ => cases (same h2).symm.trans h1
      | ast h2 _ => cases (same h2).symm.trans h1
    | some s =>
      refine ⟨some ⟨s, rng f n⟩, by simp, fun e => ⟨fun h => ?_, fun h => ?_⟩⟩
      · cases h
        exact .rule ht ((hev s).1 rfl) (range_rng hn)
      · cases h with
        | rule _ h2 h3 =>
          have := (hev _).2 h2
          rw [range_rng hn] at h3
          cases this
          cases h3
          rfl
        | tokenizer h2 _ => cases (same h2).symm.trans h1
        | ast h2 _ => cases (same h2).symm.trans h1
  rw [if_neg (show ¬ ((dat f n).ty == Ty.synRule) = true from fun h => h1 (beq_iff_eq.1 h))]
  by_cases h2 : (dat f n).ty = 141
  · rw [if_pos (show ((dat f n).ty == Ty.tokenizerDef) = true from beq_iff_eq.2 h2)]
    rw [h2] at ht
    refine ⟨some ⟨ascii "tokenizer", rng f n⟩, by simp, fun e => ⟨fun h => ?_, fun h => ?_⟩⟩
    · cases h
      exact .tokenizer ht (range_rng hn)
    · cases h with
      | rule h3 _ _ => cases (same h3).symm.trans h2
      | tokenizer _ h3 =>
        rw [range_rng hn] at h3
        cases h3
        rfl
      | ast h3 _ => cases (same h3).symm.trans h2
  rw [if_neg (show ¬ ((dat f n).ty == Ty.tokenizerDef) = true from fun h => h2 (beq_iff_eq.1 h))]
  by_cases h3 : (dat f n).ty = 149
  · rw [if_pos (show ((dat f n).ty == Ty.astDef) = true from beq_iff_eq.2 h3)]
    rw [h3] at ht
    refine ⟨some ⟨ascii "ast", rng f n⟩, by simp, fun e => ⟨fun h => ?_, fun h => ?_⟩⟩
    · cases h
      exact .ast ht (range_rng hn)
    · cases h with
      | rule h4 _ _ => cases (same h4).symm.trans h3
      | tokenizer h4 _ => cases (same h4).symm.trans h3
      | ast _ h4 =>
        rw [range_rng hn] at h4
        cases h4
        rfl
  rw [if_neg (show ¬ ((dat f n).ty == Ty.astDef) = true from fun h => h3 (beq_iff_eq.1 h))]
  refine ⟨none, by simp, fun e => ⟨fun h => (by cases h), fun h => ?_⟩⟩
  cases h with
  | rule h4 _ _ => exact absurd (same h4) h1
  | tokenizer h4 _ => exact absurd (same h4) h2
  | ast h4 _ => exact absurd (same h4) h3

theorem structure_fold (l : List Nat) (hl : ∀ n, n ∈ l → IsNode f n) (acc : List StructureNode) :
    ∃ entries nodes, l.foldlM (structureNode f) acc = some (acc ++ entries) ∧ nodes.Sublist l ∧
      Pointwise (Outlined f) nodes entries ∧ ∀ n, n ∈ l → ∀ e, Outlined f n e → n ∈ nodes := by
  induction l generalizing acc with
  | nil => exact ⟨[], [], by simp, .slnil, .nil, by simp⟩
  | cons n l ih =>
    obtain ⟨o, h1, h2⟩ := structureNode_step hf (hl n (by simp)) acc
    obtain ⟨entries, nodes, h3, h4, h5, h6⟩ := ih (fun m hm => hl m (by simp [hm])) (acc ++ o.toList)
    cases o with
    | none =>
      refine ⟨entries, nodes, by rw [List.foldlM_cons, h1]; simpa using h3, h4.cons _, h5, fun m hm e he => ?_⟩
      rcases List.mem_cons.1 hm with rfl | hm
      · cases (h2 e).2 he
      · exact h6 m hm e he
    | some e0 =>
      refine ⟨e0 :: entries, n :: nodes, ?_, h4.cons_cons _, .cons ((h2 e0).1 rfl) h5, fun m hm e he => ?_⟩
      · rw [List.foldlM_cons, h1]
        simpa using h3
      · rcases List.mem_cons.1 hm with rfl | hm
        · simp
        · exact List.mem_cons_of_mem _ (h6 m hm e he)

omit hf in
theorem outlined_isNode {n : Nat} {e : StructureNode} (h : Outlined f n e) : IsNode f n := by
  cases h with
  | rule h1 _ _ => exact ofType_isNode h1
  | tokenizer h1 _ => exact ofType_isNode h1
  | ast h1 _ => exact ofType_isNode h1

end

/-- C72. The outline never panics and has exactly one entry for every rule with a name, every tokenizer and every
description of a tree, in the order of the text (and from the inside out). -/
theorem C72_structure (f : File UInt8) (hf : ConsistentFile f) :
    ∃ entries nodes, fileStructure f = some entries ∧ Pointwise (Outlined f) nodes entries ∧ nodes.Nodup ∧
      (∀ n, n ∈ nodes ↔ ∃ e, Outlined f n e) ∧
      nodes.Pairwise (fun x y => (Desc f y x ∧ x ≠ y) ∨ Before f x y) := by
  obtain ⟨l, -, h2, h3, -, h5, h6⟩ := C21_subtree f hf.nodes 0 (root_isNode hf.nodes)
  obtain ⟨entries, nodes, g1, g2, g3, g4⟩ := structure_fold hf l
    (fun n hn => desc_isNode hf.nodes ((h2 n).1 hn) (root_isNode hf.nodes)) []
  refine ⟨entries, nodes, (h6 _ _ _).trans (by simpa using g1), g3, h3.sublist g2, fun n => ⟨fun hn => ?_, ?_⟩,
    h5.sublist g2⟩
  · clear g1 g2 g4
    induction g3 with
    | nil => cases hn
    | cons h _ ih =>
      rcases List.mem_cons.1 hn with rfl | hn
      · exact ⟨_, h⟩
      · exact ih hn
  · rintro ⟨e, he⟩
    exact g4 n ((h2 n).2 (root_desc hf.nodes (outlined_isNode he))) e he

/-- C72. The outline of a parsed grammar lists declarations of the file in the order of the text, and the texts of
different entries do not overlap. -/
theorem C72_fall {lexer : Lexer Nat} (hlex : LexesBy fallLexRules lexer) {n : Nat} {text : List UInt8} {file : File Nat}
    {data : Definition.IncrementalData} (h : (fallDefinition lexer).parse n (text.map UInt8.toNat) = .ok (file, data)) :
    ∃ entries nodes, fileStructure ⟨text, file.nodes⟩ = some entries ∧
      Pointwise (Outlined ⟨text, file.nodes⟩) nodes entries ∧
      (∀ n, n ∈ nodes ↔ ∃ e, Outlined ⟨text, file.nodes⟩ n e) ∧
      (∀ n, n ∈ nodes → Child (⟨text, file.nodes⟩ : File UInt8) 0 n) ∧
      entries.Pairwise (fun a b => a.range.stop ≤ b.range.start) := by
  obtain ⟨hf, -⟩ := C60_parsed hlex h
  have htop := C64_fall_declarations hlex h
  obtain ⟨entries, nodes, h1, h2, h3, h4, h5⟩ := C72_structure ⟨text, file.nodes⟩ hf
  have hch : ∀ n, n ∈ nodes → Child (⟨text, file.nodes⟩ : File UInt8) 0 n := by
    intro n hn
    obtain ⟨e, he⟩ := (h4 n).1 hn
    cases he with
    | rule g _ _ => exact htop n _ (by simp [declarationTypes]) g
    | tokenizer g _ => exact htop n _ (by simp [declarationTypes]) g
    | ast g _ => exact htop n _ (by simp [declarationTypes]) g
  refine ⟨entries, nodes, h1, h2, h4, hch, ?_⟩
  have hrange : ∀ n e, Outlined (⟨text, file.nodes⟩ : File UInt8) n e → e.range = rng ⟨text, file.nodes⟩ n := by
    intro n e he
    have hn := outlined_isNode he
    cases he with
    | rule _ _ g => exact (Option.some.inj ((range_rng hn).symm.trans g)).symm
    | tokenizer _ g => exact (Option.some.inj ((range_rng hn).symm.trans g)).symm
    | ast _ g => exact (Option.some.inj ((range_rng hn).symm.trans g)).symm
  have h5' : nodes.Pairwise (fun x y => (rng (⟨text, file.nodes⟩ : File UInt8) x).stop ≤ (rng ⟨text, file.nodes⟩ y).start) := by
    refine List.Pairwise.imp_of_mem ?_ h5
    intro x y hx hy hxy
    rcases hxy with ⟨g1, g2⟩ | g
    · exact absurd (top_desc_eq hf (hch x hx) (hch y hy) g1) g2
    · exact before_range hf.nodes g
  clear h1 h3 h4 h5 hch htop
  induction h2 with
  | nil => exact .nil
  | cons g1 g2 ih =>
    rw [List.pairwise_cons] at h5'
    refine List.pairwise_cons.2 ⟨fun b hb => ?_, ih h5'.2⟩
    obtain ⟨m, hm, hmb⟩ := g2.mem hb
    rw [hrange _ _ g1, hrange _ _ hmb]
    exact h5'.1 m hm

/-- The outline of a text. -/
def outlineOf (text : List UInt8) : Option (List StructureNode) := do
  let nodes ← parsedNodes 1000 text
  fileStructure ⟨text, nodes⟩

set_option maxRecDepth 10000 in
/-- A rule without a name is not in the outline, and neither are tests. -/
example : outlineOf (ascii "tokenizer { x \"x\" } pub rule a { x } rule { } test \"x\" ast { }") =
    some [⟨ascii "tokenizer", ⟨0, 19⟩⟩, ⟨ascii "a", ⟨20, 36⟩⟩, ⟨ascii "ast", ⟨55, 62⟩⟩] := by decide +kernel

/-! ## C73: the colours -/

theorem coloured_isNode {f : File UInt8} {n : Nat} {r : TextRange} {t : HlTag} (h : Coloured f n r t) : IsNode f n := by
  cases h with
  | error h _ _ => exact ofType_isNode h
  | nothing h _ => exact ofType_isNode h
  | type h _ _ => exact ofType_isNode h
  | token h _ _ => exact ofType_isNode h
  | named h _ _ _ => exact ofType_isNode h
  | ref h _ _ => exact ofType_isNode h
  | accessor h _ _ _ _ => exact ofType_isNode h
  | child h _ _ _ _ => exact ofType_isNode h
  | builtin h _ _ _ _ _ _ _ => exact ofType_isNode h
  | call h _ _ _ _ _ _ _ => exact ofType_isNode h

/-- C73. Highlighting panics exactly if a method of the file may stand for a node without a name; otherwise the shown
spans are exactly the spans of the nodes of the file. -/
theorem C73_highlight (f : File UInt8) (hf : ConsistentFile f) (hs : Shaped f) :
    ((∃ ds, Eval (analysisBody f) (highlight f) none ds) ↔ ∃ n, OfType f 153 n ∧ NamelessItem f n) ∧
    ∀ spans ds, Eval (analysisBody f) (highlight f) (some spans) ds →
      ∀ r t, (r, t) ∈ spans ↔ ∃ n, Coloured f n r t := by
  obtain ⟨l, h1, h2, -, -, -, h6⟩ := C21_subtree f hf.nodes 0 (root_isNode hf.nodes)
  have hl : ∀ n, n ∈ l → IsNode f n := fun n hn => desc_isNode hf.nodes ((h2 n).1 hn) (root_isNode hf.nodes)
  have e : f.bottomUp (fun acc n => some (acc ++ [n])) [] f.root = some l := by
    refine (h6 _ _ _).trans ?_
    have : ∀ (l acc : List Nat), l.foldlM (fun acc n => some (acc ++ [n])) acc = some (acc ++ l) := by
      intro l
      induction l with
      | nil => simp
      | cons a l ih => intro acc; simp [ih]
    simpa using this l []
  have hall : ∀ n, IsNode f n → n ∈ l := fun n hn => (h2 n).2 (root_desc hf.nodes hn)
  unfold highlight
  constructor
  · constructor
    · rintro ⟨ds, h⟩
      rw [eval_bind_any] at h
      rcases h with ⟨_, _, _, h1, h, -⟩ | ⟨-, h⟩
      · rw [e] at h1
        cases (eval_lift.1 h1).1
        obtain ⟨n, -, h⟩ := (hlNodes_panic hf hs hl).1 ⟨_, h⟩
        exact ⟨n, h⟩
      · rw [e] at h
        cases (eval_lift.1 h).1
    · rintro ⟨n, hn, hp⟩
      obtain ⟨ds, h⟩ := (hlNodes_panic hf hs hl).2 ⟨n, hall n (ofType_isNode hn), hn, hp⟩
      exact ⟨ds, eval_bind_any.2 (.inl ⟨l, [], ds, eval_lift.2 ⟨e, rfl⟩, h, rfl⟩)⟩
  · intro spans ds h r t
    rw [eval_bind_some] at h
    obtain ⟨_, _, _, h1, h, -⟩ := h
    rw [e] at h1
    cases (eval_lift.1 h1).1
    rw [hlNodes_mem hf hl h]
    constructor
    · rintro ⟨n, -, h⟩
      exact ⟨n, h⟩
    · rintro ⟨n, h⟩
      exact ⟨n, hall n (coloured_isNode h), h⟩

/-- C73. The same for parsed grammars; highlighting always ends, and the spans are in the text, except that an error
without a text at the end is shown past the end. -/
theorem C73_fall {lexer : Lexer Nat} (hlex : LexesBy fallLexRules lexer) {n : Nat} {text : List UInt8} {file : File Nat}
    {data : Definition.IncrementalData} (h : (fallDefinition lexer).parse n (text.map UInt8.toNat) = .ok (file, data))
    (hp : ∀ m, OfType ⟨text, file.nodes⟩ 153 m → ¬ NamelessItem ⟨text, file.nodes⟩ m) :
    ∃ spans ds, Eval (analysisBody ⟨text, file.nodes⟩) (highlight ⟨text, file.nodes⟩) (some spans) ds ∧
      (∀ r t, (r, t) ∈ spans ↔ ∃ n, Coloured ⟨text, file.nodes⟩ n r t) ∧
      ∀ r t, (r, t) ∈ spans → r.start ≤ r.stop ∧
        (r.stop ≤ text.length ∨ (t = .error ∧ r.start = text.length ∧ r.stop = text.length + 1)) := by
  obtain ⟨hf, hs⟩ := C60_parsed hlex h
  obtain ⟨h1, h2⟩ := C73_highlight ⟨text, file.nodes⟩ hf hs
  obtain ⟨o, ds, ho⟩ := ends_all (f := (⟨text, file.nodes⟩ : File UInt8)) (highlight ⟨text, file.nodes⟩)
  cases o with
  | none =>
    obtain ⟨m, g1, g2⟩ := h1.1 ⟨ds, ho⟩
    exact absurd g2 (hp m g1)
  | some spans =>
    refine ⟨spans, ds, ho, h2 spans ds ho, fun r t hrt => ?_⟩
    obtain ⟨m, hm⟩ := (h2 spans ds ho r t).1 hrt
    have key : ∀ {m : Nat} {r : TextRange}, (⟨text, file.nodes⟩ : File UInt8).range m = some r →
        r.start ≤ r.stop ∧ r.stop ≤ text.length := by
      intro m r hr
      obtain ⟨hn, rfl⟩ := isNode_of_range hr
      exact ⟨rng_valid hf.nodes hn, node_range_le hf hn⟩
    cases hm with
    | error _ g _ => exact ⟨(key g).1, .inl (key g).2⟩
    | @nothing a _ g =>
      have := (key g).2
      refine ⟨Nat.le_succ a, ?_⟩
      dsimp only at this ⊢
      rcases Nat.lt_or_eq_of_le this with h | h
      · exact .inl h
      · exact .inr ⟨rfl, h, by rw [h]⟩
    | type _ _ g => exact ⟨(key g).1, .inl (key g).2⟩
    | token _ _ g => exact ⟨(key g).1, .inl (key g).2⟩
    | named _ _ _ g => exact ⟨(key g).1, .inl (key g).2⟩
    | ref _ _ g => exact ⟨(key g).1, .inl (key g).2⟩
    | accessor _ _ _ _ g => exact ⟨(key g).1, .inl (key g).2⟩
    | child _ _ _ _ g => exact ⟨(key g).1, .inl (key g).2⟩
    | builtin _ _ _ _ _ _ _ g => exact ⟨(key g).1, .inl (key g).2⟩
    | call _ _ _ _ _ _ _ g => exact ⟨(key g).1, .inl (key g).2⟩

set_option maxRecDepth 10000 in
/-- The spans of a rule: the keyword, the parameter, the reference to the parameter, the call of an unknown rule with its
brackets, and the name of the rule. -/
example : ranOn (ascii "rule a(p) { <opt p> a }") highlight = some (some [(⟨0, 4⟩, .keyword), (⟨7, 8⟩, .parameter),
    (⟨17, 18⟩, .parameter), (⟨13, 16⟩, .function), (⟨12, 13⟩, .function), (⟨18, 19⟩, .function), (⟨20, 21⟩, .function),
    (⟨5, 6⟩, .function)]) := by decide +kernel

set_option maxRecDepth 10000 in
/-- C73, counterexample to "highlighting a parsed grammar does not panic": with the text `ast { trait t { x y } node }`.
-/
theorem C73_panics_counterexample :
    ∃ file data, (fallDefinition (ruleLexer fallLexRules)).parse 1000
        ((ascii "ast { trait t { x y } node }").map UInt8.toNat) = .ok (file, data) ∧
      ∃ ds, Eval (analysisBody ⟨ascii "ast { trait t { x y } node }", file.nodes⟩)
        (highlight ⟨ascii "ast { trait t { x y } node }", file.nodes⟩) none ds :=
  ranOn_eval (o := none) (by decide +kernel)

set_option maxRecDepth 10000 in
/-- C73, counterexample to "the spans are in the text": with the text `rule a { b`, of ten bytes, the missing bracket is
shown at the range from 10 to 11. -/
theorem C73_within_counterexample : (ascii "rule a { b").length = 10 ∧ ranOn (ascii "rule a { b") highlight =
      some (some [(⟨0, 4⟩, .keyword), (⟨10, 11⟩, .error), (⟨5, 6⟩, .function)]) := by decide +kernel

end Fall
