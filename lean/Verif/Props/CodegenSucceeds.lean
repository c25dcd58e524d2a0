import Verif.Props.Codegen
import Verif.Props.FallEditor
import Verif.Lemmas.CodegenTidy

/-!
C79: when the parser generator succeeds.
-/

namespace Fall
open Spec AProg

/-- C79. The generator succeeds exactly if something is written at each rule and all its parts. -/
theorem C79_generates (f : File UInt8) (hf : ConsistentFile f) (hs : Shaped f) (hb : BlockBodies f) :
    (∃ types rules ds, Eval (analysisBody f) (genParser f) (some (some (types, rules))) ds) ↔ MeaningfulRules f :=
  ⟨fun ⟨_, _, _, h⟩ => meaningful_of_gen hf hb h, genParser_total hf hs hb⟩

theorem calcFile_parsed : parsedNodes 2000 calcText = some calcFile.nodes := by decide +kernel

theorem calcFile_shaped : Shaped calcFile := (parsedNodes_shaped calcFile_parsed).2

/-- The sample has a meaning. -/
example : MeaningfulRules calcFile :=
  (C79_generates calcFile calcFile_consistent calcFile_shaped calcFile_blocks).1 ⟨_, _, _, calc_generated⟩

/-- C79. The same for the text of a grammar. -/
theorem C79_text {lexer : Lexer Nat} (hlex : LexesBy fallLexRules lexer) (n : Nat) (text : List UInt8)
    (file : File Nat) (data : Definition.IncrementalData)
    (h : (fallDefinition lexer).parse n (text.map UInt8.toNat) = .ok (file, data)) :
    (∃ types rules ds, Eval (analysisBody ⟨text, file.nodes⟩) (genParser ⟨text, file.nodes⟩)
      (some (some (types, rules))) ds) ↔ MeaningfulRules ⟨text, file.nodes⟩ :=
  C79_generates _ (C60_parsed hlex h).1 (C60_parsed hlex h).2 (C65_parsed hlex n text file data h).2

/-- C79. The syntax of rules and expressions is as the generator expects in all parsed grammars. -/
theorem C79_syntax {lexer : Lexer Nat} (hlex : LexesBy fallLexRules lexer) (n : Nat) (text : List UInt8)
    (file : File Nat) (data : Definition.IncrementalData)
    (h : (fallDefinition lexer).parse n (text.map UInt8.toNat) = .ok (file, data)) : RuleSyntax ⟨text, file.nodes⟩ := by
  have hf := (C60_parsed hlex h).1
  refine ⟨fun r hr => C64_fall_declarations hlex h r 132 (by decide) hr, (C65_parsed hlex n text file data h).2,
    fun m c hm hc hce => ?_, fun m hm => ?_⟩
  · have bars : NoChild file 137 [135, 137, 138, 139, 140] :=
      fall_without hlex h (P := (137 == ·)) 0xfe51998000000000000069b001c0003ff20000000003c01ec0 (by decide +kernel)
        (fun hE => by cases hE) (by decide +kernel) 137 rfl
    have no : ∀ t, OfType ⟨text, file.nodes⟩ t c → t ∉ [135, 137, 138, 139, 140] := fun t ht hmem => bars m c t hm hc ht hmem
    rcases exprType hce with g | g | g | g | g | g
    · exact absurd (by decide) (no _ g)
    · exact g
    all_goals exact absurd (by decide) (no _ g)
  · obtain ⟨-, -, -, -, -, -, -, -, c1, c2, -⟩ := C64_fall_child hlex h
    obtain ⟨c, t, hc, hty, ht⟩ : ∃ c t, Child file m c ∧ file.ty c = some t ∧ t ∈ [135, 136, 137, 138, 139, 140] := by
      rcases hm with hm | hm
      · exact c1 m hm
      · exact c2 m hm
    have he : IsExpr (⟨text, file.nodes⟩ : File UInt8) c := by
      refine ⟨t, hty, ?_⟩
      simp only [List.mem_cons, List.not_mem_nil, or_false] at ht
      rcases ht with rfl | rfl | rfl | rfl | rfl | rfl <;> rfl
    obtain ⟨cs, hcs, hm'⟩ := hc
    obtain ⟨b, hb⟩ := first_exists (P := IsExpr (⟨text, file.nodes⟩ : File UInt8)) ⟨c, hm', he⟩
    exact ⟨b, cs, hcs, hb⟩

/-- C79. If a grammar is tidy and the diagnostics of the analysis are only warnings, the generator succeeds. -/
theorem C79_no_errors (f : File UInt8) (hf : ConsistentFile f) (hs : Shaped f) (hx : RuleSyntax f) (ht : Tidy f)
    (db : Db Query Value Diagnostic) (ts : List (Task Query Value Diagnostic Unit))
    (h : Reach (SysStep (analysisBody f)) (Db.new, [collectRequests f].map .run) (db, ts))
    (hd : ∀ t ∈ ts, ∃ v, t = .run (.ret v)) (hw : ∀ d ∈ db.diags, d.error = false) :
    ∃ types rules ds, Eval (analysisBody f) (genParser f) (some (some (types, rules))) ds :=
  genParser_total hf hs hx.blocks (meaningful_of_tidy hf hs hx ht fun d hp =>
    hw d ((C59_alone f hf db ts h hd d).2 (.inl hp)))

/-! ## Files without diagnostics -/

/-- The query reports nothing. -/
def quietQuery (f : File UInt8) (q : Query) : Bool :=
  match runFuel (analysisBody f) 100 (analysisBody f q) with
  | some (some _, []) => true
  | _ => false

/-- Nothing is reported about the file. -/
def quietOn (f : File UInt8) : Bool :=
  quietQuery f .allLexRules && quietQuery f .allSynRules && quietQuery f .allContexts && quietQuery f .unusedRules &&
  (List.range f.nodes.length).all fun n =>
    match f.ty n with
    | some 135 => quietQuery f (.resolveRef n)
    | some 140 => quietQuery f (.resolveCall n)
    | some 132 => quietQuery f (.prattVariant n)
    | some 150 => quietQuery f (.astNodeTraits n)
    | _ => true

theorem quietQuery_eval {f : File UInt8} {q : Query} (h : quietQuery f q = true) :
    ∃ v, Eval (analysisBody f) (analysisBody f q) (some v) [] := by
  unfold quietQuery at h
  split at h
  · exact ⟨_, runFuel_eval (by assumption)⟩
  · cases h

theorem quietOn_asked {f : File UInt8} (h : quietOn f = true) {q : Query} (hq : Asked f q) :
    ∃ v, Eval (analysisBody f) (analysisBody f q) (some v) [] := by
  simp only [quietOn, Bool.and_eq_true, List.all_eq_true, List.mem_range] at h
  obtain ⟨⟨⟨⟨h1, h2⟩, h3⟩, h4⟩, h5⟩ := h
  have node : ∀ {n : Nat} {t : NodeType}, OfType f t n → n < f.nodes.length := fun h => ofType_isNode h
  cases q with
  | allLexRules => exact quietQuery_eval h1
  | allSynRules => exact quietQuery_eval h2
  | allContexts => exact quietQuery_eval h3
  | unusedRules => exact quietQuery_eval h4
  | resolveMethod => exact hq.elim
  | resolveRef n | resolveCall n | prattVariant n | astNodeTraits n =>
    have hty : OfType f _ n := hq
    have := h5 n (node hty)
    rw [hty] at this
    exact quietQuery_eval this

theorem quietOn_diags {f : File UInt8} (hf : ConsistentFile f) (hq : quietOn f = true) {db : Db Query Value Diagnostic}
    {ts : List (Task Query Value Diagnostic Unit)}
    (h : Reach (SysStep (analysisBody f)) (Db.new, [collectRequests f].map .run) (db, ts))
    (hd : ∀ t ∈ ts, ∃ v, t = .run (.ret v)) : db.diags = [] := by
  obtain ⟨log, -, h2, h3, h4⟩ := C49_diagnostics _ _ _ _ h
  rw [h4, List.flatMap_eq_nil_iff]
  rintro ⟨q, ds⟩ hm
  obtain ⟨v, hv, he⟩ := h3 q ds hm
  obtain ⟨v', he'⟩ := quietOn_asked hq ((cached_asked hf h hd q).1 ⟨v, hv⟩)
  exact (Eval.det he he').2

/-- The grammar parses, nothing is reported about it, and the generator ends in this way. -/
def EndsQuietly (text : List UInt8) (o : Option (Option Unit)) : Prop :=
  ∃ file data, (fallDefinition (ruleLexer fallLexRules)).parse 1000 (text.map UInt8.toNat) = .ok (file, data) ∧
    (∀ db ts, Reach (SysStep (analysisBody ⟨text, file.nodes⟩)) (Db.new, [collectRequests ⟨text, file.nodes⟩].map .run)
      (db, ts) → (∀ t ∈ ts, ∃ v, t = .run (.ret v)) → db.diags = []) ∧
    ∃ r ds, Eval (analysisBody ⟨text, file.nodes⟩) (genParser ⟨text, file.nodes⟩) r ds ∧
      r.map (·.map fun _ => ()) = o

/-- Computes how the generator ends, if nothing is reported. -/
def endsQuietly (text : List UInt8) : Option (Option (Option Unit)) :=
  match parsedNodes 1000 text with
  | some nodes =>
    if quietOn ⟨text, nodes⟩ then
      (runFuel (analysisBody ⟨text, nodes⟩) 1000 (genParser ⟨text, nodes⟩)).map fun r => r.1.map (·.map fun _ => ())
    else none
  | none => none

theorem endsQuietly_sound {text : List UInt8} {o : Option (Option Unit)} (h : endsQuietly text = some o) :
    EndsQuietly text o := by
  unfold endsQuietly at h
  split at h
  · rename_i nodes hn
    have hf := (parsedNodes_shaped hn).1
    obtain ⟨file, data, h1, rfl⟩ := parsedNodes_parse hn
    split at h
    · rename_i hq
      rw [Option.map_eq_some_iff] at h
      obtain ⟨⟨r, ds⟩, h2, rfl⟩ := h
      exact ⟨file, data, h1, fun db ts => quietOn_diags hf hq, r, ds, runFuel_eval h2, rfl⟩
    · cases h
  · cases h

/-- Without a space in the commit, the first grammar of the counterexample is generated. -/
example : EndsQuietly (ascii "tokenizer{n'n'}pub rule f{'n'<commit>}") (some (some ())) :=
  endsQuietly_sound (by decide +kernel)

/-- C79, counterexample to "the generator succeeds if nothing is reported": a grammar for each condition of `Tidy`.
The commits `< commit>` and `<not<commit>>` are not recognised; a rule that replaces others is not public; `prev_is`
with a rule whose `type` does not exist; an operator is a commit; a rule without a body: the generator panics. The
text of a contextual token is a raw string; an alternative is no operator: the generator gives an error. -/
theorem C79_unreported_counterexample :
    EndsQuietly (ascii "tokenizer{n'n'}pub rule f{'n'< commit>}") none ∧
    EndsQuietly (ascii "tokenizer{n'n'}pub rule f{<not<commit>>}") none ∧
    EndsQuietly (ascii "tokenizer{n'n'}pub rule f{g}#[replaces]rule g{'n'}") none ∧
    EndsQuietly (ascii "tokenizer{n'n'}pub rule f{<prev_is g>g}#[type(x)]pub rule g{'n'}") none ∧
    EndsQuietly (ascii ("tokenizer{n'n'}pub rule f{e}#[pratt]rule e{a|b}#[atom]pub rule a{'n'}" ++
      "#[postfix]pub rule b{e<commit>}")) none ∧
    EndsQuietly (ascii "tokenizer{n'n'}pub rule f") none ∧
    EndsQuietly (ascii "tokenizer{#[contextual]n r\"n\"}pub rule f{n}") (some none) ∧
    EndsQuietly (ascii "tokenizer{n'n'}pub rule f{e}#[pratt]rule e{a}pub rule a{'n'}") (some none) := by
  refine ⟨endsQuietly_sound ?_, endsQuietly_sound ?_, endsQuietly_sound ?_, endsQuietly_sound ?_, endsQuietly_sound ?_,
    endsQuietly_sound ?_, endsQuietly_sound ?_, endsQuietly_sound ?_⟩ <;> decide +kernel

/-! ## The sample is tidy -/

theorem calc_no_attr {r a : Nat} {name : String} (hn : IsNode calcFile r)
    (h : ((List.range calcFile.nodes.length).all fun r => calcFile.hasAttr r (ascii name) == some false) = true) :
    ¬ Attribute calcFile r name a := by
  intro ha
  have := List.all_eq_true.1 h r (List.mem_range.2 hn)
  have := (hasAttr_eval calcFile_consistent hn (by simpa using this)).2 ⟨a, ha⟩
  cases this

theorem calc_refers {ref rule : Nat} {ds : List Diagnostic} (hn : IsNode calcFile ref)
    (h : Eval (analysisBody calcFile) (resolveRef calcFile ref) (some (some (.rule rule))) ds) :
    RefersTo calcFile ref (some (.rule rule)) := by
  obtain ⟨s, r, h1, h2, h3, -⟩ := C50_resolve calcFile calcFile_consistent ref hn _ ds h
  exact ⟨s, r, h1, h2, h3⟩

theorem calc_attr {r : Nat} {name : String} (hn : IsNode calcFile r) (h : calcFile.hasAttr r (ascii name) = some true) :
    ∃ a, Attribute calcFile r name a := (hasAttr_eval calcFile_consistent hn h).1 rfl

theorem calc_makes {r : Nat} (hn : IsNode calcFile r) {s : List UInt8} (h : calcFile.tyName r = some (some s)) :
    MakesNodes calcFile r s := (tyName_eval calcFile_consistent hn h s).1 rfl

theorem calcFile_tidy : Tidy calcFile where
  body r hr := by
    have hn : IsNode calcFile r := ofType_isNode hr
    have key : ((List.range calcFile.nodes.length).all fun r =>
      calcFile.ty r != some 132 || (calcFile.ruleBody r).isSome) = true := by decide +kernel
    have := List.all_eq_true.1 key r (List.mem_range.2 hn)
    rw [show calcFile.ty r = some 132 from hr] at this
    obtain ⟨b, hb⟩ := Option.isSome_iff_exists.1 (by simpa using this)
    exact ⟨b, (ruleBody_iff calcFile_consistent hn).1 hb⟩
  type r a s hr ha := absurd ha (calc_no_attr (ofType_isNode hr) (by decide +kernel))
  replaces r a hr ha := absurd ha (calc_no_attr (ofType_isNode hr) (by decide +kernel))
  commit c hc hi := by
    have hn : IsNode calcFile c := ofType_isNode hc
    have key : ((List.range calcFile.nodes.length).all fun c =>
      calcFile.ty c != some 140 || calcFile.childText c Ty.ident != some (ascii "commit") || c == 29) = true := by
      decide +kernel
    have := List.all_eq_true.1 key c (List.mem_range.2 hn)
    rw [show calcFile.ty c = some 140 from hc, (ident_iff calcFile_consistent hn).2 hi] at this
    have e : c = 29 := by simpa using this
    subst e
    exact ⟨by unfold IsCommit; decide +kernel, 21, ⟨[22, 29, 33], by decide +kernel, by simp⟩,
      by unfold OfType; decide +kernel⟩
  contextual t a ht ha := absurd ha (calc_no_attr (ofType_isNode ht) (by decide +kernel))
  operators r a b alt hr ha hb hc he := by
    have hn : IsNode calcFile r := ofType_isNode hr
    have key : ((List.range calcFile.nodes.length).all fun r =>
      calcFile.hasAttr r (ascii "pratt") == some false || r == 61) = true := by decide +kernel
    have := List.all_eq_true.1 key r (List.mem_range.2 hn)
    simp only [Bool.or_eq_true, beq_iff_eq] at this
    rcases this with h | rfl
    · have := (hasAttr_eval calcFile_consistent hn h).2 ⟨a, ha⟩
      cases this
    · have hb' := (ruleBody_iff calcFile_consistent hn).2 hb
      have : calcFile.ruleBody 61 = some 71 := by decide +kernel
      rw [this, Option.some.injEq] at hb'
      subst hb'
      obtain ⟨cs, hcs, hm⟩ := hc
      rw [show calcFile.children 71 = some [72, 73, 76, 77, 80] by decide +kernel, Option.some.injEq] at hcs
      subst hcs
      have no : ∀ {t : NodeType}, calcFile.ty alt = some t → FallExpr t = false → False := by
        intro t h1 h2
        obtain ⟨t', h3, h4⟩ := he
        rw [h1, Option.some.injEq] at h3
        subst h3
        rw [h2] at h4
        cases h4
      have first : ∀ {n c : Nat}, IsNode calcFile n → calcFile.ruleBody n = some c → FirstChild calcFile n (IsExpr calcFile) c :=
        fun hn h => (ruleBody_iff calcFile_consistent hn).1 h
      simp only [List.mem_cons, List.not_mem_nil, or_false] at hm
      rcases hm with rfl | rfl | rfl | rfl | rfl
      · exact (no (t := 119) (by decide +kernel) rfl).elim
      · obtain ⟨a', ha'⟩ := calc_attr (r := 81) (name := "atom") (by unfold IsNode; decide +kernel) (by decide +kernel)
        exact ⟨81, ascii "a", "atom", a', ⟨by unfold OfType; decide +kernel, 74,
          first (by unfold IsNode; decide +kernel) (by decide +kernel), by unfold OfType; decide +kernel,
          calc_refers (ds := []) (by unfold IsNode; decide +kernel) (runFuel_eval (n := 100) (by decide +kernel))⟩,
          calc_makes (by unfold IsNode; decide +kernel) (by decide +kernel), by simp [operatorKinds], ha'⟩
      · exact (no (t := 112) (by decide +kernel) rfl).elim
      · obtain ⟨a', ha'⟩ := calc_attr (r := 99) (name := "bin") (by unfold IsNode; decide +kernel) (by decide +kernel)
        exact ⟨99, ascii "b", "bin", a', ⟨by unfold OfType; decide +kernel, 78,
          first (by unfold IsNode; decide +kernel) (by decide +kernel), by unfold OfType; decide +kernel,
          calc_refers (ds := []) (by unfold IsNode; decide +kernel) (runFuel_eval (n := 100) (by decide +kernel))⟩,
          calc_makes (by unfold IsNode; decide +kernel) (by decide +kernel), by simp [operatorKinds], ha'⟩
      · exact (no (t := 120) (by decide +kernel) rfl).elim
  operatorParts q kind a b alt c hq hk _ hb h1 h2 hc := by
    have hn := child_isNode calcFile_consistent h2
    have key : ((List.range calcFile.nodes.length).all fun c =>
      calcFile.textOf c != some (ascii "<commit>") || c == 29) = true := by decide +kernel
    have := List.all_eq_true.1 key c (List.mem_range.2 hn)
    rw [show calcFile.textOf c = some (ascii "<commit>") from hc] at this
    have e : c = 29 := by simpa using this
    subst e
    cases child_unique calcFile_consistent h2 (q := 21) ⟨[22, 29, 33], by decide +kernel, by simp⟩
    cases child_unique calcFile_consistent h1 (q := 19) ⟨[20, 21, 37], by decide +kernel, by simp⟩
    cases child_unique calcFile_consistent (firstChild_child hb).1 (q := 13)
      ⟨[14, 15, 16, 17, 18, 19], by decide +kernel, by simp⟩
    obtain ⟨pre, post, e, ha, -⟩ := hk
    have hm : kind ∈ operatorKinds := by simp [e]
    have no : ∀ k ∈ operatorKinds, calcFile.hasAttr 13 (ascii k) = some false := by decide +kernel
    have := (hasAttr_eval calcFile_consistent (ofType_isNode hq) (no kind hm)).2 ⟨a, ha⟩
    cases this

/-- The sample meets the hypotheses: its diagnostics can be collected. -/
example : ∃ db, Reach (SysStep (analysisBody calcFile)) (Db.new, [collectRequests calcFile].map .run)
      (db, [.run (.ret ())]) ∧ (∀ d ∈ db.diags, d.error = false) ∧ RuleSyntax calcFile := by
  obtain ⟨db, h⟩ := C58_together calcFile [collectRequests calcFile] [()] (by simp) fun i p v hp _ => by
    match i with
    | 0 =>
      rw [List.getElem?_cons_zero, Option.some.injEq] at hp
      cases v
      exact ⟨[], hp ▸ runFuel_eval (n := 1000) (by decide +kernel)⟩
    | i + 1 => cases hp
  refine ⟨db, h, ?_, ?_⟩
  · rw [quietOn_diags calcFile_consistent (by decide +kernel) h (by simp)]
    simp
  · obtain ⟨file, data, h1, h2⟩ := parsedNodes_parse calcFile_parsed
    have := C79_syntax (ruleLexer_lexes _) _ _ file data h1
    rw [h2] at this
    exact this

end Fall
