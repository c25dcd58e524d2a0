import Verif.Lemmas.CodegenUnique
import Verif.Lemmas.SynRename
import Verif.Props.CodegenSample
import Verif.Props.AnalysisSafe
import Verif.Props.Syn
import Verif.Props.Total
import Verif.Model.Grammars
import Verif.Lemmas.LexRules

/-!
C65-C67: the parser generator.
-/

namespace Fall

open Spec AProg

/-! ## C65: the generator translates the grammar -/

/-- C65. The rules that the generator makes say what is written in the grammar. There are nodes for the rules such
that the first rules are for the rules of the grammar in their order, and each rule is what is written at its node, if
references are read as references to nodes. No reference dangles. -/
theorem C65_translates (f : File UInt8) (hf : ConsistentFile f) (hb : BlockBodies f)
    (types : List (List UInt8 × Bool)) (rules : List Expr) (ds : List Diagnostic)
    (h : Eval (analysisBody f) (genParser f) (some (some (types, rules))) ds) :
    ∃ φ : Nat → NodeId,
      (∃ rs, ChildrenWith f 0 (OfType f 132) rs ∧ rs.length ≤ rules.length ∧ ∀ i r, rs[i]? = some r → φ i = r) ∧
      ∀ i e, rules[i]? = some e → (∀ r ∈ references e, r < rules.length) ∧ Says f (φ i) (rename φ e) := by
  obtain ⟨_, rs, lab, hrs, hl, hr⟩ := genParser_gives hf hb h
  have hlen := hl.below
  refine ⟨labelOf lab, ⟨rs, synRules_children hf hrs, hl.len ▸ hlen, ?_⟩, ?_⟩
  · intro i r hi
    have hi' : i < rs.length := (List.getElem?_eq_some_iff.1 hi).1
    rw [labelOf_prefix hl.rules hi']
    simp [labelOf, hi]
  · intro i e he
    by_cases hi : i < rs.length
    · have := hr i e hi he
      rw [hl.len] at this
      exact this
    · obtain ⟨g1, g2⟩ := hl.good i e (by omega) he
      refine ⟨fun r hr => ?_, g2⟩
      have hie : i < rules.length := (List.getElem?_eq_some_iff.1 he).1
      have := hl.len
      rcases g1 r hr with h | h <;> omega

/-- C65. At most one thing is written at a node. -/
theorem C65_unambiguous (f : File UInt8) (hf : ConsistentFile f) (n : NodeId) (e e' : Expr) (h : Says f n e)
    (h' : Says f n e') : e = e' := says_unique hf h h'

theorem says_isNode {f : File UInt8} (hf : ConsistentFile f) {n : NodeId} {e : Expr} (h : Says f n e) : IsNode f n := by
  have attr : ∀ {r a : Nat} {s : String}, Attribute f r s a → IsNode f a := by
    intro r a s h
    exact ofType_isNode (attribute_type h).1
  cases h with
  | table _ h => exact attr h
  | memory _ h => exact attr h
  | _ => exact ofType_isNode ‹_›

/-- C65. A grammar with at least one rule can be read. -/
theorem C65_readable (f : File UInt8) (hf : ConsistentFile f) (r : NodeId) (hr : FirstChild f 0 (OfType f 132) r)
    (nodeTypes : List NodeType) : ∃ w, Written f w ∧ w.nodeTypes = nodeTypes := by
  classical
  refine ⟨⟨nodeTypes, (List.range f.nodes.length).map fun n =>
    if h : ∃ e, Says f n e then h.choose else .any, r⟩, ⟨?_, r, hr, rfl⟩, rfl⟩
  intro n e hs
  have hn : n < f.nodes.length := says_isNode hf hs
  have he : ∃ e, Says f n e := ⟨e, hs⟩
  simp only [List.getElem?_map, List.getElem?_range hn, Option.map_some, dif_pos he, Option.some.injEq]
  exact says_unique hf he.choose_spec hs

/-- Examples: the rules of the sample, whose first rule is for the node 13. -/
theorem calc_rules : ChildrenWith calcFile 0 (OfType calcFile 132) [13, 38, 61, 81, 99] :=
  synRules_children calcFile_consistent (by decide +kernel)

theorem calc_first : FirstChild calcFile 0 (OfType calcFile 132) 13 :=
  (firstChild_some calcFile_consistent (zero_isNode calcFile_consistent) 132 (o := some 13)).1 (by decide +kernel)

theorem calc_says : ∃ φ : Nat → NodeId, (∀ i r, [13, 38, 61, 81, 99][i]? = some r → φ i = r) ∧
    ∀ i e, calcRules[i]? = some e → Says calcFile (φ i) (rename φ e) := by
  obtain ⟨φ, ⟨rs, h1, _, h2⟩, h3⟩ := C65_translates calcFile calcFile_consistent calcFile_blocks _ _ _ calc_generated
  cases childrenWith_unique calcFile_consistent (zero_isNode calcFile_consistent) h1 calc_rules
  exact ⟨φ, h2, fun i e he => (h3 i e he).2⟩

/-- At the node of the rule `e` there is a table with the atom `a` and the operator of `b`. -/
example : ∃ op, Says calcFile 61 (.pratt ⟨[81], [], [⟨5, op, 1, true⟩]⟩) ∧ Says calcFile op (.token 2) := by
  obtain ⟨φ, h1, h2⟩ := calc_says
  have h := h2 2 _ rfl
  rw [h1 2 61 rfl] at h
  simp only [rename, renameTable, List.map_cons, List.map_nil, h1 3 81 rfl] at h
  exact ⟨φ 13, h, h2 13 _ rfl⟩

example : ∃ w, Written calcFile w ∧ w.nodeTypes = [0, 1, 2, 3, 4, 5] :=
  C65_readable calcFile calcFile_consistent 13 calc_first _

/-- The text of the grammar `sexp.fall` (`fall/test/src/sexp.fall`). -/
def sexpGrammarText : List UInt8 :=
  ascii ("tokenizer {\n  #[skip] whitespace r\"\\s+\"\n\n  lparen     '('\n  rparen     ')'\n" ++
    "  atom       r\"\\w+\"\n}\n\npub rule file { sexp* }\n\nrule sexp { atom | list }\n" ++
    "pub rule list { '(' sexp* ')' }\n")

/-- Parse a grammar and generate the rules of its parser. -/
def generatedFrom (text : List UInt8) : Option (List Expr) :=
  match (fallDefinition (ruleLexer fallLexRules)).parse 1000 (text.map (·.toNat)) with
  | .ok (file, _) =>
    match runFuel (analysisBody ⟨text, file.nodes⟩) 1000 (genParser ⟨text, file.nodes⟩) with
    | some (some (some (_, rules)), _) => some rules
    | _ => none
  | _ => none

/-- For `sexp.fall` the generator makes the rules that are checked in (`fall/test/src/sexp.rs`). -/
example : generatedFrom sexpGrammarText = some sexpRules := by decide +kernel

/-- C65. The files of which these theorems speak are all those that the parser of grammars makes. -/
theorem C65_parsed {lexer : Lexer Nat} (hlex : LexesBy fallLexRules lexer) (n : Nat) (text : List UInt8)
    (file : File Nat) (data : Definition.IncrementalData)
    (h : (fallDefinition lexer).parse n (text.map UInt8.toNat) = .ok (file, data)) :
    ConsistentFile (⟨text, file.nodes⟩ : File UInt8) ∧ BlockBodies ⟨text, file.nodes⟩ := by
  refine ⟨(C60_parsed hlex h).1, ?_⟩
  rintro r b hr ⟨cs, hcs, pre, post, hsplit, ⟨ty, hty, he⟩, -⟩
  have hno := (C64_fall_without hlex h).1 r b ty hr ⟨cs, hcs, by simp [hsplit]⟩ hty
  have key : ∀ k : Nat, 135 ≤ k ∧ k ≤ 140 → k ∉ [135, 136, 138, 139, 140] → k = 137 := by
    intro k h1 h2
    simp only [List.mem_cons, List.not_mem_nil, or_false, not_or] at h2
    omega
  have h137 : ty = 137 := key ty (by simpa [FallExpr] using he) hno
  exact h137 ▸ hty

/-- C65. From the text of a grammar to the generated rules: whatever text is parsed, if the generator succeeds on it,
its rules say what is written. -/
theorem C65_text {lexer : Lexer Nat} (hlex : LexesBy fallLexRules lexer) (n : Nat) (text : List UInt8)
    (file : File Nat) (data : Definition.IncrementalData)
    (h : (fallDefinition lexer).parse n (text.map UInt8.toNat) = .ok (file, data))
    (types : List (List UInt8 × Bool)) (rules : List Expr) (ds : List Diagnostic)
    (hg : Eval (analysisBody ⟨text, file.nodes⟩) (genParser ⟨text, file.nodes⟩) (some (some (types, rules))) ds) :
    ∃ φ : Nat → NodeId,
      (∃ rs, ChildrenWith ⟨text, file.nodes⟩ 0 (OfType ⟨text, file.nodes⟩ 132) rs ∧ rs.length ≤ rules.length ∧
        ∀ i r, rs[i]? = some r → φ i = r) ∧
      ∀ i e, rules[i]? = some e →
        (∀ r ∈ references e, r < rules.length) ∧ Says ⟨text, file.nodes⟩ (φ i) (rename φ e) := by
  obtain ⟨h1, h2⟩ := C65_parsed hlex n text file data h
  exact C65_translates _ h1 h2 types rules ds hg

/-- The sample meets the hypotheses. -/
example : ∃ file data types ds, (fallDefinition (ruleLexer fallLexRules)).parse 1000
      (sexpGrammarText.map UInt8.toNat) = .ok (file, data) ∧
    Eval (analysisBody ⟨sexpGrammarText, file.nodes⟩) (genParser ⟨sexpGrammarText, file.nodes⟩)
      (some (some (types, sexpRules))) ds := by
  have h : generatedFrom sexpGrammarText = some sexpRules := by decide +kernel
  unfold generatedFrom at h
  split at h
  · rename_i file data hp
    split at h
    · rename_i types rules ds hr
      cases h
      exact ⟨file, data, types, _, hp, runFuel_eval hr⟩
    · cases h
  · cases h

/-! ## C66: the generated parser parses like the grammar as written -/

theorem forgetKey_ren (φ : Nat → Nat) (e : Event) : forgetKey (e.ren φ) = forgetKey e := by cases e <;> rfl

/-- The grammar as written is the generated one with other names. -/
theorem renamed_written {f : File UInt8} (hf : ConsistentFile f) (hb : BlockBodies f)
    {types : List (List UInt8 × Bool)} {rules : List Expr} {ds : List Diagnostic}
    (h : Eval (analysisBody f) (genParser f) (some (some (types, rules))) ds) {w : Grammar} (hw : Written f w)
    (isWs : NodeType → Bool) (text : List Nat) (tokens : List Token) :
    ∃ φ, Renamed φ (Env.new none ⟨w.nodeTypes, rules, 0⟩ isWs text tokens) (Env.new none w isWs text tokens) := by
  obtain ⟨φ, ⟨rs, h1, h2, h3⟩, h4⟩ := C65_translates f hf hb types rules ds h
  obtain ⟨hw1, r, hr, hw2⟩ := hw
  let ψ : Nat → Nat := fun i => if i < rules.length then φ i else w.rules.length
  have hψ : ∀ {i}, i < rules.length → ψ i = φ i := fun h => if_pos h
  refine ⟨ψ, rfl, rfl, rfl, rfl, rfl, rfl, fun i => ?_, ?_⟩
  · show w.rules[ψ i]? = rules[i]?.map (rename ψ)
    cases hi : rules[i]? with
    | none =>
      have : ¬ i < rules.length := by simpa using hi
      simp [ψ, if_neg this]
    | some e =>
      obtain ⟨h5, h6⟩ := h4 i e hi
      rw [hψ (List.getElem?_eq_some_iff.1 hi).1, hw1 _ _ h6, Option.map_some,
        rename_congr (φ := ψ) (ψ := φ) fun r hr => hψ (h5 r hr)]
  · show w.startRule = ψ 0
    have h0 : rs[0]? = some r := by
      have hk := astChildren_eq hf (zero_isNode hf) (· == 132)
      have := childrenWith_unique hf (zero_isNode hf) h1 (childrenWith_type hf (zero_isNode hf) hk)
      rw [ofType_find hf (zero_isNode hf), ← List.head?_filter] at hr
      rw [this, ← List.head?_eq_getElem?]
      exact hr
    have hpos : 0 < rules.length := Nat.lt_of_lt_of_le (List.getElem?_eq_some_iff.1 h0).1 h2
    rw [hψ hpos, h3 0 r h0, hw2]

/-- C66. On all texts and with all budgets, the generated parser and the grammar as written give the same events, up to
the keys of memorised results, after the same number of steps, or both panic or exceed the budget. -/
theorem C66_same_events (f : File UInt8) (hf : ConsistentFile f) (hb : BlockBodies f)
    (types : List (List UInt8 × Bool)) (rules : List Expr) (ds : List Diagnostic)
    (h : Eval (analysisBody f) (genParser f) (some (some (types, rules))) ds) (w : Grammar) (hw : Written f w)
    (isWs : NodeType → Bool) (text : List Nat) (tokens : List Token) (n : Nat) :
    forgetKeys (synParse (Env.new none ⟨w.nodeTypes, rules, 0⟩ isWs text tokens) n) =
      forgetKeys (synParse (Env.new none w isWs text tokens) n) := by
  obtain ⟨φ, hφ⟩ := renamed_written hf hb h hw isWs text tokens
  rw [synParse_renamed hφ n]
  cases synParse (Env.new none ⟨w.nodeTypes, rules, 0⟩ isWs text tokens) n with
  | ok r =>
    simp only [Result.ren, forgetKeys, List.map_map, Result.ok.injEq, Prod.mk.injEq, and_true]
    exact List.map_congr_left fun e _ => (forgetKey_ren φ e).symm
  | panic => rfl
  | timeout => rfl

/-- C66. Every tree that the generated parser makes is made from the events of a parse with the grammar as written. -/
theorem C66_same_tree (f : File UInt8) (hf : ConsistentFile f) (hb : BlockBodies f)
    (types : List (List UInt8 × Bool)) (rules : List Expr) (ds : List Diagnostic)
    (h : Eval (analysisBody f) (genParser f) (some (some (types, rules))) ds) (w : Grammar) (hw : Written f w)
    (d : Definition) (hd : d.rules = rules) (hn : d.nodeTypes = w.nodeTypes) (n : Nat) (text : List Nat)
    (file : File Nat) (data : Definition.IncrementalData) (hp : d.parse n text = .ok (file, data)) :
    ∃ tokens ty events ticks ops, lex d.lexer text = some tokens ∧ d.fileTy = some ty ∧
      synParse (Env.new none w d.isWs text tokens) n = .ok (events, ticks) ∧
      (d.convertor ty).convert text tokens events = .ok ops ∧ newFile text ops = some file := by
  have bind_ok : ∀ {α β : Type} {r : Result α} {k : α → Result β} {b : β}, (r >>= k) = .ok b →
      ∃ a, r = .ok a ∧ k a = .ok b := by
    intro α β r k b h
    cases r with
    | ok a => exact ⟨a, rfl, h⟩
    | panic => cases h
    | timeout => cases h
  have of_ok : ∀ {α : Type} {o : Option α} {a : α}, Result.ofOption o = .ok a → o = some a := by
    intro α o a h
    cases o with
    | none => cases h
    | some v => cases h; rfl
  unfold Definition.parse at hp
  obtain ⟨tokens, h1, hp⟩ := bind_ok hp
  obtain ⟨⟨ops, events⟩, h2, hp⟩ := bind_ok hp
  obtain ⟨file', h3, hp⟩ := bind_ok hp
  cases hp
  unfold Definition.parseTokens at h2
  obtain ⟨ty, h4, h2⟩ := bind_ok h2
  obtain ⟨⟨events', ticks⟩, h5, h2⟩ := bind_ok h2
  obtain ⟨ops', h6, h2⟩ := bind_ok h2
  cases h2
  obtain ⟨φ, hφ⟩ := renamed_written hf hb h hw d.isWs text tokens
  have hg : d.grammar = ⟨w.nodeTypes, rules, 0⟩ := by rw [Definition.grammar, hd, hn]
  refine ⟨tokens, ty, events.map (Event.ren φ), ticks, ops, of_ok h1, of_ok h4, ?_, ?_, of_ok h3⟩
  · rw [synParse_renamed hφ n, ← hg, h5]
    rfl
  · rw [Convert.convert_ren, h6]

/-- C66. What the generated parser gives is a reading of the text by the grammar as written: the first rule makes the
root, and what the root contains is derived from the body of the first rule. -/
theorem C66_derives (f : File UInt8) (hf : ConsistentFile f) (hb : BlockBodies f)
    (types : List (List UInt8 × Bool)) (rules : List Expr) (ds : List Diagnostic)
    (h : Eval (analysisBody f) (genParser f) (some (some (types, rules))) ds) (w : Grammar) (hw : Written f w)
    (r : NodeId) (k : Nat) (body : NodeId) (b : Bool) (hr : FirstChild f 0 (OfType f 132) r)
    (hs : Says f r (.pub k body b)) (isWs : NodeType → Bool) (text : List Nat) (tokens : List Token) (n : Nat)
    (es : List Event) (ticks : Nat)
    (hp : synParse (Env.new none ⟨w.nodeTypes, rules, 0⟩ isWs text tokens) n = .ok (es, ticks)) :
    ∃ t I m J, es.map forgetKey = (Items.node t I .nil).encode.map forgetKey ∧
      Derives (Env.new none w isWs text tokens) (List.replicate 16 none) (.expr body) 0 m J ∧
      (m = (nonWsIndexes isWs 0 0 tokens).length ∧ I = J ∨
        ∃ S, m < (nonWsIndexes isWs 0 0 tokens).length ∧
          Derives (Env.new none w isWs text tokens) (List.replicate 16 none) .skipped m
            (nonWsIndexes isWs 0 0 tokens).length S ∧
          I = J.append (.node ERROR S .nil)) := by
  have hsame := C66_same_events f hf hb types rules ds h w hw isWs text tokens n
  rw [hp] at hsame
  cases hq : synParse (Env.new none w isWs text tokens) n with
  | panic => rw [hq] at hsame; cases hsame
  | timeout => rw [hq] at hsame; cases hsame
  | ok q =>
    rw [hq] at hsame
    simp only [forgetKeys, Result.ok.injEq, Prod.mk.injEq] at hsame
    obtain ⟨r', hr', hw2⟩ := hw.2
    cases firstChild_unique hr hr'
    obtain ⟨t, I, m, J, h1, h2, h3⟩ := C53_parse_follows_grammar (Env.new none w isWs text tokens) rfl n k body b
      (by rw [show (Env.new none w isWs text tokens).grammar = w from rfl, hw2]; exact hw.1 _ _ hs) q.1 q.2 hq
    exact ⟨t, I, m, J, by rw [hsame.1, h1], h2, h3⟩

/-- The language of the sample: every byte is a token. -/
def calcDefinition : Definition where
  nodeTypes := [0, 1, 2, 3, 4, 5]
  rules := calcRules
  binder _ _ _ := 0
  lexer text := match text with | 110 :: _ => ⟨1, 1⟩ | _ => ⟨2, 1⟩
  isWs _ := false

/-- The text `n+nn`. -/
example : typesOf (calcDefinition.parse 100 [110, 43, 110, 110]) = [3, 5, 4, 1, 2, 4, 1, 4, 1] := by decide +kernel

example : ∃ w, Written calcFile w ∧ ∀ file data, calcDefinition.parse 100 [110, 43, 110, 110] = .ok (file, data) →
    ∃ events ticks ops,
      synParse (Env.new none w (fun _ => false) [110, 43, 110, 110] [⟨1, 1⟩, ⟨2, 1⟩, ⟨1, 1⟩, ⟨1, 1⟩]) 100 = .ok (events, ticks) ∧
      (calcDefinition.convertor 3).convert [110, 43, 110, 110] [⟨1, 1⟩, ⟨2, 1⟩, ⟨1, 1⟩, ⟨1, 1⟩] events = .ok ops ∧
      newFile [110, 43, 110, 110] ops = some file := by
  obtain ⟨w, hw, hn⟩ := C65_readable calcFile calcFile_consistent 13 calc_first [0, 1, 2, 3, 4, 5]
  refine ⟨w, hw, fun file data h => ?_⟩
  obtain ⟨tokens, ty, events, ticks, ops, h1, h2, h3, h4, h5⟩ := C66_same_tree calcFile calcFile_consistent
    calcFile_blocks _ _ _ calc_generated w hw calcDefinition rfl hn.symm 100 _ file data h
  rw [show lex calcDefinition.lexer [110, 43, 110, 110] = some [⟨1, 1⟩, ⟨2, 1⟩, ⟨1, 1⟩, ⟨1, 1⟩] by decide +kernel,
    Option.some.injEq] at h1
  subst h1
  cases (show (some 3 : Option NodeType) = some ty from h2)
  exact ⟨events, ticks, ops, h3, h4, h5⟩

example : ∃ k body b, Says calcFile 13 (.pub k body b) := by
  obtain ⟨φ, h1, h2⟩ := calc_says
  have h := h2 0 _ rfl
  rw [h1 0 13 rfl] at h
  exact ⟨_, _, _, h⟩

/-! ## C67: numbers -/

/-- C67. The types of the generated parser are the names of the tokens, then those of the public rules. Types with
different names have different numbers, from one to the number of types. -/
theorem C67_types (f : File UInt8) (hf : ConsistentFile f) (hb : BlockBodies f)
    (types : List (List UInt8 × Bool)) (rules : List Expr) (ds : List Diagnostic)
    (h : Eval (analysisBody f) (genParser f) (some (some (types, rules))) ds) :
    TypeNames f (types.map (·.1)) ∧
    (∀ s k, TypeNumber f s k → 1 ≤ k ∧ (types.map (·.1))[k - 1]? = some s) ∧
    (∀ s s' k, TypeNumber f s k → TypeNumber f s' k → s = s') := by
  have hN := genTypes_names hf (genParser_gives hf hb h).1
  have key : ∀ s k, TypeNumber f s k → 1 ≤ k ∧ (types.map (·.1))[k - 1]? = some s := by
    rintro s k ⟨ss1, ss2, h1, h2, rfl⟩
    rw [typeNames_unique hf hN h1]
    simp
  refine ⟨hN, key, fun s s' k h1 h2 => ?_⟩
  have := (key s k h1).2
  rw [(key s' k h2).2] at this
  exact (Option.some.inj this).symm

theorem typesIn_rename (φ : Nat → Nat) (e : Expr) : typesIn (rename φ e) = typesIn e := by
  cases e <;> simp [typesIn, rename, renameTable, Function.comp_def]

theorem tableSays_types {f : File UInt8} {alts : List NodeId} {t : PrattTable} (h : TableSays f alts t) :
    ∀ k ∈ typesIn (.pratt t), ∃ s, TypeNumber f s k := by
  induction h with
  | nil => simp [typesIn]
  | atom _ _ _ _ ih => simpa [typesIn] using ih
  | prefixOp _ h1 _ _ _ ih =>
    obtain ⟨s, _, h1⟩ := h1
    intro k hk
    simp only [typesIn, List.map_cons, List.cons_append, List.mem_cons] at hk
    rcases hk with rfl | hk
    · exact ⟨s, h1⟩
    · exact ih k (by simpa [typesIn] using hk)
  | postfixOp _ h1 _ _ _ ih | bin _ h1 _ _ _ ih =>
    obtain ⟨s, _, h1⟩ := h1
    intro k hk
    simp only [typesIn, List.map_cons, List.mem_append, List.mem_cons] at hk
    rcases hk with hk | rfl | hk
    · exact ih k (by simp only [typesIn, List.mem_append]; exact .inl hk)
    · exact ⟨s, h1⟩
    · exact ih k (by simp only [typesIn, List.mem_append]; exact .inr hk)

theorem says_types {f : File UInt8} {n : NodeId} {e : Expr} (h : Says f n e) :
    ∀ k ∈ typesIn e, ∃ s, TypeNumber f s k := by
  have single : ∀ {s : List UInt8} {j : Nat}, TypeNumber f s j → ∀ k ∈ [j], ∃ s, TypeNumber f s k := by
    intro s j h k hk
    rw [List.mem_singleton] at hk
    exact ⟨s, hk ▸ h⟩
  induction h with
  | token _ _ _ h => exact single h
  | contextual _ _ _ h => exact single h
  | call _ _ _ _ h =>
    cases h with
    | prevIs h =>
      rename_i hm
      clear hm
      simp only [typesIn]
      intro k hk
      induction h with
      | nil => cases hk
      | cons h1 _ ih =>
        rw [List.mem_cons] at hk
        rcases hk with rfl | hk
        · obtain ⟨s, _, h1⟩ := h1
          exact ⟨s, h1⟩
        · exact ih hk
    | _ => simp [typesIn]
  | table _ _ _ _ _ h => exact tableSays_types h
  | replaces _ h _ _ => obtain ⟨s, _, h⟩ := h; exact single h
  | pub _ h _ _ _ _ => obtain ⟨s, _, h⟩ := h; exact single h
  | pubCached _ h _ _ _ => obtain ⟨s, _, h⟩ := h; exact single h
  | plain _ _ _ _ _ _ ih => exact ih
  | _ => simp [typesIn]

/-- C67. The rules mention no types but those of the generated parser. -/
theorem C67_no_other_types (f : File UInt8) (hf : ConsistentFile f) (hb : BlockBodies f)
    (types : List (List UInt8 × Bool)) (rules : List Expr) (ds : List Diagnostic)
    (h : Eval (analysisBody f) (genParser f) (some (some (types, rules))) ds) :
    ∀ e ∈ rules, ∀ k ∈ typesIn e, 1 ≤ k ∧ k ≤ types.length := by
  intro e he k hk
  obtain ⟨i, hi⟩ := List.getElem?_of_mem he
  obtain ⟨φ, _, h2⟩ := C65_translates f hf hb types rules ds h
  obtain ⟨s, hs⟩ := says_types (h2 i e hi).2 k (by rw [typesIn_rename]; exact hk)
  obtain ⟨h3, h4⟩ := (C67_types f hf hb types rules ds h).2.1 s k hs
  have := (List.getElem?_eq_some_iff.1 h4).1
  rw [List.length_map] at this
  omega

example : TypeNames calcFile [[110], [112], [102], [97], [98]] ∧ TypeNumber calcFile [98] 5 := by
  have h := (C67_types calcFile calcFile_consistent calcFile_blocks _ _ _ calc_generated).1
  exact ⟨h, [[110], [112], [102], [97]], [], h, by decide, rfl⟩

/-- C67. Different parameters have different places for their values, whatever rules they belong to. -/
theorem C67_parameters (f : File UInt8) (hf : ConsistentFile f) (p q : NodeId) (i : Nat) (h : ParamNumber f p i)
    (h' : ParamNumber f q i) : p = q := paramNumber_inj hf h h'

example : ParamNumber calcFile 50 0 := paramRef_number calcFile_consistent (by decide +kernel)

end Fall
