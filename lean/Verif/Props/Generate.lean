import Verif.Props.GenerateSample

/-!
C80: the generated lexer and typed tree are as written, and when they are generated.
C81: what the generated module means.
-/

namespace Fall
open Spec AProg

/-- C80. Everything is generated exactly if the rules have a meaning and the tokens and the typed tree are complete. -/
theorem C80_generates (f : File UInt8) (hf : ConsistentFile f) (hs : Shaped f) (hb : BlockBodies f)
    (escape : List UInt8 → List UInt8) :
    (∃ g ds, Eval (analysisBody f) (generate escape f) (some (some g)) ds) ↔ MeaningfulRules f ∧ Describable f := by
  constructor
  · rintro ⟨g, h⟩
    obtain ⟨h1, es, h2⟩ := generate_some.1 h
    exact ⟨(C79_generates f hf hs hb).1 ⟨_, _, h1⟩, describable_of_says hf (says_rest hf _ _ _ h2).1⟩
  · rintro ⟨h1, h2⟩
    obtain ⟨types, rules, h3⟩ := (C79_generates f hf hs hb).2 h1
    obtain ⟨rest, es, h4, -⟩ := works_rest hf hs h2 (escape := escape) rules
    exact ⟨⟨types, rules, rest⟩, generate_some.2 ⟨h3, es, h4⟩⟩

/-- C80. The parser, the lexer and the typed tree that are generated are those of the grammar. -/
theorem C80_says (f : File UInt8) (hf : ConsistentFile f) (escape : List UInt8 → List UInt8) (g : GenFile)
    (ds : List Diagnostic) (h : Eval (analysisBody f) (generate escape f) (some (some g)) ds) :
    (∃ ds, Eval (analysisBody f) (genParser f) (some (some (g.types, g.rules))) ds) ∧ RestSays f escape g.rest := by
  obtain ⟨h1, es, h2⟩ := generate_some.1 ⟨ds, h⟩
  exact ⟨h1, (says_rest hf _ _ _ h2).1⟩

/-- What is generated for the sample. -/
def itemGen : GenFile where
  types := [([110], false), ([120], false), ([107], true), ([102], false), ([103], false)]
  rules := [.pub 4 5 false, .pub 5 8 false, .token 1, .contextualToken 3 [107], .and [2, 3, 1] none, .or [4], .token 2,
    .and [6] none, .or [7]]
  rest := {
    lexRules := [⟨[110], [110], none⟩, ⟨[120], [120], some [102]⟩]
    verbatim := some (ascii "whitespace_binder")
    binder := true
    ast := some {
      nodes := [
        ⟨[70], [70], [⟨[97], .token false [78]⟩, ⟨[98], .text true [88]⟩, ⟨[99], .nodes .many [88, 89]⟩]⟩,
        ⟨[71], [71], []⟩]
      classes := [⟨[88, 89], [([70], [70]), ([71], [71])]⟩]
      traits := [⟨[84], [⟨[100], .nodes .optional [70]⟩], [[70]]⟩] } }

instance : DecidableEq (Option (Option GenFile)) := inferInstance

theorem item_generated : Eval (analysisBody itemFile) (generate id itemFile) (some (some itemGen)) [] :=
  runFuel_eval (n := 500) (by decide +kernel)

/-- The sample has a meaning and is complete, and its module is as written. -/
example : MeaningfulRules itemFile ∧ Describable itemFile ∧ RestSays itemFile id itemGen.rest :=
  have h := (C80_generates itemFile itemFile_consistent itemFile_shaped itemFile_blocks id).1 ⟨_, _, item_generated⟩
  ⟨h.1, h.2, (C80_says itemFile itemFile_consistent id itemGen [] item_generated).2⟩

/-- C80. The same for the text of a grammar. -/
theorem C80_text {lexer : Lexer Nat} (hlex : LexesBy fallLexRules lexer) (n : Nat) (text : List UInt8)
    (file : File Nat) (data : Definition.IncrementalData)
    (h : (fallDefinition lexer).parse n (text.map UInt8.toNat) = .ok (file, data)) (escape : List UInt8 → List UInt8) :
    ((∃ g ds, Eval (analysisBody ⟨text, file.nodes⟩) (generate escape ⟨text, file.nodes⟩) (some (some g)) ds) ↔
      MeaningfulRules ⟨text, file.nodes⟩ ∧ Describable ⟨text, file.nodes⟩) ∧
    ∀ g ds, Eval (analysisBody ⟨text, file.nodes⟩) (generate escape ⟨text, file.nodes⟩) (some (some g)) ds →
      RestSays ⟨text, file.nodes⟩ escape g.rest :=
  ⟨C80_generates _ (C60_parsed hlex h).1 (C60_parsed hlex h).2 (C65_parsed hlex n text file data h).2 escape,
    fun g ds hg => (C80_says _ (C60_parsed hlex h).1 escape g ds hg).2⟩

/-! ## Grammars without diagnostics that have no code -/

/-- The grammar parses, nothing is reported about it, and something is true of the result of the generator. -/
def GeneratesQuietly (text : List UInt8) (P : Option (Option GenFile) → Prop) : Prop :=
  ∃ file data, (fallDefinition (ruleLexer fallLexRules)).parse 1000 (text.map UInt8.toNat) = .ok (file, data) ∧
    (∀ db ts, Reach (SysStep (analysisBody ⟨text, file.nodes⟩)) (Db.new, [collectRequests ⟨text, file.nodes⟩].map .run)
      (db, ts) → (∀ t ∈ ts, ∃ v, t = .run (.ret v)) → db.diags = []) ∧
    ∃ r ds, Eval (analysisBody ⟨text, file.nodes⟩) (generate id ⟨text, file.nodes⟩) r ds ∧ P r

/-- Computes the result of the generator, if nothing is reported. -/
def generatesQuietly (text : List UInt8) : Option (Option (Option GenFile)) :=
  match parsedNodes 1000 text with
  | some nodes =>
    if quietOn ⟨text, nodes⟩ then (runFuel (analysisBody ⟨text, nodes⟩) 1000 (generate id ⟨text, nodes⟩)).map (·.1)
    else none
  | none => none

theorem generatesQuietly_sound {text : List UInt8} {P : Option (Option GenFile) → Prop} (p : Option (Option GenFile) → Bool)
    (h : (generatesQuietly text).elim false p = true) (hp : ∀ r, p r = true → P r) : GeneratesQuietly text P := by
  cases hg : generatesQuietly text with
  | none =>
    rw [hg] at h
    cases h
  | some o =>
    rw [hg] at h
    unfold generatesQuietly at hg
    split at hg
    · rename_i nodes hn
      have hf := (parsedNodes_shaped hn).1
      obtain ⟨file, data, h1, rfl⟩ := parsedNodes_parse hn
      split at hg
      · rename_i hq
        rw [Option.map_eq_some_iff] at hg
        obtain ⟨⟨r, ds⟩, h2, rfl⟩ := hg
        exact ⟨file, data, h1, fun db ts => quietOn_diags hf hq, r, ds, runFuel_eval h2, hp _ h⟩
      · cases hg
    · cases hg

theorem generates_panic {text : List UInt8} (h : (generatesQuietly text).elim false (·.isNone) = true) :
    GeneratesQuietly text (· = none) :=
  generatesQuietly_sound _ h fun r hr => by simpa using hr

theorem generates_error {text : List UInt8} (h : (generatesQuietly text).elim false (· == some none) = true) :
    GeneratesQuietly text (· = some none) :=
  generatesQuietly_sound _ h fun r hr => by simpa using hr

/-- C80, counterexample to "the generator succeeds if the parser is generated and nothing is reported". Names with an
underscore at the beginning or the end, or with two of them, and a method for many tokens: the generator panics. No
tokenizer, or a method that selects nothing: the generator gives an error. `regex::escape` does not change the string
of the tokens. -/
theorem C80_unreported_counterexample :
    GeneratesQuietly (ascii "tokenizer{n'n'}pub rule f{'n'}ast{node _f{}}") (· = none) ∧
    GeneratesQuietly (ascii "tokenizer{n'n'}pub rule f{'n'}ast{trait f_{}}") (· = none) ∧
    GeneratesQuietly (ascii "tokenizer{n'n'}pub rule f{'n'}ast{class c{f__f}}") (· = none) ∧
    GeneratesQuietly (ascii "tokenizer{n'n'}pub rule f{'n'}ast{node f{a n*}}") (· = none) ∧
    GeneratesQuietly (ascii "tokenizer{n'n'}pub rule f{'n'}ast{node f{a b}}") (· = some none) ∧
    GeneratesQuietly (ascii "pub rule f{}") (· = some none) := by
  refine ⟨generates_panic ?_, generates_panic ?_, generates_panic ?_, generates_panic ?_, generates_error ?_,
    generates_error ?_⟩ <;> decide +kernel

/-! ## The meaning of the module -/

theorem getElem_of {R : α → β → Prop} {xs : List α} {ys : List β} (h : Pointwise R xs ys) :
    ∀ i (h1 : i < xs.length) (h2 : i < ys.length), R xs[i] ys[i] := by
  induction h with
  | nil => exact fun i h1 => absurd h1 (Nat.not_lt_zero _)
  | cons hr _ ih =>
    intro i h1 h2
    cases i with
    | zero => exact hr
    | succ i => exact ih i (Nat.lt_of_succ_lt_succ h1) (Nat.lt_of_succ_lt_succ h2)

/-- The generated methods give at the node `n` of the tree `t` what the methods of the item `i` of the grammar select.
Each has exactly one value, or panics. -/
def MethodsMean (f : File UInt8) (g : GenFile) (upper : List UInt8 → List UInt8) (t : File UInt8) (n i : NodeId)
    (gs : List GenMethod) : Prop :=
  ∃ ms ks, ChildrenWith f i (OfType f 153) ms ∧ Pointwise (fun m k => MethodMeans f m (some k)) ms ks ∧
    Pointwise (fun k m => ∃ v, Accesses f t n k v ∧ ∀ w, MethodRuns g upper t n m.body w ↔ w = v) ks gs

section
variable (f : File UInt8) (hf : ConsistentFile f) (hb : BlockBodies f) (hp : PlainNames f)
  (escape upper : List UInt8 → List UInt8) (hu : ∀ s, PlainName s → Screaming s (upper s)) (g : GenFile)
  (ds : List Diagnostic) (h : Eval (analysisBody f) (generate escape f) (some (some g)) ds)
include hf hb hp hu h

/-- C81. The constant of the type with the number `k` is `99 + k`, which is also the entry of number `k` of the parser
definition; its name is in capital letters, and it is skipped if the token has the attribute. The rules of the lexer
are for the types of their tokens. -/
theorem C81_types : (∃ tys, g.nodeTypes upper = some (0 :: tys) ∧ ∀ s k, TypeNumber f s k →
      (0 :: tys)[k]? = some (99 + k) ∧ g.const upper (upper s) = some (99 + k) ∧
      ∃ c b, Screaming s c ∧ g.typeInfo upper (99 + k) = some (c, b) ∧ (b = true ↔ SkippedType f s)) ∧
    ∃ tys d ts, g.lexTypes upper = some tys ∧ FirstChild f 0 (OfType f 141) d ∧
      ChildrenWith f d (fun t => OfType f 142 t ∧ ¬ Contextual f t) ts ∧ Pointwise (TokenType f) ts tys := by
  obtain ⟨⟨_, hP⟩, hR⟩ := C80_says f hf escape g ds h
  have hT := (genParser_gives hf hb hP).1
  have hN := genTypes_names hf hT
  constructor
  · have all : ∀ t ∈ g.types, ∃ ty, g.const upper (upper t.1) = some ty := fun t ht => by
      obtain ⟨k, hk⟩ := typeNumber_of hN (List.mem_map_of_mem ht)
      exact ⟨_, const_upper hf hT hp hu hk⟩
    obtain ⟨tys, htys⟩ := pointwise_total all
    refine ⟨tys, ?_, fun s k hk => ⟨?_, const_upper hf hT hp hu hk, ?_⟩⟩
    · have := (pointwise_mapM_iff fun t ty => Iff.rfl).1 htys
      simp only [GenFile.nodeTypes, this, Option.bind_eq_bind, Option.bind_some, Option.pure_def]
    · obtain ⟨ss1, ss2, h1, h2, rfl⟩ := id hk
      have e := typeNames_unique hf hN h1
      rw [List.getElem?_cons_succ]
      have hlen : ss1.length < g.types.length := by
        have := congrArg List.length e
        simp only [List.length_map, List.length_append, List.length_cons] at this
        omega
      have ht : (g.types[ss1.length]).1 = s := by
        have := congrArg (·[ss1.length]?) e
        simpa [List.getElem?_eq_getElem hlen] using this
      have hl := htys.length
      rw [List.getElem?_eq_getElem (by omega)]
      have := getElem_of htys ss1.length hlen (by omega)
      rw [ht, const_upper hf hT hp hu hk] at this
      exact this.symm
    · obtain ⟨b, h1, h2⟩ := typeInfo_iff hf hT hp hu hk
      exact ⟨upper s, b, hu s (typeNumber_plain hp hk), h1, h2⟩
  · obtain ⟨d, ts, h1, h2, h3⟩ := hR.lexer
    have key : ∀ {ts rs}, (∀ t ∈ ts, Child f d t ∧ OfType f 142 t) → Pointwise (LexRuleSays f escape) ts rs →
        ∃ tys, rs.mapM (fun r => g.const upper (upper r.ty)) = some tys ∧ Pointwise (TokenType f) ts tys := by
      intro ts rs hts hpw
      induction hpw with
      | nil => exact ⟨[], rfl, .nil⟩
      | @cons t r ts rs hr _ ih =>
        obtain ⟨tys, g1, g2⟩ := ih fun t ht => hts t (by simp [ht])
        obtain ⟨c1, c2⟩ := hts t (by simp)
        obtain ⟨k, hk⟩ : ∃ k, TypeNumber f r.ty k := by
          refine typeNumber_of hN ?_
          obtain ⟨ts', rs', ss1, ss2, e1, -, e3, -, e⟩ := id hN
          rw [e]
          have hm : t ∈ ts' := by
            rcases e1 with ⟨d', hd', e1⟩ | ⟨hno, -⟩
            · cases firstChild_unique h1 hd'
              exact childrenWith_has e1 c1 c2
            · exact absurd h1 (hno d)
          obtain ⟨s1, hm1, hi1⟩ := pointwise_mem e3 hm
          cases labelled_unique hr.1 hi1
          simp [hm1]
        refine ⟨(99 + k) :: tys, ?_, .cons ⟨_, k, hr.1, hk, rfl⟩ g2⟩
        simp [List.mapM_cons, const_upper hf hT hp hu hk, g1]
    obtain ⟨tys, g1, g2⟩ := key (fun t ht => ⟨(childrenWith_mem h2 t ht).1, (childrenWith_mem h2 t ht).2.1⟩) h3
    exact ⟨tys, d, ts, g1, h1, h2, g2⟩

/-- C81. The type for a node or a class wraps the nodes that belong to it. -/
theorem C81_wraps (s c : List UInt8) (hs : PlainName s) (hc : CamelCase s c) (ty : NodeType) :
    g.Wraps upper c ty ↔ Denotes f s ty := by
  obtain ⟨⟨_, hP⟩, hR⟩ := C80_says f hf escape g ds h
  exact wraps_iff hf (genParser_gives hf hb hP).1 hR hp hu hs hc

/-- C81. The generated methods of the nodes and the traits give what the methods of the grammar select. -/
theorem C81_methods (t : File UInt8) (ht : ConsistentFile t) (n : NodeId) (hn : IsNode t n) (ast : GenAst)
    (ha : g.rest.ast = some ast) :
    ∃ a ns ts, FirstChild f 0 (OfType f 149) a ∧
      ChildrenWith f a (OfType f 150) ns ∧ Pointwise (fun i d => MethodsMean f g upper t n i d.methods) ns ast.nodes ∧
      ChildrenWith f a (OfType f 152) ts ∧
      Pointwise (fun i d => MethodsMean f g upper t n i d.methods) ts ast.traits := by
  obtain ⟨⟨_, hP⟩, hR⟩ := C80_says f hf escape g ds h
  have hT := (genParser_gives hf hb hP).1
  have key : ∀ i gs, MethodsSay f i gs → MethodsMean f g upper t n i gs := by
    rintro i gs ⟨ms, h1, h2⟩
    obtain ⟨ks, h3, h4⟩ := pointwise_split (A := fun m k => MethodMeans f m (some k))
      (B := fun k m => ∃ v, Accesses f t n k v ∧ ∀ w, MethodRuns g upper t n m.body w ↔ w = v)
      (φ := id) h2 fun m _ gm hgm => by
        obtain ⟨-, k, hk, hbody⟩ := hgm
        have hpk := methodMeans_plain hf hT hp hk
        obtain ⟨v, hv⟩ : ∃ v, Accesses f t n k v := by
          revert hbody
          generalize gm.body = body
          intro hbody
          refine accesses_total ht hn hpk ?_ ?_
          · cases hbody <;> exact ⟨_, ‹Ident f _ _›⟩
          · cases hbody <;> simp
        refine ⟨k, hk, v, hv, fun w => ?_⟩
        rw [id, runs_iff hf hT hR hp hu ht hn hpk hbody]
        exact ⟨fun hw => accesses_unique hf ht hn hw hv, fun e => e ▸ hv⟩
    rw [List.map_id] at h4
    exact ⟨ms, ks, h1, h3, h4⟩
  have hA := hR.ast
  rw [ha] at hA
  obtain ⟨a, ns, cs, ts, h1, h2, h3, -, -, h4, h5⟩ := hA
  exact ⟨a, ns, ts, h1, h2, h3.imp fun _ _ _ hd => key _ _ hd.2.2, h4,
    h5.imp fun _ _ _ hd => key _ _ hd.2.1⟩

/-- C81. All generated names are defined once exactly if the names of the grammar are. -/
theorem C81_resolves : g.Resolves upper ↔ WellNamed f := by
  obtain ⟨⟨_, hP⟩, hR⟩ := C80_says f hf escape g ds h
  exact resolves_iff hf (genParser_gives hf hb hP).1 hR hp hu

end

/-! ## The sample -/

/-- All identifiers of the file are usual names. -/
theorem plainNames_of {f : File UInt8} (h : ((List.range f.nodes.length).all fun n =>
    f.ty n != some 130 || (f.textOf n).all plainName) = true) : PlainNames f := by
  have text : ∀ {n s}, OfType f 130 n → f.textOf n = some s → PlainName s := fun {n s} hn hs => by
    have := List.all_eq_true.1 h n (List.mem_range.2 (ofType_isNode hn))
    rw [show f.ty n = some 130 from hn, hs] at this
    exact plain_of (by simpa using this)
  have ident : ∀ {n s}, Ident f n s → PlainName s := fun ⟨c, h1, h2⟩ => text (firstChild_prop h1) h2
  refine ⟨fun ss s hss hs => ?_, fun i s _ hi => ident hi, fun c vs v _ hv hm => ?_⟩
  · obtain ⟨ts, rs, ss1, ss2, -, -, h1, h2, rfl⟩ := hss
    rcases List.mem_append.1 hs with hs | hs
    · obtain ⟨x, -, hx⟩ := h1.mem hs
      exact ident hx
    · obtain ⟨x, -, hx⟩ := h2.mem hs
      exact ident hx
  · obtain ⟨i, is, h1, h2⟩ := hv
    obtain ⟨x, hx, ht⟩ := h2.mem hm
    exact text (childrenWith_mem h1 x (by simp [hx])).2 ht

theorem itemFile_plain : PlainNames itemFile := plainNames_of (by decide +kernel)

/-- Capital letters of ASCII are what is needed of the filter. -/
theorem scream_upper : ∀ s, PlainName s → Screaming s (scream s) := fun _ _ => screaming_iff.2 rfl

/-- A tree for the sample: the node `f` of the text `nkx`, with a node `g`. -/
def itemTree : File UInt8 where
  text := [110, 107, 120]
  nodes := [⟨103, none, [1, 2, 3], ⟨0, 3⟩⟩, ⟨100, some 0, [], ⟨0, 1⟩⟩, ⟨102, some 0, [], ⟨1, 2⟩⟩,
    ⟨104, some 0, [4], ⟨2, 3⟩⟩, ⟨101, some 3, [], ⟨2, 3⟩⟩]


/-- The calls that build the tree. -/
def itemOps : List BuilderOp := [.start 103, .leaf 100 1, .leaf 102 1, .start 104, .leaf 101 1, .finish, .finish]

theorem itemTree_consistent : ConsistentFile itemTree := by
  obtain ⟨f, h1, _, h2, _⟩ := C14_build_consistent itemOps
    (forest_singleRoot 103 (.leaf 100 1 (.leaf 102 1 (.node 104 (.leaf 101 1 .nil) .nil)))) itemTree.text rfl
  rw [show newFile itemTree.text itemOps = some itemTree by decide] at h1
  cases h1
  exact h2

/-- The third type is `k`, which is skipped. -/
example : TypeNumber itemFile [107] 3 ∧ itemGen.const scream [75] = some 102 ∧
    itemGen.typeInfo scream 102 = some ([75], true) ∧ SkippedType itemFile [107] ∧
    itemGen.nodeTypes scream = some [0, 100, 101, 102, 103, 104] ∧ itemGen.lexTypes scream = some [100, 101] := by
  have hT := (genParser_gives itemFile_consistent itemFile_blocks
    (C80_says itemFile itemFile_consistent id itemGen [] item_generated).1.choose_spec).1
  have h1 : TypeNumber itemFile [107] 3 :=
    ⟨[[110], [120]], [[102], [103]], genTypes_names itemFile_consistent hT, by decide, rfl⟩
  have h2 : itemGen.typeInfo scream 102 = some ([75], true) := by decide
  refine ⟨h1, by decide, h2, ?_, by decide, by decide⟩
  obtain ⟨⟨tys, -, h⟩, -⟩ := C81_types itemFile itemFile_consistent itemFile_blocks itemFile_plain id scream scream_upper
    itemGen [] item_generated
  obtain ⟨-, -, c, b, -, h3, h4⟩ := h [107] 3 h1
  rw [show 99 + 3 = 102 from rfl, h2] at h3
  cases h3
  exact h4.1 rfl

/-- The class `x_y` has the nodes of type `g`. -/
example : PlainName [120, 95, 121] ∧ CamelCase [120, 95, 121] [88, 89] ∧ Denotes itemFile [120, 95, 121] 104 := by
  have h1 : PlainName [120, 95, 121] := plain_of (by decide)
  have h2 : CamelCase [120, 95, 121] [88, 89] := by
    refine ⟨[[120], [121]], [[88], [89]], .more (w := [120]) (by decide) (.one (by decide)), ?_, rfl⟩
    refine .cons ⟨120, 88, [], rfl, by decide, .inl (by decide), rfl⟩ (.cons ⟨121, 89, [], rfl, by decide, .inl (by decide), rfl⟩ .nil)
  refine ⟨h1, h2, ?_⟩
  rw [← C81_wraps itemFile itemFile_consistent itemFile_blocks itemFile_plain id scream scream_upper itemGen []
    item_generated _ _ h1 h2]
  refine .variant (c := ⟨[88, 89], [([70], [70]), ([71], [71])]⟩) (v := ([71], [71])) rfl (by simp) (by simp) ?_
  exact .node (n := ⟨[71], [71], []⟩) rfl (by simp) (by decide)

/-- The methods of `f`: the first one gives the token, the second one nothing, and the third one the node `g`. -/
example : ConsistentFile itemTree ∧ IsNode itemTree 0 ∧ itemGen.rest.ast ≠ none ∧
    MethodRuns itemGen scream itemTree 0 (.token false [78]) (some (.node (some 1))) ∧
    MethodRuns itemGen scream itemTree 0 (.text true [88]) (some (.text none)) ∧
    MethodRuns itemGen scream itemTree 0 (.nodes .many [88, 89]) (some (.nodes [3])) := by
  refine ⟨itemTree_consistent, show 0 < 5 by decide, by decide, .token (ty := 100) (by decide) (by decide),
    .noText (ty := 101) (by decide) (by decide), .nodes (wrap := fun ty => ty == 103 || ty == 104) (fun ty => ?_) (by decide)⟩
  constructor
  · intro h
    simp only [Bool.or_eq_true, beq_iff_eq] at h
    rcases h with rfl | rfl
    · refine .variant (c := ⟨[88, 89], [([70], [70]), ([71], [71])]⟩) (v := ([70], [70])) rfl (by simp) (by simp) ?_
      exact .node (n := ⟨[70], [70], [⟨[97], .token false [78]⟩, ⟨[98], .text true [88]⟩, ⟨[99], .nodes .many [88, 89]⟩]⟩)
        rfl (by simp) (by decide)
    · refine .variant (c := ⟨[88, 89], [([70], [70]), ([71], [71])]⟩) (v := ([71], [71])) rfl (by simp) (by simp) ?_
      exact .node (n := ⟨[71], [71], []⟩) rfl (by simp) (by decide)
  · have key : ∀ {s}, itemGen.Wraps scream s ty → (ty == 103 || ty == 104) = true := by
      intro s h
      induction h with
      | node h1 h2 h3 =>
        cases h1
        simp only [List.mem_cons, List.not_mem_nil, or_false] at h2
        rcases h2 with rfl | rfl
        · cases (show itemGen.const scream [70] = some 103 by decide).symm.trans h3
          rfl
        · cases (show itemGen.const scream [71] = some 104 by decide).symm.trans h3
          rfl
      | variant _ _ _ _ ih => exact ih
    exact key

/-- The names of the sample are defined once. -/
example : WellNamed itemFile := by
  rw [← C81_resolves itemFile itemFile_consistent itemFile_blocks itemFile_plain id scream scream_upper itemGen []
    item_generated]
  refine ⟨by decide, fun a h => ?_, fun a h n hn => ?_, fun a h => ?_, fun a h => ?_, fun a h => ?_, fun a h => ?_⟩
  · cases h
    decide
  · cases h
    simp only [List.mem_cons, List.not_mem_nil, or_false] at hn
    rcases hn with rfl | rfl
    · exact ⟨103, by decide⟩
    · exact ⟨104, by decide⟩
  · cases h
    simp only [List.mem_cons, List.not_mem_nil, or_false]
    intro c hc
    subst hc
    decide
  · have key : ∀ {c d}, itemGen.Contains c d → c = [88, 89] ∧ d ∈ [[70], [71]] := by
      rintro c d ⟨ast, k, v, h1, h2, h3, rfl, rfl⟩
      cases h1
      simp only [List.mem_cons, List.not_mem_nil, or_false] at h2
      subst h2
      simp only [List.mem_cons, List.not_mem_nil, or_false] at h3
      rcases h3 with rfl | rfl <;> exact ⟨rfl, by decide⟩
    have all : ∀ {c d}, Relation.TransGen itemGen.Contains c d → c = [88, 89] ∧ d ∈ [[70], [71]] := by
      intro c d h
      induction h with
      | single h => exact key h
      | tail _ h ih => exact ⟨ih.1, (key h).2⟩
    obtain ⟨rfl, h⟩ := all h
    revert h
    decide
  · cases h
    decide
  · cases h
    decide

/-! ## Grammars without diagnostics with names that are not defined once -/

/-- Computes whether the names are defined once, but looks for classes that contain themselves directly only. -/
def resolvesNow (g : GenFile) : Bool :=
  decide (ascii "ERROR" :: (g.constants scream).map (·.1)).Nodup &&
  match g.rest.ast with
  | none => true
  | some ast =>
    decide (ascii "AstNode" ::
      (ast.nodes.map (·.structName) ++ ast.classes.map (·.enumName) ++ ast.traits.map (·.traitName))).Nodup &&
    ast.nodes.all (fun n => (g.const scream n.typeName).isSome && decide (n.methods.map (·.name)).Nodup) &&
    ast.classes.all (fun c => decide (c.variants.map (·.2)).Nodup && c.variants.all fun v =>
      (ast.nodes.map (·.structName) ++ ast.classes.map (·.enumName)).contains v.2 && v.2 != c.enumName) &&
    ast.traits.all fun t => decide (t.methods.map (·.name)).Nodup

theorem resolvesNow_of {g : GenFile} {upper : List UInt8 → List UInt8} (hp : ∀ t ∈ g.types, PlainName t.1)
    (hu : UpperOn upper) (h : g.Resolves upper) : resolvesNow g = true := by
  have e : g.constants upper = g.constants scream := by
    refine List.map_congr_left fun t ht => ?_
    rw [screaming_iff.1 (hu _ (hp _ (List.fst_mem_of_mem_zipIdx ht)))]
  have e' : g.const upper = g.const scream := by
    funext c
    simp only [GenFile.const, e]
  obtain ⟨h1, h2, h3, h4, h5, h6, h7⟩ := h
  rw [e] at h1
  rw [e'] at h3
  unfold resolvesNow
  rw [Bool.and_eq_true]
  refine ⟨decide_eq_true h1, ?_⟩
  split
  · rfl
  · rename_i ast ha
    simp only [Bool.and_eq_true, List.all_eq_true, decide_eq_true_iff]
    refine ⟨⟨⟨h2 _ ha, fun n hn => ⟨?_, h6 _ ha n hn⟩⟩, fun c hc => ⟨(h4 _ ha c hc).1, fun v hv => ⟨?_, ?_⟩⟩⟩, h7 _ ha⟩
    · obtain ⟨ty, hty⟩ := h3 _ ha n hn
      rw [hty]
      rfl
    · rw [List.contains_iff_mem]
      exact (h4 _ ha c hc).2 v hv
    · rw [bne_iff_ne]
      intro hv'
      exact h5 _ (.single ⟨ast, c, v, ha, hc, hv, rfl, hv'.symm⟩)

/-- Something is generated whose names are not all defined once. -/
def Unresolved (r : Option (Option GenFile)) : Prop :=
  ∃ g, r = some (some g) ∧ ∀ upper, (∀ s, PlainName s → Screaming s (upper s)) → ¬ g.Resolves upper

theorem generates_unresolved {text : List UInt8} (h : ((generatesQuietly text).elim false fun r =>
      match r with
      | some (some g) => g.types.all (fun t => plainName t.1) && !resolvesNow g
      | _ => false) = true) :
    GeneratesQuietly text Unresolved :=
  generatesQuietly_sound _ h fun r hr => by
    split at hr
    · rename_i g
      rw [Bool.and_eq_true, List.all_eq_true] at hr
      refine ⟨g, rfl, fun upper hu hg => ?_⟩
      rw [resolvesNow_of (fun t ht => plain_of (hr.1 t ht)) hu hg] at hr
      exact absurd hr.2 (by decide)
    · cases hr

/-- C81, counterexample to "if nothing is reported, the names of the generated module are defined once". A token and a
rule of one name; a rule `error`; a node without a rule; two items of one name; a node `ast_node`; a variant without
an item; a class that contains itself; two methods of one name; two names that have one camel case. -/
theorem C81_unreported_counterexample :
    GeneratesQuietly (ascii "tokenizer{n'n'}pub rule n{'n'}") Unresolved ∧
    GeneratesQuietly (ascii "tokenizer{n'n'}pub rule error{'n'}") Unresolved ∧
    GeneratesQuietly (ascii "tokenizer{n'n'}pub rule f{'n'}ast{node g{}}") Unresolved ∧
    GeneratesQuietly (ascii "tokenizer{n'n'}pub rule f{'n'}ast{node f{}class f{}}") Unresolved ∧
    GeneratesQuietly (ascii "tokenizer{n'n'}pub rule ast_node{'n'}ast{node ast_node{}}") Unresolved ∧
    GeneratesQuietly (ascii "tokenizer{n'n'}pub rule f{'n'}ast{class c{g}}") Unresolved ∧
    GeneratesQuietly (ascii "tokenizer{n'n'}pub rule f{'n'}ast{class c{c}}") Unresolved ∧
    GeneratesQuietly (ascii "tokenizer{n'n'}pub rule f{'n'}ast{node f{a n a n}}") Unresolved ∧
    GeneratesQuietly (ascii "tokenizer{n'n'}pub rule f{'n'}ast{class a_b{f}class aB{f}}") Unresolved := by
  refine ⟨generates_unresolved ?_, generates_unresolved ?_, generates_unresolved ?_, generates_unresolved ?_,
    generates_unresolved ?_, generates_unresolved ?_, generates_unresolved ?_, generates_unresolved ?_,
    generates_unresolved ?_⟩ <;> decide +kernel

end Fall
