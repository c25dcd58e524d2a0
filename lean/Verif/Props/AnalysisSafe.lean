import Verif.Lemmas.AnalysisSafe
import Verif.Props.Promise
import Verif.Props.Analysis

/-!
C60: which queries of the analysis panic.
-/

namespace Fall

open Spec AProg

/-- C60. If the nodes of a file have the children that the accessors expect, the queries that panic are exactly those
about operator rules without a body, methods that select an item behind one without a name, and the traits of nodes
while there is a trait without a name. -/
theorem C60_panics (f : File UInt8) (hf : ConsistentFile f) (hs : Shaped f) (q : Query) (hq : QueryTyped f q) :
    (∃ ds, Eval (analysisBody f) (analysisBody f q) none ds) ↔ PanicsAt f q := by
  have safe : ∀ {q : Query}, Safe (analysisBody f) (analysisBody f q) →
      ((∃ ds, Eval (analysisBody f) (analysisBody f q) none ds) ↔ False) :=
    fun h => ⟨fun ⟨ds, h'⟩ => h ds h', False.elim⟩
  cases q with
  | allLexRules => exact safe (safe_allLexRules hf hs)
  | allSynRules => exact safe (safe_allSynRules hf)
  | allContexts => exact safe (safe_allContexts hf hs)
  | resolveRef n => exact safe (safe_resolveRef hf hs hq)
  | resolveCall n => exact safe (safe_resolveCall hf hs hq)
  | unusedRules => exact safe (safe_unusedRules hf hs)
  | prattVariant n =>
    constructor
    · rintro ⟨ds, h⟩
      exact Classical.byContradiction fun hb => safe_prattVariant hf hs (ofType_isNode hq) hb ds h
    · intro hb
      obtain ⟨o, ds, h⟩ := ends_query (f := f) (.prattVariant n)
      cases o with
      | none => exact ⟨ds, h⟩
      | some v => exact absurd h (prattVariant_bodyless hf (ofType_isNode hq) hb)
  | resolveMethod n => exact resolveMethod_none hf hs hq
  | astNodeTraits n =>
    constructor
    · rintro ⟨ds, h⟩
      exact Classical.byContradiction fun hb => safe_astNodeTraits hf (ofType_isNode hq) hb ds h
    · intro hb
      obtain ⟨o, ds, h⟩ := ends_query (f := f) (.astNodeTraits n)
      cases o with
      | none => exact ⟨ds, h⟩
      | some v => exact absurd h (astNodeTraits_nameless hf hb)

theorem needs_ends {body : (q : Q) → Prog Q V D (V q)} {p : Prog Q V D α} {q : Q} (hq : Needs body p q) {v : α}
    {ds : List D} (h : Eval body p (some v) ds) : ∃ v ds, Eval body (body q) (some v) ds := by
  induction hq generalizing ds with
  | emit _ ih =>
    cases h with
    | emit h => exact ih h
  | here =>
    cases h with
    | ask h1 h2 => exact ⟨_, _, h1⟩
  | nested _ ih =>
    cases h with
    | ask h1 h2 => exact ih h1
  | later h1 _ ih =>
    cases h with
    | ask h1' h2 =>
      cases (Eval.det h1 h1').1
      exact ih h2

/-- C60. Collecting the diagnostics of a file panics exactly if there is an operator rule without a body, or a trait
without a name beside a node. -/
theorem C60_collect (f : File UInt8) (hf : ConsistentFile f) (hs : Shaped f) :
    (∃ ds, Eval (analysisBody f) (collectRequests f) none ds) ↔
      (∃ rule, OfType f 132 rule ∧ Bodyless f rule) ∨ ((∃ n, OfType f 150 n) ∧ NamelessTrait f) := by
  constructor
  · rintro ⟨ds, h⟩
    refine Classical.byContradiction fun hno => ?_
    refine safe_collectRequests hf hs (fun rule h1 h2 => hno (.inl ⟨rule, h1, h2⟩)) ?_ ds h
    exact fun hN n hn => hno (.inr ⟨⟨n, hn⟩, hN⟩)
  · intro hp
    obtain ⟨o, ds, h⟩ := ends_all (f := f) (collectRequests f)
    cases o with
    | none => exact ⟨ds, h⟩
    | some u =>
      exfalso
      have key : ∀ {q : Query}, Asked f q → ∃ v ds, Eval (analysisBody f) (analysisBody f q) (some v) ds := by
        intro q hq
        exact needs_ends (collectRequests_needs hf h hq) h
      rcases hp with ⟨rule, h1, h2⟩ | ⟨⟨n, h1⟩, h2⟩
      · obtain ⟨v, ds, he⟩ := key (q := .prattVariant rule) h1
        exact prattVariant_bodyless hf (ofType_isNode h1) h2 he
      · obtain ⟨v, ds, he⟩ := key (q := .astNodeTraits n) h1
        exact astNodeTraits_nameless hf h2 he

/-! Parsed files -/

section
variable {lexer : Lexer Nat} (hlex : LexesBy fallLexRules lexer) {n : Nat} {text : List UInt8} {file : File Nat}
  {data : Definition.IncrementalData} (h : (fallDefinition lexer).parse n (text.map UInt8.toNat) = .ok (file, data))
include hlex h

theorem fall_consistent : ConsistentFile file ∧ file.text = text.map UInt8.toNat := by
  have := C31_parse_lossless (fallDefinition lexer) hlex.progress 32 37 rfl (fun _ _ _ => Nat.zero_le _)
    (spaceless_of_visible (show visible fallGrammar.rules = true by decide +kernel)
      (hlex.blankStart (isWs := fallIsWs) (by decide +kernel))) n _ file data h
  exact ⟨this.1, this.2.1⟩

theorem fall_token {m : Nat} {t : NodeType} {r : TextRange} (ht : file.ty m = some t) (hr : file.range m = some r)
    (hno : buildsNot fallGrammar t = true)
    (hw : (fallGrammar.rules.any fun e =>
      match e with | .contextualToken i _ => fallGrammar.nodeTypes[i]? == some t | _ => false) = false) :
    lexer ((text.map UInt8.toNat).drop r.start) = ⟨t, r.stop - r.start⟩ := by
  rcases C64_tokens (fallDefinition lexer) hlex.progress 32 37 rfl (fun _ _ _ => Nat.zero_le _)
    (spaceless_of_visible (show visible fallGrammar.rules = true by decide +kernel)
      (hlex.blankStart (isWs := fallIsWs) (by decide +kernel)))
    Check.fall_safe.2 n _ file data h m t r ht hr (buildsNot_sound hno) with h | ⟨i, w, h, h', -⟩
  · exact h
  · have := List.any_eq_false.1 hw _ h
    simp only [beq_iff_eq] at this
    exact absurd h' this

/-- C60. Parsed files are as the analysis expects. -/
theorem C60_parsed : ConsistentFile (⟨text, file.nodes⟩ : File UInt8) ∧ Shaped ⟨text, file.nodes⟩ := by
  obtain ⟨hc, ht⟩ := fall_consistent hlex h
  have hf : ConsistentFile (⟨text, file.nodes⟩ : File UInt8) := by
    refine ⟨hc.nodes, ?_⟩
    have := hc.covers
    rw [ht, List.length_map] at this
    exact this
  obtain ⟨c1, c2, c3, c4, c5, c6, c7, c8, -⟩ := C64_fall_child hlex h
  obtain ⟨w1, -⟩ := C64_fall_within hlex h
  have hisn : ∀ {m : Nat} {t : NodeType}, OfType (⟨text, file.nodes⟩ : File UInt8) t m → IsNode (⟨text, file.nodes⟩ : File UInt8) m :=
    fun h => ofType_isNode h
  have child : ∀ {T t' : NodeType} {m c : Nat}, OfType (⟨text, file.nodes⟩ : File UInt8) T m → Child file m c →
      file.ty c = some t' → ∃ c, FirstChild (⟨text, file.nodes⟩ : File UInt8) m (OfType ⟨text, file.nodes⟩ t') c := by
    intro T t' m c hm h1 h2
    have hn := hisn hm
    refine Classical.byContradiction fun hno => ?_
    have := (firstChild_some hf hn t' (o := none)).2 fun c hc => hno ⟨c, hc⟩
    rw [firstChild_eq hf hn, Option.some.injEq, List.find?_eq_none] at this
    obtain ⟨cs, h4, h5⟩ := h1
    have h4 : File.children (⟨text, file.nodes⟩ : File UInt8) m = some cs := h4
    rw [children_kids hn, Option.some.injEq] at h4
    subst h4
    have h2 : File.ty (⟨text, file.nodes⟩ : File UInt8) c = some t' := h2
    rw [ty_dat (kids_isNode hf hn c h5), Option.some.injEq] at h2
    exact this c h5 (by simp [h2])
  have ident : ∀ {T : NodeType}, HasChild file T [130] → ∀ m, OfType (⟨text, file.nodes⟩ : File UInt8) T m →
      ∃ s, Ident ⟨text, file.nodes⟩ m s := by
    intro T hch m hm
    obtain ⟨c, t, h1, h2, h3⟩ := hch m hm
    rw [List.mem_singleton] at h3
    subst h3
    obtain ⟨c, hc⟩ := child hm h1 h2
    obtain ⟨s, hs, -⟩ := labelled_first hf hc
    exact ⟨s, hs⟩
  refine ⟨hf, ?_, ?_, ?_, ?_⟩
  · intro m hm
    refine ⟨?_, ?_⟩
    · by_cases hi : ∃ s, Ident (⟨text, file.nodes⟩ : File UInt8) m s
      · obtain ⟨s, hi⟩ := hi
        exact ⟨s, .inl hi⟩
      · have hno : ∀ s, ¬ Ident (⟨text, file.nodes⟩ : File UInt8) m s := fun s hs => hi ⟨s, hs⟩
        obtain ⟨c, t, h1, h2, h3⟩ := c6 m hm
        obtain ⟨c', hc'⟩ := child hm h1 h2
        obtain ⟨s, hs, -⟩ := labelled_first hf hc'
        simp only [List.mem_cons, List.not_mem_nil, or_false] at h3
        rcases h3 with rfl | rfl
        · exact absurd hs (hno s)
        · exact ⟨s, .inr ⟨hno, hs⟩⟩
    · obtain ⟨res, h1, -, h3⟩ := astAncestor_spec hf.nodes (hisn hm) (· == Ty.synRule)
      obtain ⟨a, h4, h5⟩ := w1 135 (by simp) m hm
      have h4 : Desc (⟨text, file.nodes⟩ : File UInt8) a m := by
        clear h5 h3 h1
        induction h4 with
        | refl => exact .refl _
        | step hc _ ih => exact .step hc (ih hm)
      cases res with
      | none =>
        have := h3 rfl a 132 h4 h5
        simp [Ty.synRule] at this
      | some r => exact ⟨r, (enclosing_eval hf (hisn hm) h1).1⟩
  · intro t m ht hm
    simp only [List.mem_cons, List.not_mem_nil, or_false] at ht
    rcases ht with rfl | rfl | rfl | rfl
    · exact ident c2 m hm
    · exact ident c5 m hm
    · exact ident c1 m hm
    · exact ident c3 m hm
  · intro m hm
    obtain ⟨c, t, h1, h2, h3⟩ := c7 m hm
    rw [List.mem_singleton] at h3
    subst h3
    obtain ⟨sel, hsel⟩ := child hm h1 h2
    have hty : OfType (⟨text, file.nodes⟩ : File UInt8) 154 sel := by
      obtain ⟨_, -, _, _, -, hty, -⟩ := hsel
      exact hty
    obtain ⟨s, hs⟩ := ident c8 sel hty
    exact ⟨sel, s, hsel, hs⟩
  · intro m s hm hs
    obtain ⟨r, hr⟩ := range_total (hisn hm)
    have hlx := fall_token hlex h (m := m) (t := 128) (r := r) hm hr (by decide +kernel) (by decide +kernel)
    rcases hlex.token ((text.map UInt8.toNat).drop r.start) with he | ⟨rule, h1, h2, h3⟩
    · rw [hlx] at he
      cases he
    · rw [hlx] at h2 h3
      have hmem : rule ∈ fallLexRules.filter fun r => r.ty == 128 := by
        rw [List.mem_filter]
        exact ⟨h1, by simpa using h2⟩
      have hone : fallLexRules.filter (fun r => r.ty == 128) =
        [⟨128, .seq (.text [39]) (.seq (.star (.alt (.not [39, 92]) (.seq (.text [92]) .line))) (.text [39])), none⟩] := rfl
      rw [hone, List.mem_singleton] at hmem
      subst hmem
      have h3 : Matches (.seq (.text [39]) (.seq (.star (.alt (.not [39, 92]) (.seq (.text [92]) .line))) (.text [39])))
        (((text.map UInt8.toNat).drop r.start).take (r.stop - r.start)) := h3
      have quote : ∀ s, Matches (.text [39]) s → s = [39] := by
        intro s hs
        cases hs with
        | set h1 h2 h3 =>
          simp only [List.mem_singleton, Prod.mk.injEq] at h1
          obtain ⟨rfl, rfl⟩ := h1
          rw [Nat.le_antisymm h3 h2]
      obtain ⟨x, y, h4, h5, h6⟩ := Re.seq_iff.1 h3
      obtain ⟨y, z, rfl, -, h7⟩ := Re.seq_iff.1 h6
      rw [quote x h5, quote z h7, ← List.map_drop, ← List.map_take] at h4
      have hrng : rng (⟨text, file.nodes⟩ : File UInt8) m = r := by
        have := hr
        simp only [File.range, data_dat (hisn hm), Option.map_some, Option.some.injEq] at this
        exact this
      rw [textOf_eq hf (hisn hm), Option.some.injEq, hrng, bytes] at hs
      rw [hs] at h4
      rw [List.singleton_append, List.map_eq_cons_iff] at h4
      obtain ⟨a, l, rfl, ha, h4⟩ := h4
      rw [List.map_eq_append_iff] at h4
      obtain ⟨l1, l2, rfl, -, h4⟩ := h4
      rw [List.map_eq_cons_iff] at h4
      obtain ⟨b, l3, rfl, hb, h4⟩ := h4
      rw [List.map_eq_nil_iff] at h4
      subst h4
      have e : ∀ a : UInt8, a.toNat = 39 → a = 39 := fun a h => UInt8.toNat_inj.1 h
      rw [e a ha, e b hb]
      exact ⟨l1, [], [], 39, by simp, by simp, by simp, .inl ⟨⟨_, rfl⟩, rfl⟩⟩

/-- C60. The queries that panic for parsed files. -/
theorem C60_fall (q : Query) (hq : QueryTyped ⟨text, file.nodes⟩ q) :
    (∃ ds, Eval (analysisBody ⟨text, file.nodes⟩) (analysisBody ⟨text, file.nodes⟩ q) none ds) ↔
      PanicsAt ⟨text, file.nodes⟩ q := by
  obtain ⟨h1, h2⟩ := C60_parsed hlex h
  exact C60_panics _ h1 h2 q hq

/-- C60. When collecting the diagnostics of a parsed file panics. -/
theorem C60_fall_collect :
    (∃ ds, Eval (analysisBody ⟨text, file.nodes⟩) (collectRequests ⟨text, file.nodes⟩) none ds) ↔
      (∃ rule, OfType ⟨text, file.nodes⟩ 132 rule ∧ Bodyless ⟨text, file.nodes⟩ rule) ∨
      ((∃ n, OfType ⟨text, file.nodes⟩ 150 n) ∧ NamelessTrait ⟨text, file.nodes⟩) := by
  obtain ⟨h1, h2⟩ := C60_parsed hlex h
  exact C60_collect _ h1 h2

end

/-- The diagnostics of a text: whether the parser succeeds, and whether collecting the diagnostics succeeds. -/
def collected (text : List UInt8) : Option Bool :=
  match (fallDefinition (ruleLexer fallLexRules)).parse 1000 (text.map UInt8.toNat) with
  | .ok (file, _) =>
    match runFuel (analysisBody ⟨text, file.nodes⟩) 100 (collectRequests ⟨text, file.nodes⟩) with
    | some (o, _) => some o.isSome
    | none => none
  | _ => none

theorem collected_sound {text : List UInt8} {b : Bool} (h : collected text = some b) :
    ∃ file data, (fallDefinition (ruleLexer fallLexRules)).parse 1000 (text.map UInt8.toNat) = .ok (file, data) ∧
      ∃ o ds, Eval (analysisBody ⟨text, file.nodes⟩) (collectRequests ⟨text, file.nodes⟩) o ds ∧ o.isSome = b := by
  unfold collected at h
  split at h
  · rename_i file data hp
    split at h
    · rename_i o ds hr
      rw [Option.some.injEq] at h
      exact ⟨file, data, hp, o, ds, runFuel_eval hr, h⟩
    · cases h
  · cases h

/-- The text `rule a { a 'b' <c 'd'> }`. -/
example : collected [114, 117, 108, 101, 32, 97, 32, 123, 32, 97, 32, 39, 98, 39, 32, 60, 99, 32, 39, 100, 39, 62, 32,
    125] = some true := by
  decide +kernel

/-- The hypotheses hold for the text `#[atom] rule a`, and its rule is an operator rule without a body. -/
example : ∃ f : File UInt8, ConsistentFile f ∧ Shaped f ∧
    ((∃ rule, OfType f 132 rule ∧ Bodyless f rule) ∨ ((∃ n, OfType f 150 n) ∧ NamelessTrait f)) := by
  have hlex : LexesBy fallLexRules (ruleLexer fallLexRules) := ruleLexer_lexes _
  obtain ⟨file, data, h, o, ds, h2, h3⟩ := collected_sound (b := false)
    (text := [35, 91, 97, 116, 111, 109, 93, 32, 114, 117, 108, 101, 32, 97]) (by decide +kernel)
  obtain ⟨h4, h5⟩ := C60_parsed hlex h
  cases o with
  | none => exact ⟨_, h4, h5, (C60_collect _ h4 h5).1 ⟨ds, h2⟩⟩
  | some v => cases h3

/-- C60, counterexample to "the analysis of a grammar that is being edited does not panic": with the texts
`#[atom] rule a` and `ast { node a {} trait }`, which are parsed without a panic, collecting the diagnostics panics. -/
theorem C60_edit_counterexample :
    (∃ file data, (fallDefinition (ruleLexer fallLexRules)).parse 1000
        (([35, 91, 97, 116, 111, 109, 93, 32, 114, 117, 108, 101, 32, 97] : List UInt8).map UInt8.toNat) =
          .ok (file, data) ∧
      ∃ ds, Eval (analysisBody ⟨[35, 91, 97, 116, 111, 109, 93, 32, 114, 117, 108, 101, 32, 97], file.nodes⟩)
        (collectRequests ⟨[35, 91, 97, 116, 111, 109, 93, 32, 114, 117, 108, 101, 32, 97], file.nodes⟩) none ds) ∧
    (∃ file data, (fallDefinition (ruleLexer fallLexRules)).parse 1000
        (([97, 115, 116, 32, 123, 32, 110, 111, 100, 101, 32, 97, 32, 123, 125, 32, 116, 114, 97, 105, 116, 32, 125] :
          List UInt8).map UInt8.toNat) = .ok (file, data) ∧
      ∃ ds, Eval (analysisBody ⟨[97, 115, 116, 32, 123, 32, 110, 111, 100, 101, 32, 97, 32, 123, 125, 32, 116, 114, 97,
          105, 116, 32, 125], file.nodes⟩)
        (collectRequests ⟨[97, 115, 116, 32, 123, 32, 110, 111, 100, 101, 32, 97, 32, 123, 125, 32, 116, 114, 97, 105,
          116, 32, 125], file.nodes⟩) none ds) := by
  have key : ∀ text, collected text = some false →
      ∃ file data, (fallDefinition (ruleLexer fallLexRules)).parse 1000 (text.map UInt8.toNat) = .ok (file, data) ∧
        ∃ ds, Eval (analysisBody ⟨text, file.nodes⟩) (collectRequests ⟨text, file.nodes⟩) none ds := by
    intro text h
    obtain ⟨file, data, h1, o, ds, h2, h3⟩ := collected_sound h
    cases o with
    | none => exact ⟨file, data, h1, ds, h2⟩
    | some v => cases h3
  exact ⟨key _ (by decide +kernel), key _ (by decide +kernel)⟩

end Fall
