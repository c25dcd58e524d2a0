import Verif.Lemmas.Layout
import Verif.Props.JsonText
import Verif.Props.FallReparse

/-!
C106: white space and comments between tokens do not change the tree.
-/

namespace Fall

open Spec

/-- The outlines of two parses of indistinct texts. -/
theorem layout_of {d : Definition} {ty body : Nat} (hp : Progress d.lexer)
    (hstart : d.rules[0]? = some (.pub ty body false)) (hb : BoundedBinder d.binder) (hs : SpacelessStrings d)
    {n n' : Nat} {text text' : List Nat} {file file' : File Nat} {data data' : Definition.IncrementalData}
    (h : d.parse n text = .ok (file, data)) (h' : d.parse n' text' = .ok (file', data'))
    (hi : Indistinct (Env.new none d.grammar d.isWs text data.tokens) (Env.new none d.grammar d.isWs text' data'.tokens)) :
    ∃ ops ops', newFile text ops = some file ∧ newFile text' ops' = some file' ∧
      inkedOps d.isWs ops = inkedOps d.isWs ops' ∧
      ∀ T, d.isWs T = false → ((∃ m : Nat, file.ty m = some T) ↔ ∃ m : Nat, file'.ty m = some T) := by
  obtain ⟨t, kids, plain, ticks, h1, h2, h3, h4, h5, h6⟩ := parse_parts hp hstart hb hs h
  obtain ⟨t', kids', plain', ticks', i1, i2, i3, i4, i5, i6⟩ := parse_parts hp hstart hb hs h'
  have he : data.events = data'.events := by
    have j2 := hi.synParse n
    rw [h2] at j2
    rcases Nat.le_total n n' with hle | hle
    · rcases synParse_le _ hle with h | h
      · rw [h] at j2; cases j2
      · rw [h, j2] at i2
        simp only [Result.ok.injEq, Prod.mk.injEq] at i2
        exact i2.1
    · rcases synParse_le _ hle with h | h
      · rw [h] at i2; cases i2
      · rw [h, i2] at j2
        simp only [Result.ok.injEq, Prod.mk.injEq] at j2
        exact j2.1.symm
  rw [he, i3, Result.ok.injEq] at h3
  subst h3
  have ho : inkedOps d.isWs (Forest.node t kids .nil).ops = inkedOps d.isWs (Forest.node t' kids' .nil).ops :=
    (inkedOps_places h4).trans (inkedOps_places i4).symm
  refine ⟨_, _, h5, i5, ho, fun T hT => ?_⟩
  have key : ∀ {f : File Nat} {F : Forest}, f.nodes = F.flatten none 0 0 →
      ((∃ m : Nat, f.ty m = some T) ↔ .start T ∈ inkedOps d.isWs F.ops ∨ .leaf T 0 ∈ inkedOps d.isWs F.ops) := by
    intro f F hf
    have e := Forest.flatten_types F T none 0 0
    rw [← hf] at e
    have e1 : (∃ m : Nat, f.ty m = some T) ↔ ∃ x ∈ f.nodes, x.ty = T := by
      constructor
      · rintro ⟨m, hm⟩
        obtain ⟨x, hx, hT⟩ : ∃ x : NodeData, f.nodes[m]? = some x ∧ x.ty = T := by simpa [File.ty, File.data] using hm
        exact ⟨x, List.mem_of_getElem? hx, hT⟩
      · rintro ⟨x, hx, hT⟩
        obtain ⟨m, hm⟩ := List.getElem?_of_mem hx
        exact ⟨m, by simp [File.ty, File.data, hm, hT]⟩
    rw [e1, e]
    refine or_congr ?_ ?_
    · simp only [inkedOps, List.mem_flatMap]
      constructor
      · exact fun h => ⟨_, h, by simp⟩
      · rintro ⟨op, hop, hm⟩
        cases op with
        | leaf ty len => split at hm <;> simp_all
        | start ty => simp at hm; rwa [hm]
        | finish => simp at hm
    · simp only [inkedOps, List.mem_flatMap]
      constructor
      · rintro ⟨len, h⟩
        exact ⟨_, h, by simp [hT]⟩
      · rintro ⟨op, hop, hm⟩
        cases op with
        | leaf ty len => simp at hm; exact ⟨len, by rw [hm.2]; exact hop⟩
        | start ty => simp at hm
        | finish => simp at hm
  rw [key h6, key i6, ho]

/-- C106. If two texts have the same tokens, with the same texts, but for whitespace and comments, their trees have the
same nodes and tokens in the same order and nesting, but for whitespace and comments; in particular one has an error
if and only if the other has. The strings of the grammar must be parts of single tokens. -/
theorem C106_layout (d : Definition) (ty body : Nat) (hp : Progress d.lexer)
    (hstart : d.rules[0]? = some (.pub ty body false)) (hb : BoundedBinder d.binder) (hs : SpacelessStrings d)
    (n n' : Nat) (text text' : List Nat) (file file' : File Nat) (data data' : Definition.IncrementalData)
    (h : d.parse n text = .ok (file, data)) (h' : d.parse n' text' = .ok (file', data'))
    (hw : WholeWords d text) (hw' : WholeWords d text') (tokens tokens' : List Token)
    (hl : IsLexing d.lexer text tokens) (hl' : IsLexing d.lexer text' tokens')
    (hi : inked d.isWs text tokens = inked d.isWs text' tokens') :
    ∃ ops ops', newFile text ops = some file ∧ newFile text' ops' = some file' ∧
      inkedOps d.isWs ops = inkedOps d.isWs ops' ∧
      ∀ T, d.isWs T = false → ((∃ m : Nat, file.ty m = some T) ↔ ∃ m : Nat, file'.ty m = some T) := by
  obtain ⟨_, _, _, _, h1, -⟩ := parse_parts hp hstart hb hs h
  obtain ⟨_, _, _, _, h1', -⟩ := parse_parts hp hstart hb hs h'
  obtain rfl := h1.unique hl
  obtain rfl := h1'.unique hl'
  exact layout_of hp hstart hb hs h h' (indistinct_inked h1 h1' hw hw' hi)

/-- C106. If there are no strings in the grammar, the trees only depend on the types of the tokens that are neither
whitespace nor comments. -/
theorem C106_types (d : Definition) (ty body : Nat) (hp : Progress d.lexer)
    (hstart : d.rules[0]? = some (.pub ty body false)) (hb : BoundedBinder d.binder)
    (hn : ∀ ty w, .contextualToken ty w ∉ d.rules)
    (n n' : Nat) (text text' : List Nat) (file file' : File Nat) (data data' : Definition.IncrementalData)
    (h : d.parse n text = .ok (file, data)) (h' : d.parse n' text' = .ok (file', data')) (tokens tokens' : List Token)
    (hl : IsLexing d.lexer text tokens) (hl' : IsLexing d.lexer text' tokens')
    (hi : (inked d.isWs text tokens).map (·.1) = (inked d.isWs text' tokens').map (·.1)) :
    ∃ ops ops', newFile text ops = some file ∧ newFile text' ops' = some file' ∧
      inkedOps d.isWs ops = inkedOps d.isWs ops' ∧
      ∀ T, d.isWs T = false → ((∃ m : Nat, file.ty m = some T) ↔ ∃ m : Nat, file'.ty m = some T) := by
  have hs : SpacelessStrings d := fun ty w hr => absurd hr (hn ty w)
  obtain ⟨_, _, _, _, h1, -⟩ := parse_parts hp hstart hb hs h
  obtain ⟨_, _, _, _, h1', -⟩ := parse_parts hp hstart hb hs h'
  obtain rfl := h1.unique hl
  obtain rfl := h1'.unique hl'
  exact layout_of hp hstart hb hs h h' (indistinct_types h1 h1' hn hi)

/-- C106. With the same number of steps both texts are parsed, or none of them. -/
theorem C106_parses (d : Definition) (ty body : Nat) (hp : Progress d.lexer)
    (hstart : d.rules[0]? = some (.pub ty body false)) (hb : BoundedBinder d.binder) (hs : SpacelessStrings d)
    (hk : Linked d.grammar) (n : Nat) (text text' : List Nat) (file : File Nat) (data : Definition.IncrementalData)
    (h : d.parse n text = .ok (file, data)) (hw : WholeWords d text) (hw' : WholeWords d text')
    (tokens tokens' : List Token) (hl : IsLexing d.lexer text tokens) (hl' : IsLexing d.lexer text' tokens')
    (hi : inked d.isWs text tokens = inked d.isWs text' tokens') :
    ∃ file' data', d.parse n text' = .ok (file', data') := by
  obtain ⟨_, _, _, ticks, h1, h2, -⟩ := parse_parts hp hstart hb hs h
  obtain rfl := h1.unique hl
  have hsyn := ((indistinct_inked h1 hl' hw hw' hi).synParse n).trans h2
  obtain ⟨ts, i1, i2, i3, i4⟩ := C10_lex_tiles d.lexer hp text'
  obtain rfl := i2.unique hl'
  obtain ⟨t, kids, h5, h6⟩ := parseTokens_of_synParse hstart hb i4 i3 (plainStrings_of_lexer hs i2 none)
    (Linked.linksOk (by exact hk)) hsyn
  obtain ⟨f, h8, _⟩ := C14_build_consistent _ (forest_singleRoot t kids) text' h5.symm
  exact ⟨f, ⟨ts, data.events⟩, by simp only [Definition.parse, i1, Result.ofOption, bind, Result.bind, h6 n hsyn, h8, pure]⟩

/-- The strings of the grammar of the Fall language are names. -/
theorem fall_whole {lexer : Lexer Nat} (hl : LexesLongest fallLexRules lexer) (text : List Nat) :
    WholeWords (fallDefinition lexer) text := by
  intro ty w hr rest _
  have key : fallGrammar.rules.all (fun x => match x with
    | .contextualToken _ w => !w.isEmpty && w.all fun c => 97 ≤ c && c ≤ 122 | _ => true) = true := by decide +kernel
  have hw := List.all_eq_true.1 key _ hr
  simp only [Bool.and_eq_true, Bool.not_eq_true', List.isEmpty_eq_false_iff, List.all_eq_true, decide_eq_true_eq] at hw
  have hf : FindsHere ⟨130, .plus .word, none⟩ (w ++ rest) w.length := by
    refine ⟨List.length_pos_iff.2 hw.1, by simp, ?_⟩
    show Matches _ _
    rw [List.take_left]
    exact JsonWritten.plus_wide hw.1 fun c hc => ⟨(97, 122), by simp, hw.2 c hc⟩
  have hm : (⟨130, .plus .word, none⟩ : LexRule) ∈ fallLexRules := by simp [fallLexRules]
  exact (hl.found _ ⟨_, hm, _, hf⟩).max hm hf

/-- C106. For the Fall language: any two texts with the same tokens but for whitespace and comments are parsed, and the
trees are the same but for whitespace and comments. -/
theorem C106_fall (lexer : Lexer Nat) (hl : LexesLongest fallLexRules lexer) (text text' : List Nat)
    (tokens tokens' : List Token) (ht : IsLexing lexer text tokens) (ht' : IsLexing lexer text' tokens')
    (hi : inked fallIsWs text tokens = inked fallIsWs text' tokens') :
    ∃ n file file' data data' ops ops', (fallDefinition lexer).parse n text = .ok (file, data) ∧
      (fallDefinition lexer).parse n text' = .ok (file', data') ∧
      newFile text ops = some file ∧ newFile text' ops' = some file' ∧
      inkedOps fallIsWs ops = inkedOps fallIsWs ops' ∧
      ((∃ m : Nat, file.ty m = some ERROR) ↔ ∃ m : Nat, file'.ty m = some ERROR) := by
  have hw : BlankStart fallIsWs lexer := hl.lexesBy.blankStart (by decide +kernel)
  have hs : SpacelessStrings (fallDefinition lexer) :=
    spaceless_of_visible (show visible fallGrammar.rules = true by decide +kernel) hw
  obtain ⟨file, data, h, -⟩ := C34_fall_total lexer hl.progress hw text
  have h := h _ (Nat.le_refl _)
  obtain ⟨file', data', h'⟩ := C106_parses (fallDefinition lexer) 32 37 hl.progress rfl (fun _ _ _ => Nat.zero_le _) hs
    Check.fall_safe.2 _ text text' file data h (fall_whole hl text) (fall_whole hl text') tokens tokens' ht ht' hi
  obtain ⟨ops, ops', h1, h2, h3, h4⟩ := C106_layout (fallDefinition lexer) 32 37 hl.progress rfl
    (fun _ _ _ => Nat.zero_le _) hs _ _ text text' file file' data data' h h' (fall_whole hl text) (fall_whole hl text')
    tokens tokens' ht ht' hi
  exact ⟨_, file, file', data, data', ops, ops', h, h', h1, h2, h3, h4 ERROR rfl⟩

/-- `rule a{b}` and the same with blanks, a line feed and a comment. `C106_fall` applies `C106_layout` and
`C106_parses`, so this is a case of these, too. -/
example : ∃ n file file' data data' ops ops',
    (fallDefinition (ruleLexer (fallLexRules.map LexRule.calm))).parse n [114, 117, 108, 101, 32, 97, 123, 98, 125] =
      .ok (file, data) ∧
    (fallDefinition (ruleLexer (fallLexRules.map LexRule.calm))).parse n
      [114, 117, 108, 101, 10, 97, 32, 123, 32, 98, 32, 47, 47, 99, 10, 125, 32] = .ok (file', data') ∧
    newFile [114, 117, 108, 101, 32, 97, 123, 98, 125] ops = some file ∧
    newFile [114, 117, 108, 101, 10, 97, 32, 123, 32, 98, 32, 47, 47, 99, 10, 125, 32] ops' = some file' ∧
    inkedOps fallIsWs ops = inkedOps fallIsWs ops' ∧
    ((∃ m : Nat, file.ty m = some ERROR) ↔ ∃ m : Nat, file'.ty m = some ERROR) :=
  have hl := calm_longest fallLexRules
  have hpos := fun text h => (hl.progress text h).1
  C106_fall _ hl [114, 117, 108, 101, 32, 97, 123, 98, 125]
    [114, 117, 108, 101, 10, 97, 32, 123, 32, 98, 32, 47, 47, 99, 10, 125, 32]
    [⟨130, 4⟩, ⟨100, 1⟩, ⟨130, 1⟩, ⟨119, 1⟩, ⟨130, 1⟩, ⟨120, 1⟩]
    [⟨130, 4⟩, ⟨100, 1⟩, ⟨130, 1⟩, ⟨100, 1⟩, ⟨119, 1⟩, ⟨100, 1⟩, ⟨130, 1⟩, ⟨100, 1⟩, ⟨101, 3⟩, ⟨100, 1⟩, ⟨120, 1⟩, ⟨100, 1⟩]
    (C10_lex_sound _ hpos _ _ (by decide +kernel)) (C10_lex_sound _ hpos _ _ (by decide +kernel)) (by decide)

/-- `[1,null]` and `[ 22 , null ]` in JSON. -/
example (file file' : File Nat) (data data' : Definition.IncrementalData)
    (h : (jsonDefinition (ruleLexer jsonLexRules)).parse 200 [91, 49, 44, 110, 117, 108, 108, 93] = .ok (file, data))
    (h' : (jsonDefinition (ruleLexer jsonLexRules)).parse 300 [91, 32, 50, 50, 32, 44, 32, 110, 117, 108, 108, 32, 93] =
      .ok (file', data')) :
    ∃ ops ops', newFile [91, 49, 44, 110, 117, 108, 108, 93] ops = some file ∧
      newFile [91, 32, 50, 50, 32, 44, 32, 110, 117, 108, 108, 32, 93] ops' = some file' ∧
      inkedOps jsonIsWs ops = inkedOps jsonIsWs ops' ∧
      ∀ T, jsonIsWs T = false → ((∃ m : Nat, file.ty m = some T) ↔ ∃ m : Nat, file'.ty m = some T) :=
  have hp := (ruleLexer_lexes jsonLexRules).progress
  have hpos := fun text h => (hp text h).1
  C106_types (jsonDefinition (ruleLexer jsonLexRules)) 12 14 hp rfl (fun _ _ _ => Nat.zero_le _)
    (fun ty w hr => by
      have key : jsonRules.all (fun x => match x with | .contextualToken _ _ => false | _ => true) = true := by
        decide +kernel
      have := List.all_eq_true.1 key _ hr
      simp at this) 200 300 _ _ file file' data data' h h'
    [⟨103, 1⟩, ⟨110, 1⟩, ⟨106, 1⟩, ⟨107, 4⟩, ⟨104, 1⟩]
    [⟨103, 1⟩, ⟨100, 1⟩, ⟨110, 2⟩, ⟨100, 1⟩, ⟨106, 1⟩, ⟨100, 1⟩, ⟨107, 4⟩, ⟨100, 1⟩, ⟨104, 1⟩]
    (C10_lex_sound _ hpos _ _ (by decide +kernel)) (C10_lex_sound _ hpos _ _ (by decide +kernel)) (by decide)

/-- Both texts are parsed. -/
example : (match (jsonDefinition (ruleLexer jsonLexRules)).parse 200 [91, 49, 44, 110, 117, 108, 108, 93],
    (jsonDefinition (ruleLexer jsonLexRules)).parse 300 [91, 32, 50, 50, 32, 44, 32, 110, 117, 108, 108, 32, 93] with
    | .ok _, .ok _ => true
    | _, _ => false) = true := by decide +kernel

/-- A language of the operators `>` and `>>`, where the second one is a string of the grammar, as in Rust. -/
def arrows : Definition where
  nodeTypes := [102, 101, 103]
  rules := [.pub 0 1 false, .rep 2, .or [3, 4], .contextualToken 2 [62, 62], .token 1]
  binder _ _ _ := 0
  lexer := ruleLexer [⟨100, .plus .blank, none⟩, ⟨101, .text [62], none⟩]
  isWs ty := ty == 100

/-- C106. Strings of the grammar that are more than one token are only found if there is nothing between the tokens:
`>>` and `> >` have the same tokens but for whitespace, and other trees. -/
theorem C106_words_counterexample : ∃ n file file' data data',
    arrows.parse n [62, 62] = .ok (file, data) ∧ arrows.parse n [62, 32, 62] = .ok (file', data') ∧
    inked arrows.isWs [62, 62] data.tokens = inked arrows.isWs [62, 32, 62] data'.tokens ∧
    (∃ m : Nat, file.ty m = some 103) ∧ ¬ ∃ m : Nat, file'.ty m = some 103 := by
  have h1 : arrows.parse 50 [62, 62] = .ok (⟨[62, 62], [⟨102, none, [1], ⟨0, 2⟩⟩, ⟨103, some 0, [], ⟨0, 2⟩⟩]⟩,
    ⟨[⟨101, 1⟩, ⟨101, 1⟩], [.start 102 none, .token 103 2, .fin]⟩) := by decide +kernel
  have h2 : arrows.parse 50 [62, 32, 62] = .ok (⟨[62, 32, 62], [⟨102, none, [1, 2, 3], ⟨0, 3⟩⟩,
    ⟨101, some 0, [], ⟨0, 1⟩⟩, ⟨100, some 0, [], ⟨1, 2⟩⟩, ⟨101, some 0, [], ⟨2, 3⟩⟩]⟩,
    ⟨[⟨101, 1⟩, ⟨100, 1⟩, ⟨101, 1⟩], [.start 102 none, .token 101 1, .token 101 1, .fin]⟩) := by decide +kernel
  refine ⟨50, _, _, _, _, h1, h2, by decide, ⟨1, by decide⟩, ?_⟩
  rintro ⟨m, hm⟩
  match m with
  | 0 | 1 | 2 | 3 => simp [File.ty, File.data] at hm
  | m + 4 => simp [File.ty, File.data] at hm

end Fall
