import Verif.Lemmas.Promise
import Verif.Lemmas.PromiseCheck
import Verif.Lemmas.PromiseBars
import Verif.Lemmas.LexRules
import Verif.Props.Syn
import Verif.Props.Total

/-!
C64: what the typed accessors of trees rely on is promised by the grammar.
-/

namespace Fall

open Spec

theorem sigTy_lexed {lexer : Lexer Nat} {text : List Nat} {tokens : List Token} {g : Grammar} {isWs : NodeType → Bool}
    {T : NodeType} (hn : NeverLexed lexer T) (hl : IsLexing lexer text tokens) (i : Nat) :
    sigTy (Env.new none g isWs text tokens) i ≠ some T := by
  intro h
  simp only [sigTy, Option.map_eq_some_iff] at h
  obtain ⟨t, ht, rfl⟩ := h
  obtain ⟨_, k, _, hk⟩ := sigToken_some ht
  simp only [Env.new] at hk
  have := IsLexing.token hl hk
  exact hn _ (by rw [this])

/-- C64. If the grammar promises it, every node of type `T` in every parsed file has a child of one of the types. -/
theorem C64_child (d : Definition) (hp : Progress d.lexer) (ty body : Nat)
    (hstart : d.rules[0]? = some (.pub ty body false)) (hb : BoundedBinder d.binder) (hs : SpacelessStrings d)
    (hl : Linked d.grammar) (T : NodeType) (S : List NodeType) (linked : Bool) (hT : NeverLexed d.lexer T)
    (hpr : Promises d.grammar T S linked) (n : Nat) (text : List Nat) (file : File Nat)
    (data : Definition.IncrementalData) (h : d.parse n text = .ok (file, data)) : HasChild file T S := by
  obtain ⟨t, kids, I, tokens, h1, h2, h3, h4, h5, _, h6, J, k, h7, h8⟩ := parse_reading hp hstart hb hs hl h
  have ht := sigTy_lexed (g := d.grammar) (isWs := d.isWs) hT h1
  have hA := Parser.passed_new d.grammar
  obtain ⟨k1, k2⟩ := h7.kept hpr hl ht hA
  have hI : I.Kept T S linked false ∧ (I.has S = false → J.has S = false) := by
    rcases h8 with rfl | ⟨S', j, h9, rfl⟩
    · exact ⟨k1, id⟩
    · refine ⟨k1.append ⟨fun h => absurd h.symm hpr.error, h9.kept hpr hl ht hA, trivial⟩, fun h => ?_⟩
      simp only [Items.has_append, Bool.or_eq_false_iff] at h
      exact h.1
  have hroot : (Items.node t I .nil).Kept T S linked false := by
    refine ⟨?_, hI.1, trivial⟩
    rintro rfl
    by_cases hh : I.has S = true
    · simp [hh]
    · exact absurd (k2 (hI.2 (by simpa using hh))) (hpr.pub 0 ty body false hstart (Or.inl h6))
  obtain ⟨b, hb, _⟩ := hroot.good Good.nil 0 false []
  have htok : ∀ x, x ∈ tokens → x.ty ≠ T := by
    intro x hx e
    obtain ⟨i, hi⟩ := List.getElem?_of_mem hx
    exact hT _ (by rw [IsLexing.token h1 hi]; exact e)
  obtain ⟨r, hr, _⟩ := places_scan h5 htok (s' := [(0, false)]) (by exact ⟨rfl, id, trivial⟩) hb
  obtain ⟨_, hf⟩ := forest_scan h2 hr
  intro m hm
  obtain ⟨dm, hd, hty⟩ : ∃ dm : NodeData, file.nodes[m]? = some dm ∧ dm.ty = T := by
    simpa [File.ty, File.data] using hm
  obtain ⟨c, e, hc, he, hS⟩ := hf m dm (Nat.zero_le _)
    (by rw [Nat.zero_add, ← h3]; exact (List.getElem?_eq_some_iff.1 hd).1) hd hty
  exact ⟨c, e.ty, ⟨dm.children, by simp [File.children, File.data, hd], hc⟩, by simp [File.ty, File.data, he], hS⟩

/-- C64. If the analysis finds no other place for it, every node of type `T` in every parsed file is inside of a node
of type `A`. -/
theorem C64_within (d : Definition) (hp : Progress d.lexer) (ty body : Nat)
    (hstart : d.rules[0]? = some (.pub ty body false)) (hb : BoundedBinder d.binder) (hs : SpacelessStrings d)
    (hl : Linked d.grammar) (T A : NodeType) (herr : T ≠ ERROR) (hT : NeverLexed d.lexer T)
    (hout : ¬ Outside d.grammar T A 0 (List.replicate 16 none)) (n : Nat) (text : List Nat) (file : File Nat)
    (data : Definition.IncrementalData) (h : d.parse n text = .ok (file, data)) : InsideOf file T A := by
  obtain ⟨t, kids, I, tokens, h1, h2, h3, h4, h5, _, h6, J, k, h7, h8⟩ := parse_reading hp hstart hb hs hl h
  have ht := sigTy_lexed (g := d.grammar) (isWs := d.isWs) hT h1
  have k1 := h7.outside (A := A) herr ht
  have hroot : (Items.node t I .nil).out T A = false := by
    rw [← Bool.not_eq_true]
    intro hh
    have : t = T ∨ (t ≠ A ∧ I.out T A = true) := by simpa [Items.out] using hh
    rcases this with rfl | ⟨hne, hh⟩
    · exact hout (.pub hstart h6)
    · refine hout (.pubBody hstart (Or.inl ?_) (k1 ?_))
      · rw [show d.grammar.nodeTypes[ty]? = some t from h6]
        simpa using hne
      · rcases h8 with rfl | ⟨S', j, h9, rfl⟩
        · exact hh
        · have : S'.out T A = false := h9.outside herr ht
          simpa [Items.out_append, Items.out, this, beq_eq_false_iff_ne.2 herr.symm] using hh
  have hg := items_goodIn (b := false) (fe := []) (Or.inr hroot) (fun _ _ => .nil) []
  have htok : ∀ x, x ∈ tokens → x.ty ≠ T := by
    intro x hx e
    obtain ⟨i, hi⟩ := List.getElem?_of_mem hx
    exact hT _ (by rw [IsLexing.token h1 hi]; exact e)
  obtain ⟨_, hf⟩ := forest_scanIn h2 (places_scanIn h5 htok hg)
  intro m hm
  obtain ⟨dm, hd, hty⟩ : ∃ dm : NodeData, file.nodes[m]? = some dm ∧ dm.ty = T := by
    simpa [File.ty, File.data] using hm
  exact (hf m dm (Nat.zero_le _)
    (by rw [Nat.zero_add, ← h3]; exact (List.getElem?_eq_some_iff.1 hd).1) hd hty).resolve_left (by simp)

/-- C64. If the grammar keeps them out, no node of the types `P` in any parsed file has a child of one of the types.
Skipped tokens are in nodes of type `ERROR`: if this is one of `P`, the types must not be types of tokens. -/
theorem C64_without (d : Definition) (hp : Progress d.lexer) (ty body : Nat)
    (hstart : d.rules[0]? = some (.pub ty body false)) (hb : BoundedBinder d.binder) (hs : SpacelessStrings d)
    (hl : Linked d.grammar) (P : NodeType → Bool) (S : List NodeType) (hS : ∀ t, t ∈ S → d.isWs t = false)
    (herr : P ERROR = true → ∀ t, t ∈ S → NeverLexed d.lexer t)
    (hbar : Bars d.grammar P S) (n : Nat) (text : List Nat) (file : File Nat)
    (data : Definition.IncrementalData) (h : d.parse n text = .ok (file, data)) (T : NodeType) (hT : P T = true) :
    NoChild file T S := by
  obtain ⟨t, kids, I, tokens, h1, h2, h3, h4, h5, _, h6, J, k, h7, h8⟩ := parse_reading hp hstart hb hs hl h
  have hA := Parser.passed_new d.grammar
  have htok : P ERROR = true → ∀ i t, sigTy (Env.new none d.grammar d.isWs text tokens) i = some t → t ∉ S :=
    fun hE i t hi hm => sigTy_lexed (g := d.grammar) (isWs := d.isWs) (herr hE t hm) h1 i hi
  obtain ⟨k1, k2⟩ := h7.clean hbar htok hA
  have hI : I.Clean P S ∧ I.top S = J.top S := by
    rcases h8 with rfl | ⟨S', j, h9, rfl⟩
    · exact ⟨k1, rfl⟩
    · obtain ⟨k3, k4⟩ := h9.clean hbar htok hA
      refine ⟨k1.append ⟨k4, k3, trivial⟩, ?_⟩
      have := hbar.noError
      simp [Items.top_append, Items.top, this]
  have hroot : P t = true → I.top S = false := by
    intro ht
    rw [hI.2]
    by_cases hh : J.top S = true
    · exact absurd (k2 hh) (hbar.pub 0 ty body false hstart ⟨ty, t, Or.inl rfl, h6, ht⟩)
    · simpa using hh
  have hg := items_goodNo (p := t) (fe := []) hI.1 hroot (.inl rfl)
  have hg' : scanNo P S [] (evOps (Items.node t I .nil).resolve) = some [] := by
    simp only [Items.resolve, Items.resolveWith, evOps, scanNo, evOps_append, scanNo_append, List.nil_append]
    rw [if_neg (fun h => by cases h.1), hg []]
    rfl
  obtain ⟨_, _, hf⟩ := forest_scanNo h2 (places_scanNo hS h5 hg')
  intro m c t' hm hc ht
  obtain ⟨dm, hd, hty⟩ : ∃ dm : NodeData, file.nodes[m]? = some dm ∧ dm.ty = T := by
    simpa [File.ty, File.data] using hm
  obtain ⟨e, he, rfl⟩ : ∃ e : NodeData, file.nodes[c]? = some e ∧ e.ty = t' := by
    simpa [File.ty, File.data] using ht
  obtain ⟨cs, hcs, hc⟩ := hc
  simp only [File.children, File.data, hd, Option.map_some, Option.some.injEq] at hcs
  subst hcs
  exact hf m dm (Nat.zero_le _) (by rw [Nat.zero_add, ← h3]; exact (List.getElem?_eq_some_iff.1 hd).1) hd
    (by rw [hty]; exact hT) c e hc he

/-- C64. A node without children of a parsed file is a token the lexer finds at its place, or a string of the
grammar, or an empty node made by a rule. -/
theorem C64_leaves (d : Definition) (hp : Progress d.lexer) (ty body : Nat)
    (hstart : d.rules[0]? = some (.pub ty body false)) (hb : BoundedBinder d.binder) (hs : SpacelessStrings d)
    (hl : Linked d.grammar) (n : Nat) (text : List Nat) (file : File Nat)
    (data : Definition.IncrementalData) (h : d.parse n text = .ok (file, data)) (m : NodeId) (t : NodeType)
    (r : TextRange) (hm : file.children m = some []) (ht : file.ty m = some t) (hr : file.range m = some r) :
    d.lexer (text.drop r.start) = ⟨t, r.stop - r.start⟩ ∨
    (∃ i w, .contextualToken i w ∈ d.rules ∧ d.nodeTypes[i]? = some t ∧ file.textOf m = some w) ∨
    (Builds d.grammar t ∧ r.start = r.stop) := by
  obtain ⟨t0, kids, I, tokens, h1, h2, h3, h4, h5, ⟨j, h10⟩, h6, J, k, h7, h8⟩ := parse_reading hp hstart hb hs hl h
  have hleaves := places_leaves h5 h10 left_new
  obtain ⟨dm, hd⟩ : ∃ dm : NodeData, file.nodes[m]? = some dm := by
    simp only [File.ty, File.data, Option.map_eq_some_iff] at ht
    exact ht.imp fun _ h => h.1
  simp only [File.ty, File.children, File.range, File.data, hd, Option.map_some, Option.some.injEq] at hm ht hr
  subst ht hr
  rcases forest_leaves h2 hleaves m dm (Nat.zero_le _)
    (by rw [Nat.zero_add, ← h3]; exact (List.getElem?_eq_some_iff.1 hd).1) hd hm with ⟨k1, k2⟩ | k1
  · refine Or.inr (Or.inr ⟨?_, k1⟩)
    obtain ⟨fp, k3⟩ := places_starts h5 k2
    have hJ : J.Types (Builds d.grammar) := h7.builds
    refine Items.Types.resolve (I := .node t0 I .nil) ⟨.pub hstart h6, ?_, trivial⟩ (by simp) _ fp k3
    rcases h8 with rfl | ⟨S', j, h9, rfl⟩
    · exact hJ
    · have : S'.Types (Builds d.grammar) := h9.builds
      exact hJ.append ⟨.error, this, trivial⟩
  · rcases k1 with ⟨pre, x, suf, e, k2, k3, k4⟩ | ⟨i, w, k2, k3, k4, k5⟩
    · left
      simp only [Env.new] at e
      have := IsLexing.token h1 (show tokens[pre.length]? = some x by rw [e]; simp)
      rw [e, List.take_left] at this
      rw [← k4, ← k3, k2, this]
    · refine Or.inr (Or.inl ⟨i, w, k2, k3, ?_⟩)
      have hc := (C31_parse_lossless d hp ty body hstart hb hs n text file data h).1
      have hn : IsNode file m := (List.getElem?_eq_some_iff.1 hd).1
      have hdat : dat file m = dm := by
        have := getElem_dat hn
        rw [hd, Option.some.injEq] at this
        exact this.symm
      rw [textOf_eq hc hn, rng, hdat, h4, Option.some.injEq, bytes, k4]
      exact (List.prefix_iff_eq_take.1 k5).symm

/-- C64. A node of a parsed file whose type is not made by rules is a token the lexer finds at its place, or a string
of the grammar. -/
theorem C64_tokens (d : Definition) (hp : Progress d.lexer) (ty body : Nat)
    (hstart : d.rules[0]? = some (.pub ty body false)) (hb : BoundedBinder d.binder) (hs : SpacelessStrings d)
    (hl : Linked d.grammar) (n : Nat) (text : List Nat) (file : File Nat)
    (data : Definition.IncrementalData) (h : d.parse n text = .ok (file, data)) (m : NodeId) (t : NodeType)
    (r : TextRange) (ht : file.ty m = some t) (hr : file.range m = some r) (hno : ¬ Builds d.grammar t) :
    d.lexer (text.drop r.start) = ⟨t, r.stop - r.start⟩ ∨
    ∃ i w, .contextualToken i w ∈ d.rules ∧ d.nodeTypes[i]? = some t ∧ file.textOf m = some w := by
  have hleaf : file.children m = some [] := by
    obtain ⟨t0, kids, I, tokens, h1, h2, h3, h4, h5, -, h6, J, k, h7, h8⟩ := parse_reading hp hstart hb hs hl h
    obtain ⟨dm, hd⟩ : ∃ dm : NodeData, file.nodes[m]? = some dm := by
      simp only [File.ty, File.data, Option.map_eq_some_iff] at ht
      exact ht.imp fun _ h => h.1
    simp only [File.ty, File.children, File.data, hd, Option.map_some, Option.some.injEq] at ht ⊢
    subst ht
    refine Classical.byContradiction fun hm => hno ?_
    have k2 := forest_starts h2 m dm (Nat.zero_le _)
      (by rw [Nat.zero_add, ← h3]; exact (List.getElem?_eq_some_iff.1 hd).1) hd hm
    obtain ⟨fp, k3⟩ := places_starts h5 k2
    have hJ : J.Types (Builds d.grammar) := h7.builds
    refine Items.Types.resolve (I := .node t0 I .nil) ⟨.pub hstart h6, ?_, trivial⟩ (by simp) _ fp k3
    rcases h8 with rfl | ⟨S', j, h9, rfl⟩
    · exact hJ
    · have : S'.Types (Builds d.grammar) := h9.builds
      exact hJ.append ⟨.error, this, trivial⟩
  rcases C64_leaves d hp ty body hstart hb hs hl n text file data h m t r hleaf ht hr with h | h | h
  · exact .inl h
  · exact .inr h
  · exact absurd h.1 hno

/-- A check that no rule makes nodes of the type. -/
def buildsNot (g : Grammar) (t : NodeType) : Bool :=
  t != ERROR && g.rules.all fun
    | .pub ty _ _ => g.nodeTypes[ty]? != some t
    | .pubReplace ty _ => g.nodeTypes[ty]? != some t
    | .pratt table => table.prefixes.all (fun p => g.nodeTypes[p.ty]? != some t) &&
        table.infixes.all fun p => g.nodeTypes[p.ty]? != some t
    | _ => true

theorem buildsNot_sound {g : Grammar} {t : NodeType} (h : buildsNot g t = true) : ¬ Builds g t := by
  unfold buildsNot at h
  rw [Bool.and_eq_true, List.all_eq_true] at h
  intro hb
  cases hb with
  | error => simp at h
  | pub h1 h2 =>
    have := h.2 _ (List.mem_of_getElem? h1)
    simp [h2] at this
  | pubReplaced _ h1 h2 =>
    obtain ⟨_, _, h1⟩ := h1
    have := h.2 _ (List.mem_of_getElem? h1)
    simp [h2] at this
  | pre h1 h2 h3 =>
    have := h.2 _ (List.mem_of_getElem? h1)
    simp only [Bool.and_eq_true, List.all_eq_true] at this
    have := this.1 _ h2
    simp [h3] at this
  | op h1 h2 h3 =>
    have := h.2 _ (List.mem_of_getElem? h1)
    simp only [Bool.and_eq_true, List.all_eq_true] at this
    have := this.2 _ h2
    simp [h3] at this

example : ¬ Builds fallGrammar 128 ∧ ¬ Builds fallGrammar 130 ∧ Builds fallGrammar 131 :=
  ⟨buildsNot_sound (by decide +kernel), buildsNot_sound (by decide +kernel), .pub (e := 0) (ty := 32) (body := 37) rfl rfl⟩

/-! The grammar of the Fall language, with the accessors of `lang/fall/syntax/src/fall.rs` and `ast_ext.rs`. -/

/-- A lexer that applies rules makes tokens of no other types than those of the rules. -/
theorem neverLexed_rules {rules : List LexRule} {lexer : Lexer Nat} {T : NodeType} (h : LexesBy rules lexer)
    (hT : T ≠ ERROR) (hr : (rules.any fun r => r.ty == T) = false) : NeverLexed lexer T := by
  intro text e
  rcases h.token text with h0 | ⟨r, hm, h1, _⟩
  · exact hT (e ▸ h0)
  · have := List.any_eq_false.1 hr r hm
    simp [h1, e] at this

section
variable {lexer : Lexer Nat} (hlex : LexesBy fallLexRules lexer) {n : Nat} {text : List Nat} {file : File Nat}
  {data : Definition.IncrementalData} (h : (fallDefinition lexer).parse n text = .ok (file, data))
include hlex h

theorem fall_child {T : NodeType} {S : List NodeType} {m : Bool} {bits : Nat}
    (hr : (fallLexRules.any fun r => r.ty == T) = false)
    (hc : Check.fallCert.promises fallGrammar T S m bits = true) : HasChild file T S := by
  have hp := Check.promises_sound hc
  exact C64_child (fallDefinition lexer) hlex.progress 32 37 rfl (fun _ _ _ => Nat.zero_le _)
    (spaceless_of_visible (show visible fallGrammar.rules = true by decide +kernel)
      (hlex.blankStart (isWs := fallIsWs) (by decide +kernel)))
    Check.fall_safe.2 T S m (neverLexed_rules hlex hp.error hr) hp n text file data h

theorem fall_within {T A : NodeType} {gs : Check.Groups} (herr : T ≠ ERROR)
    (hr : (fallLexRules.any fun r => r.ty == T) = false)
    (hc : Check.fallCert.within fallGrammar T A gs = true) : InsideOf file T A :=
  C64_within (fallDefinition lexer) hlex.progress 32 37 rfl (fun _ _ _ => Nat.zero_le _)
    (spaceless_of_visible (show visible fallGrammar.rules = true by decide +kernel)
      (hlex.blankStart (isWs := fallIsWs) (by decide +kernel)))
    Check.fall_safe.2 T A herr (neverLexed_rules hlex herr hr) (Check.within_sound hc) n text file data h

/-- C64. In every parsed grammar there are the children that these accessors expect: the names of lexical rules (line
275), parameters (359), attributes (407), methods (593), called rules (698) and referenced rules (`ast_ext.rs` 138),
the selectors of methods (596) and what they select (620), the operands of `?` (749) and `*` (773), and the text of
strings. -/
theorem C64_fall_child : HasChild file 142 [130] ∧ HasChild file 134 [130] ∧ HasChild file 145 [130] ∧
    HasChild file 153 [130] ∧ HasChild file 140 [130] ∧ HasChild file 135 [130, 128] ∧ HasChild file 153 [154] ∧
    HasChild file 154 [130] ∧ HasChild file 138 [135, 136, 137, 138, 139, 140] ∧
    HasChild file 139 [135, 136, 137, 138, 139, 140] ∧ HasChild file 147 [128, 129] := by
  have ident : ∀ {T : NodeType}, (fallLexRules.any fun r => r.ty == T) = false →
      Check.fallCert.promises fallGrammar T [130] false
        0x3c990f7cff9fd7fffffffffffffffff33effe5f9bfffff98fffffdfffffffffffffff = true → HasChild file T [130] :=
    fun hr hc => fall_child hlex h hr hc
  refine ⟨ident ?_ ?_, ident ?_ ?_, ident ?_ ?_, ident ?_ ?_, ident ?_ ?_,
    fall_child hlex h (m := false)
      (bits := 0x3c990f7cff9fd7ffffffffffffffff933effe5f9bffffc18fffffdfffffffffffffff) ?_ ?_,
    fall_child hlex h (m := false)
      (bits := 0x3fff9fffffffffffffffffffffffffffffffffffffffffffffffffffffffeffffffff) ?_ ?_, ident ?_ ?_,
    fall_child hlex h (m := true)
      (bits := 0x3fffffffffffffffffffffffffffffffffffffffe4fe7ffffffffffffffffffffe03f) ?_ ?_,
    fall_child hlex h (m := true)
      (bits := 0x3fffffffffffffffffffffffffffffffffffffffe4fe7ffffffffffffffffffffe03f) ?_ ?_,
    fall_child hlex h (m := false)
      (bits := 0x3fffffffffffffffffdffffffffffc1fffffbffffffffe7ffffffffffffffffffffff) ?_ ?_⟩ <;> decide +kernel

/-- C64. In every parsed grammar, expressions and parameters are inside of rules, lexical rules inside of the
tokenizer, attributes inside of their list and selectors inside of methods. Renaming and resolution of references
(`references/mod.rs` 50, `resolve_ref_expr.rs` 16) and the extraction of rules (`extract_rule.rs` 22) expect it. -/
theorem C64_fall_within : (∀ T, T ∈ [135, 136, 137, 138, 139, 140] → InsideOf file T 132) ∧ InsideOf file 134 132 ∧
    InsideOf file 142 141 ∧ InsideOf file 145 144 ∧ InsideOf file 154 153 := by
  refine ⟨?_, fall_within hlex h (gs := [([], 0xf04000000000000000000db8004000000000100030),
      ([(0, 17)], 0xdb8004000000000000030)]) ?_ ?_ ?_,
    fall_within hlex h (gs := [([], 0x1600000000000f000000000000000000000000204000),
      ([(1, 103)], 0xf000000000000000000000000004000), ([(1, 239)], 0xf000000000000000000000000004000),
      ([(1, 246)], 0xf000000000000000000000000004000), ([(1, 252)], 0xf000000000000000000000000004000)]) ?_ ?_ ?_,
    fall_within hlex h (gs := [([], 0xf040000d8000000000000000000000000000120000),
      ([(0, 5)], 0xd8000000000000000000000000000020000)]) ?_ ?_ ?_,
    fall_within hlex h (gs := [([], 0x60000000000000000000000000000000000000000000000000000000100000000)]) ?_ ?_ ?_⟩
  · have expr : ∀ {T : NodeType}, T ≠ ERROR → (fallLexRules.any fun r => r.ty == T) = false →
        Check.fallCert.within fallGrammar T 132 [([], 0x1600000000000069b7fbc0003c000000000000201f40),
          ([(1, 120)], 0x69b7fbc0003c000000000000001f40), ([(1, 239)], 0x69b7fbc0003c000000000000001f40),
          ([(1, 246)], 0x69b7fbc0003c000000000000001f40), ([(1, 252)], 0x69b7fbc0003c000000000000001f40)] = true →
        InsideOf file T 132 := fun he hr hc => fall_within hlex h he hr hc
    intro T hT
    simp only [List.mem_cons, List.not_mem_nil, or_false] at hT
    rcases hT with rfl | rfl | rfl | rfl | rfl | rfl
    · refine fall_within hlex h (gs := [([], 0x1600000000000069b7fbc0003c000000000000201fc0),
          ([(1, 120)], 0x69b7fbc0003c000000000000001fc0), ([(1, 239)], 0x69b7fbc0003c000000000000001fc0),
          ([(1, 246)], 0x69b7fbc0003c000000000000001fc0), ([(1, 252)], 0x69b7fbc0003c000000000000001fc0)]) ?_ ?_ ?_ <;>
        decide +kernel
    all_goals refine expr ?_ ?_ ?_ <;> decide +kernel
  all_goals decide +kernel

theorem fall_without {P : NodeType → Bool} {S : List NodeType} (bits : Nat) (hS : (S.all fun t => !fallIsWs t) = true)
    (herr : P ERROR = true → ∀ t, t ∈ S → NeverLexed lexer t)
    (hc : Check.fallCert.bars fallGrammar P S bits = true) (T : NodeType) (hT : P T = true) : NoChild file T S :=
  C64_without (fallDefinition lexer) hlex.progress 32 37 rfl (fun _ _ _ => Nat.zero_le _)
    (spaceless_of_visible (show visible fallGrammar.rules = true by decide +kernel)
      (hlex.blankStart (isWs := fallIsWs) (by decide +kernel)))
    Check.fall_safe.2 P S (fun t ht => show fallIsWs t = false by simpa using List.all_eq_true.1 hS t ht) herr
    (Check.bars_sound hc) n text file data h T hT

/-- C64. In every parsed grammar, the bodies of rules are blocks: rules have no other expressions as children, and
there are no expressions at the top of the file and in lexical rules. -/
theorem C64_fall_without : NoChild file 132 [135, 136, 138, 139, 140] ∧
    NoChild file 131 [135, 136, 137, 138, 139, 140] ∧ NoChild file 142 [135, 136] := by
  have bars : ∀ {T : NodeType} {S : List NodeType} (bits : Nat), (S.all fun t => !fallIsWs t) = true → (T == ERROR) = false →
      Check.fallCert.bars fallGrammar (T == ·) S bits = true → NoChild file T S :=
    fun bits hS hT hc => fall_without hlex h bits hS (fun hE => by rw [hT] at hE; cases hE) hc _ (by simp)
  refine ⟨bars 0xe3870000000000fe51999600000000000e69b7fbc00003f20000000003e01dc0 ?_ ?_ ?_,
    bars 0xe3870000000000fe51999600000000000e69b7fbc0003ff20000000003e01fc0 ?_ ?_ ?_,
    bars 0xe3870000000000fe51999600000000000e69b7fbc00003f20000000003e001c0 ?_ ?_ ?_⟩ <;> decide +kernel

/-- C64. In every parsed grammar, the declarations are at the top: rules, tokenizers, tests, verbatim blocks and
descriptions of trees are children of files only. -/
theorem C64_fall_top (T : NodeType) (hT : T ≠ 131) : NoChild file T [132, 141, 143, 148, 149] := by
  refine fall_without hlex h (P := (· != 131)) 0xfe519980000000000000000000000003f201f0003c0fc0a00c (by decide +kernel)
    (fun _ t ht => ?_) (by decide +kernel) T (by simpa using hT)
  have key : ([132, 141, 143, 148, 149].all fun t => t != ERROR && !(fallLexRules.any fun r => r.ty == t)) = true := by
    decide +kernel
  have := List.all_eq_true.1 key t ht
  simp only [Bool.and_eq_true, bne_iff_ne, ne_eq, Bool.not_eq_true'] at this
  exact neverLexed_rules hlex this.1 this.2

/-- C64. The root of every parsed grammar is a file, and there are no files inside. -/
theorem C64_fall_root : file.ty 0 = some 131 ∧ ∀ T, NoChild file T [131] := by
  constructor
  · obtain ⟨t, kids, -, -, -, h2, -, -, -, -, h6, -⟩ := parse_reading hlex.progress
      (show (fallDefinition lexer).rules[0]? = some (.pub 32 37 false) from rfl) (fun _ _ _ => Nat.zero_le _)
      (spaceless_of_visible (show visible fallGrammar.rules = true by decide +kernel)
        (hlex.blankStart (isWs := fallIsWs) (by decide +kernel))) Check.fall_safe.2 h
    have : (fallDefinition lexer).nodeTypes[32]? = some 131 := rfl
    rw [this, Option.some.injEq] at h6
    subst h6
    simp [File.ty, File.data, h2.1]
  · intro T
    refine fall_without hlex h (P := fun _ => true) 0xfe519980000000000000000000000003f20000000003c00001 (by decide +kernel)
      (fun _ t ht => ?_) (by decide +kernel) T rfl
    rw [List.mem_singleton] at ht
    subst ht
    exact neverLexed_rules hlex (by decide) (by decide +kernel)

end

/-- The text `rule x { 'b'? <a c>* }`. -/
def promiseText : List Nat := [114, 117, 108, 101, 32, 120, 32, 123, 32, 39, 98, 39, 63, 32, 60, 97, 32, 99, 62, 42, 32, 125]

example : LexesBy fallLexRules (ruleLexer fallLexRules) ∧
    typesOf ((fallDefinition (ruleLexer fallLexRules)).parse 400 promiseText) =
      [131, 132, 106, 100, 130, 100, 137, 119, 100, 136, 138, 135, 128, 114, 100, 139, 140, 123, 130, 100, 135, 130,
        124, 113, 100, 120] :=
  ⟨ruleLexer_lexes _, by decide +kernel⟩

/-- C64. What accessors expect is found by them: `child_of_type_exn` does not panic (`fall/tree/src/search.rs` 24). -/
theorem C64_exn {f : File α} {T t : NodeType} (hk : ConsistentFile f) (h : HasChild f T [t]) (n : NodeId)
    (hn : f.ty n = some T) : ∃ c, f.childOfTypeExn n t = some c ∧ f.ty c = some t := by
  obtain ⟨c, t', hc, hty, ht⟩ := h n hn
  rw [List.mem_singleton] at ht
  subst ht
  obtain ⟨cs, hcs, hm⟩ := hc
  have key : ∀ l : List NodeId, (∀ x ∈ l, ∃ d, f.data x = some d) → c ∈ l →
      ∃ c', f.findNode (fun d => d.ty == t') l = some (some c') ∧ f.ty c' = some t' := by
    intro l hl hcl
    induction l with
    | nil => cases hcl
    | cons x l ih =>
      obtain ⟨d, hd⟩ := hl x List.mem_cons_self
      by_cases he : d.ty = t'
      · exact ⟨x, by simp [File.findNode, hd, he], by simp [File.ty, hd, he]⟩
      · rcases List.mem_cons.1 hcl with rfl | hcl
        · simp [File.ty, hd, he] at hty
        · obtain ⟨c', h1, h2⟩ := ih (fun x hx => hl x (List.mem_cons_of_mem _ hx)) hcl
          exact ⟨c', by simp [File.findNode, hd, he, h1], h2⟩
  obtain ⟨c', h1, h2⟩ := key cs (fun x hx => ⟨dat f x, getElem_dat (child_spec hk.nodes ⟨cs, hcs, hx⟩).2.2.1⟩) hm
  exact ⟨c', by simp [File.childOfTypeExn, File.childOfType, hcs, h1], h2⟩

/-! The grammar of grammars in Backus-Naur form. -/

/-- C64. In every parsed grammar in Backus-Naur form, productions have a head (`lang/bnf/src/bnf.rs` 122). -/
theorem C64_bnf_child {lexer : Lexer Nat} (hlex : LexesBy bnfLexRules lexer) {n : Nat} {text : List Nat}
    {file : File Nat} {data : Definition.IncrementalData} (h : (bnfDefinition lexer).parse n text = .ok (file, data)) :
    HasChild file 106 [104] := by
  have hp := Check.promises_sound (c := Check.bnfCert) (g := bnfGrammar) (T := 106) (S := [104]) (m := false)
    (bits := 0x76ff8bfd) (by decide +kernel)
  have hs : SpacelessStrings (bnfDefinition lexer) := by
    intro ty w h
    simp [bnfDefinition, Definition.plain, bnfGrammar, bnfRules] at h
  exact C64_child (bnfDefinition lexer) hlex.progress 6 9 rfl (fun _ _ _ => Nat.zero_le _) hs Check.bnf_safe.2 106 [104]
    false (neverLexed_rules hlex hp.error (by decide +kernel)) hp n text file data h

/-- The text `a -> 'b' | a b ->`. -/
def bnfText : List Nat := [97, 32, 45, 62, 32, 39, 98, 39, 32, 124, 32, 97, 32, 98, 32, 45, 62]

example : LexesBy bnfLexRules (ruleLexer bnfLexRules) ∧
    typesOf ((bnfDefinition (ruleLexer bnfLexRules)).parse 400 bnfText) =
      [105, 106, 104, 100, 101, 100, 107, 108, 109, 103, 100, 102, 100, 108, 109, 104, 100, 106, 104, 100, 101, 0] :=
  ⟨ruleLexer_lexes _, by decide +kernel⟩

/-! Accessors that rely on what comes after a commit. -/

/-- Whether a parsed file has a node of type `T` without a child of one of the types `S`. -/
def missing (T : NodeType) (S : List NodeType) : Result (File Nat × Definition.IncrementalData) → Bool
  | .ok (f, _) => f.nodes.any fun d => d.ty == T && d.children.all fun c => match f.nodes[c]? with
    | some e => !S.contains e.ty
    | none => true
  | _ => false

theorem missing_sound {T : NodeType} {S : List NodeType} {r : Result (File Nat × Definition.IncrementalData)}
    (h : missing T S r = true) : ∃ file data, r = .ok (file, data) ∧ ¬ HasChild file T S := by
  unfold missing at h
  split at h
  · rename_i f data
    refine ⟨f, data, rfl, fun hc => ?_⟩
    obtain ⟨d, hd, h1⟩ := List.any_eq_true.1 h
    rw [Bool.and_eq_true, beq_iff_eq, List.all_eq_true] at h1
    obtain ⟨i, hi⟩ := List.getElem?_of_mem hd
    obtain ⟨c, t, ⟨cs, hcs, hm⟩, ht, hS⟩ := hc i (by simp [File.ty, File.data, hi, h1.1])
    simp only [File.children, File.data, hi, Option.map_some, Option.some.injEq] at hcs
    subst hcs
    simp only [File.ty, File.data, Option.map_eq_some_iff] at ht
    obtain ⟨e, he, rfl⟩ := ht
    have := h1.2 c hm
    simp [he, hS] at this
  · cases h

/-- C64. Texts are parsed so that these accessors do not find what they expect, and panic: the body of a rule (line
308), the text of a verbatim block (455), the names of nodes (509, 512), classes (569) and traits (539, 542). The
grammar commits to these constructs after the keyword, and what comes after a commit may be missing. The texts are
`rule`, `verbatim`, `ast { node }`, `ast { class }` and `ast { trait }`. -/
theorem C64_commit_counterexample :
    (∃ file data, (fallDefinition (ruleLexer fallLexRules)).parse 200 [114, 117, 108, 101] = .ok (file, data) ∧
      ¬ HasChild file 132 [135, 136, 137, 138, 139, 140] ∧ ¬ HasChild file 132 [130]) ∧
    (∃ file data, (fallDefinition (ruleLexer fallLexRules)).parse 200 [118, 101, 114, 98, 97, 116, 105, 109] =
      .ok (file, data) ∧ ¬ HasChild file 148 [129]) ∧
    (∃ file data, (fallDefinition (ruleLexer fallLexRules)).parse 200
      [97, 115, 116, 32, 123, 32, 110, 111, 100, 101, 32, 125] = .ok (file, data) ∧ ¬ HasChild file 150 [130]) ∧
    (∃ file data, (fallDefinition (ruleLexer fallLexRules)).parse 200
      [97, 115, 116, 32, 123, 32, 99, 108, 97, 115, 115, 32, 125] = .ok (file, data) ∧ ¬ HasChild file 151 [130]) ∧
    (∃ file data, (fallDefinition (ruleLexer fallLexRules)).parse 200
      [97, 115, 116, 32, 123, 32, 116, 114, 97, 105, 116, 32, 125] = .ok (file, data) ∧ ¬ HasChild file 152 [130]) := by
  refine ⟨?_, missing_sound (by decide +kernel), missing_sound (by decide +kernel), missing_sound (by decide +kernel),
    missing_sound (by decide +kernel)⟩
  obtain ⟨file, data, h1, h2⟩ := missing_sound (T := 132) (S := [135, 136, 137, 138, 139, 140])
    (r := (fallDefinition (ruleLexer fallLexRules)).parse 200 [114, 117, 108, 101]) (by decide +kernel)
  obtain ⟨file', data', h3, h4⟩ := missing_sound (T := 132) (S := [130])
    (r := (fallDefinition (ruleLexer fallLexRules)).parse 200 [114, 117, 108, 101]) (by decide +kernel)
  rw [h1] at h3
  cases h3
  exact ⟨file, data, h1, h2, h4⟩

end Fall
