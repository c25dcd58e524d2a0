import Verif.Lemmas.Strict
import Verif.Props.Promise
import Verif.Props.RustEditorSample
import Verif.Props.FallView
import Verif.Props.FallEditor

/-!
C94: in a file without errors everything that the grammar requires is there.
-/

namespace Fall

open Spec

/-- C94. If there is no error in a parsed file, its significant tokens are, all of them, a sentence of the start rule in
the grammar without recovery from errors, and the tree shows that reading. -/
theorem C94_sentence (d : Definition) (hp : Progress d.lexer) (ty body : Nat)
    (hstart : d.rules[0]? = some (.pub ty body false)) (hb : BoundedBinder d.binder) (hs : SpacelessStrings d)
    (hl : Linked d.grammar) (N : Nat → Bool) (hN : ∀ l, Nullable d.grammar l → N l = true) (n : Nat) (text : List Nat)
    (file : File Nat) (data : Definition.IncrementalData) (h : d.parse n text = .ok (file, data))
    (he : Errorless file) :
    ∃ (t : NodeType) (kids : Forest) (I : Items) (tokens : List Token), IsLexing d.lexer text tokens ∧
      d.nodeTypes[ty]? = some t ∧
      Derives { Env.new none d.grammar d.isWs text tokens with grammar := strict N d.grammar } (List.replicate 16 none)
        (.expr body) 0 (Env.new none d.grammar d.isWs text tokens).nonWs.length I ∧
      Repr file.nodes none 0 0 (.node t kids .nil) ∧ file.nodes.length = (Forest.node t kids .nil).size ∧
      Places d.isWs (Items.node t I .nil).resolve tokens (Forest.node t kids .nil).ops := by
  obtain ⟨t, kids, I, tokens, h1, h2, h3, h4, h5, _, h6⟩ := parse_strict hp hstart hb hs hl hN h he
  exact ⟨t, kids, I, tokens, h1, h5, h6, h2, h3, h4⟩

/-- C94. If the grammar without recovery from errors promises it, every node of type `T` in every parsed file without
errors has a child of one of the types. -/
theorem C94_child (d : Definition) (hp : Progress d.lexer) (ty body : Nat)
    (hstart : d.rules[0]? = some (.pub ty body false)) (hb : BoundedBinder d.binder) (hs : SpacelessStrings d)
    (hl : Linked d.grammar) (N : Nat → Bool) (hN : ∀ l, Nullable d.grammar l → N l = true)
    (hl' : Linked (strict N d.grammar)) (T : NodeType) (S : List NodeType) (linked : Bool) (hT : NeverLexed d.lexer T)
    (hpr : Promises (strict N d.grammar) T S linked) (n : Nat) (text : List Nat) (file : File Nat)
    (data : Definition.IncrementalData) (h : d.parse n text = .ok (file, data)) (he : Errorless file) :
    HasChild file T S := by
  obtain ⟨t, kids, I, tokens, h1, h2, h3, h5, h6, hcl, h7⟩ := parse_strict hp hstart hb hs hl hN h he
  have ht : ∀ i, sigTy { Env.new none d.grammar d.isWs text tokens with grammar := strict N d.grammar } i ≠ some T :=
    sigTy_lexed (g := strict N d.grammar) (isWs := d.isWs) hT h1
  have hA := Parser.passed_new (strict N d.grammar)
  obtain ⟨k1, k2⟩ := h7.kept hpr hl' ht hA
  have hstart' : (strict N d.grammar).rules[0]? = some (.pub ty body false) := by
    have : d.grammar.rules[0]? = some (.pub ty body false) := hstart
    simp [strict, this, strictRule]
  have hroot : (Items.node t I .nil).Kept T S linked false := by
    refine ⟨?_, k1, trivial⟩
    rintro rfl
    by_cases hh : I.has S = true
    · simp [hh]
    · exact absurd (k2 (by simpa using hh)) (hpr.pub 0 ty body false hstart' (Or.inl h6))
  obtain ⟨b, hb, _⟩ := hroot.good Good.nil 0 false []
  have htok : ∀ x, x ∈ tokens → x.ty ≠ T := by
    intro x hx e
    obtain ⟨i, hi⟩ := List.getElem?_of_mem hx
    exact hT _ (by rw [IsLexing.token h1 hi]; exact e)
  obtain ⟨r, hr, _⟩ := places_scan h5 htok (s' := [(0, false)]) (by exact ⟨rfl, id, trivial⟩) hb
  obtain ⟨_, hf⟩ := forest_scan h2 hr
  intro m hm
  obtain ⟨dm, hd, hty⟩ : ∃ dm : NodeData, file.nodes[m]? = some dm ∧ dm.ty = T := by
    simpa [File.ty, File.data] using hm
  obtain ⟨c, e, hc, he, hS⟩ := hf m dm (Nat.zero_le _)
    (by rw [Nat.zero_add, ← h3]; exact (List.getElem?_eq_some_iff.1 hd).1) hd hty
  exact ⟨c, e.ty, ⟨dm.children, by simp [File.children, File.data, hd], hc⟩, by simp [File.ty, File.data, he], hS⟩

/-- The part of the check of grammars that is about nodes moved into others. -/
def Check.SafeCert.linked (s : Check.SafeCert) (c : Check.Cert) (g : Grammar) : Bool :=
  g.rules.all (c.passedRule g) && (g.rules.zipIdx.all fun (rule, e) => !c.nullRule rule || c.isNull e) &&
  (g.rules.zipIdx.all fun (rule, e) => !s.looseRule c rule || s.loose.testBit e) && g.rules.all (s.linkRule c)

theorem linked_sound {s : Check.SafeCert} {c : Check.Cert} {g : Grammar} (h : s.linked c g = true) : Linked g := by
  simp only [Check.SafeCert.linked, Bool.and_eq_true] at h
  obtain ⟨⟨⟨hp, hnull⟩, hloose⟩, hlinks⟩ := h
  have hn : ∀ e, Nullable g e → c.isNull e = true := fun e => Check.null_sound hp hnull
  have hl : ∀ e, Loose g e → s.loose.testBit e = true := fun e => Check.loose_sound hp hn hloose
  refine ⟨fun e pre body he => ?_, fun e a t he hne ha hnul => ?_⟩
  · have := Check.rules_all hlinks he
    simp only [Check.SafeCert.linkRule, Bool.and_eq_true, Bool.not_eq_true'] at this
    refine ⟨fun h => ?_, fun h => ?_⟩
    · rw [hl _ h] at this; cases this.1
    · rw [hn _ h] at this; cases this.2
  · have := Check.rules_all hlinks he
    simp only [Check.SafeCert.linkRule, Bool.or_eq_true, List.isEmpty_iff, List.all_eq_true, Bool.not_eq_true'] at this
    have := this.resolve_left hne a ha
    rw [hn _ hnul] at this
    cases this

theorem strict_fall : Linked (strict Check.fallCert.isNull fallGrammar) := by
  have : Check.fallSafeCert.linked Check.fallCert (strict Check.fallCert.isNull fallGrammar) = true := by decide +kernel
  exact linked_sound this

theorem strict_rust : Linked (strict Check.rustCert.isNull rustGrammar) := by
  have : Check.rustSafeCert.linked Check.rustCert (strict Check.rustCert.isNull rustGrammar) = true := by decide +kernel
  exact linked_sound this

/-- What may be read without a name in Rust. -/
def rustNameless : Nat :=
  0x1ffffffffffffffffffff9ffa3a3fbffffffffffffffffffffffffffffffffffffffffffe7fffe1bffffffffffffffffffffffffffffffffffffffffff9effff97fffffffffffffffcfffffffffffffffffffcffcdfffff8fafffffffffffffffffffffffffffff1ffe5e5ffffe7ffffffffffffffffffffffe5fffffcfdf3f45fffffffe77fff3e9ff8ef29ffdffffffffffe7f7e6ebffffffffffffffffffffffffffffffffffffffffffffffffffffff

theorem strict_rust_names : (listedTypes.all fun T => !(rustLexRules.any fun r => r.ty == T) &&
    Check.rustCert.promises (strict Check.rustCert.isNull rustGrammar) T [191] false rustNameless) = true := by
  decide +kernel

theorem cert_null {c : Check.Cert} {g : Grammar} {R : Nat} (h : c.ok g R = true) (l : Nat) (hn : Nullable g l) :
    c.isNull l = true := by
  unfold Check.Cert.ok at h
  simp only [Bool.and_eq_true] at h
  exact Check.null_sound h.1.1.1.1 h.1.1.1.2 hn

/-- A child in the file is the first one of its type, or there is another. -/
theorem hasChild_first {text : List UInt8} {file : File Nat} {T t : NodeType} {P : NodeId → Prop} {m : NodeId}
    (hc : HasChild file T [t]) (hP : ∀ c, OfType (⟨text, file.nodes⟩ : File UInt8) t c → P c)
    (ho : OfType (⟨text, file.nodes⟩ : File UInt8) T m) : ∃ c, FirstChild (⟨text, file.nodes⟩ : File UInt8) m P c := by
  obtain ⟨k, t', ⟨cs, hcs, hk⟩, hty, ht⟩ := hc m ho
  rw [List.mem_singleton] at ht
  subst ht
  obtain ⟨x, hx⟩ := first_exists (P := P) ⟨k, hk, hP k hty⟩
  exact ⟨x, cs, hcs, hx⟩

theorem hasChild_labelled {text : List UInt8} {file : File Nat} {T t : NodeType} {m : NodeId}
    (hf : ConsistentFile (⟨text, file.nodes⟩ : File UInt8)) (hc : HasChild file T [t])
    (ho : OfType (⟨text, file.nodes⟩ : File UInt8) T m) : ∃ s, Labelled (⟨text, file.nodes⟩ : File UInt8) m t s := by
  obtain ⟨x, hx⟩ := hasChild_first hc (P := OfType (⟨text, file.nodes⟩ : File UInt8) t) (fun _ h => h) ho
  obtain ⟨s, hs, -⟩ := labelled_first hf hx
  exact ⟨s, hs⟩

section
variable {lexer : Lexer Nat} (hlex : LexesBy fallLexRules lexer) {n : Nat} {text : List Nat} {file : File Nat}
  {data : Definition.IncrementalData} (h : (fallDefinition lexer).parse n text = .ok (file, data)) (he : Errorless file)
include hlex h he

theorem fall_strict {T : NodeType} {S : List NodeType} {m : Bool} {bits : Nat}
    (hr : (fallLexRules.any fun r => r.ty == T) = false)
    (hc : Check.fallCert.promises (strict Check.fallCert.isNull fallGrammar) T S m bits = true) : HasChild file T S := by
  have hp := Check.promises_sound hc
  exact C94_child (fallDefinition lexer) hlex.progress 32 37 rfl (fun _ _ _ => Nat.zero_le _)
    (spaceless_of_visible (show visible fallGrammar.rules = true by decide +kernel)
      (hlex.blankStart (isWs := fallIsWs) (by decide +kernel)))
    Check.fall_safe.2 Check.fallCert.isNull (cert_null Check.fall_cert) strict_fall
    T S m (neverLexed_rules hlex hp.error hr) hp n text file data h he

/-- C94. In parsed Fall files without errors rules have a name and a body, definitions of nodes, classes and traits have
a name, rules of the tokenizer have a string, and tests and verbatim parts have their text. -/
theorem C94_fall_child : HasChild file 132 [130] ∧ HasChild file 132 [137] ∧ HasChild file 150 [130] ∧
    HasChild file 151 [130] ∧ HasChild file 152 [130] ∧ HasChild file 148 [129] ∧ HasChild file 143 [129] ∧
    HasChild file 142 [147] := by
  refine ⟨fall_strict hlex h he (m := false) (bits := 0x3c99034c9f9fd7fffffffffffffffff33effe5f9bfffff98fc7ffdfffffffffffffff) ?_ ?_,
    fall_strict hlex h he (m := false) (bits := 0x3ffffffffffffffffffffffffffffffffffffffffffffffffc3fffffffffffffffdff) ?_ ?_,
    fall_strict hlex h he (m := false) (bits := 0x3c99034c9f9fd7fffffffffffffffff33effe5f9bfffff98fc7ffdfffffffffffffff) ?_ ?_,
    fall_strict hlex h he (m := false) (bits := 0x3c99034c9f9fd7fffffffffffffffff33effe5f9bfffff98fc7ffdfffffffffffffff) ?_ ?_,
    fall_strict hlex h he (m := false) (bits := 0x3c99034c9f9fd7fffffffffffffffff33effe5f9bfffff98fc7ffdfffffffffffffff) ?_ ?_,
    fall_strict hlex h he (m := false) (bits := 0x3fffffffffffffffff1ffffffffffe7ffffe3ffffffffffffffffffffffffffffffff) ?_ ?_,
    fall_strict hlex h he (m := false) (bits := 0x3fffffffffffffffff1ffffffffffe7ffffe3ffffffffffffffffffffffffffffffff) ?_ ?_,
    fall_strict hlex h he (m := false) (bits := 0x3fffffffffffffffffffffffffffffffffffe7ffffffffffffffffffffffffff7ffff) ?_ ?_⟩ <;>
    decide +kernel

end

section
variable {lexer : Lexer Nat} (hlex : LexesBy fallLexRules lexer) {n : Nat} {text : List UInt8} {file : File Nat}
  {data : Definition.IncrementalData} (h : (fallDefinition lexer).parse n (text.map UInt8.toNat) = .ok (file, data))
  (he : Errorless file)
include hlex h he

/-- C94. In a Fall file without errors no query panics, nor does collecting the diagnostics, the highlighting, or going
to a definition. -/
theorem C94_fall_queries :
    (∀ q, QueryTyped ⟨text, file.nodes⟩ q →
      ¬ ∃ ds, Eval (analysisBody ⟨text, file.nodes⟩) (analysisBody ⟨text, file.nodes⟩ q) none ds) ∧
    (¬ ∃ ds, Eval (analysisBody ⟨text, file.nodes⟩) (collectRequests ⟨text, file.nodes⟩) none ds) ∧
    (¬ ∃ ds, Eval (analysisBody ⟨text, file.nodes⟩) (highlight ⟨text, file.nodes⟩) none ds) ∧
    ∀ isWs offset, offset ≤ text.length →
      ¬ ∃ ds, Eval (analysisBody ⟨text, file.nodes⟩) (resolveReferenceAt ⟨text, file.nodes⟩ isWs offset) none ds := by
  obtain ⟨hf, hsh⟩ := C60_parsed hlex h
  obtain ⟨c1, c2, c3, c4, c5, -⟩ := C94_fall_child hlex h he
  have hbody : ∀ r, ¬ (OfType (⟨text, file.nodes⟩ : File UInt8) 132 r ∧ Bodyless ⟨text, file.nodes⟩ r) := by
    rintro r ⟨ho, -, -, hb⟩
    obtain ⟨b, hb'⟩ := hasChild_first c2 (P := IsExpr (⟨text, file.nodes⟩ : File UInt8))
      (fun c hc => ⟨137, hc, by decide⟩) ho
    exact hb b hb'
  have htrait : ¬ NamelessTrait (⟨text, file.nodes⟩ : File UInt8) := by
    rintro ⟨ast, t, -, -, ho, hn⟩
    obtain ⟨s, hs⟩ := hasChild_labelled hf c5 ho
    exact hn s hs
  have hbefore : ∀ {ast s} {ty : NodeType}, HasChild file ty [130] →
      ¬ NamelessBefore (⟨text, file.nodes⟩ : File UInt8) ast ty s := by
    rintro ast s ty hc ⟨m, ⟨cs, -, _, _, -, ⟨ho, -⟩, -⟩, hn⟩
    obtain ⟨s, hs⟩ := hasChild_labelled hf hc ho
    exact hn s hs
  have hitem : ∀ m, ¬ NamelessItem (⟨text, file.nodes⟩ : File UInt8) m := by
    rintro m ⟨sel, s, ast, -, -, -, hb | ⟨-, hb⟩⟩
    · exact hbefore c3 hb
    · exact hbefore c4 hb
  refine ⟨fun q hq => ?_, ?_, ?_, ?_⟩
  · rw [C60_fall hlex h q hq]
    cases q with
    | prattVariant r => exact fun hb => hbody r ⟨hq, hb⟩
    | resolveMethod m => exact hitem m
    | astNodeTraits _ => exact htrait
    | _ => exact id
  · rw [C60_fall_collect hlex h]
    rintro (⟨r, hr⟩ | ⟨-, ht⟩)
    · exact hbody r hr
    · exact htrait ht
  · rw [(C73_highlight _ hf hsh).1]
    rintro ⟨m, -, hm⟩
    exact hitem m hm
  · rintro isWs offset hoff ⟨ds, hev⟩
    obtain ⟨g1, g2⟩ := C68_goto _ hf hsh isWs offset hoff hev
    by_cases hx : ∃ l, CaretLeaf (⟨text, file.nodes⟩ : File UInt8) isWs offset l ∧
        ∃ n, Desc (⟨text, file.nodes⟩ : File UInt8) n l ∧ ∃ ref, IsReference ⟨text, file.nodes⟩ n ref
    · obtain ⟨l, hl, m, hm, hr⟩ := hx
      have hn := caretLeaf_isNode hf hoff hl
      obtain ⟨as, -, -, hmem, -, hsuf⟩ := ancestors_spec hf.nodes l hn
      have hmem' : ∀ a, a ∈ l :: as ↔ Desc (⟨text, file.nodes⟩ : File UInt8) a l := hmem
      obtain ⟨x, hx⟩ := first_exists (P := fun n => ∃ ref, IsReference (⟨text, file.nodes⟩ : File UInt8) n ref)
        ⟨m, (hmem' m).2 hm, hr⟩
      exact hitem x (((g2 l x hl ((innermost_first hf hsuf hmem).1 hx)).1.1 rfl).2)
    · have := g1 fun l hl n hn ref hr => hx ⟨l, hl, n, hn, ref, hr⟩
      cases this

end

/-- C94. In a Rust file without errors every declaration has a name, and so all of them are in the outline. -/
theorem C94_rust {lexer : Lexer Nat} (hlex : LexesBy rustLexRules lexer) (n : Nat) (text : List UInt8)
    (file : File Nat) (data : Definition.IncrementalData)
    (h : (rustDefinition lexer).parse n (text.map UInt8.toNat) = .ok (file, data)) (he : Errorless file) :
    (∀ ty m, ty ∈ listedTypes → OfType ⟨text, file.nodes⟩ ty m → ∃ name, Declares ⟨text, file.nodes⟩ m name) ∧
    ∃ entries nodes, rustStructure ⟨text, file.nodes⟩ = some entries ∧
      Pointwise (fun n (e : StructureNode) => Declares ⟨text, file.nodes⟩ n e.name ∧
        File.range (⟨text, file.nodes⟩ : File UInt8) n = some e.range) nodes entries ∧ nodes.Nodup ∧
      ∀ m, m ∈ nodes ↔ ∃ ty, ty ∈ listedTypes ∧ OfType ⟨text, file.nodes⟩ ty m := by
  have hf := rust_consistent hlex h
  have named : ∀ ty m, ty ∈ listedTypes → OfType (⟨text, file.nodes⟩ : File UInt8) ty m →
      ∃ name, Declares ⟨text, file.nodes⟩ m name := by
    intro ty m hty ho
    have hc := List.all_eq_true.1 strict_rust_names ty hty
    rw [Bool.and_eq_true, Bool.not_eq_true'] at hc
    have hp := Check.promises_sound hc.2
    have hc : HasChild file ty [191] := C94_child (rustDefinition lexer) hlex.progress 93 158 rfl rustBinder_bounded
      (spaceless_of_visible (show visible rustGrammar.rules = true by decide +kernel)
        (hlex.blankStart (isWs := rustIsWs) (by decide +kernel)))
      Check.rust_safe.2 Check.rustCert.isNull (cert_null Check.rust_cert) strict_rust ty [191] false
      (neverLexed_rules hlex hp.error hc.1) hp n _ file data h he
    obtain ⟨s, hs⟩ := hasChild_labelled hf hc ho
    exact ⟨s, ty, hty, ho, hs⟩
  refine ⟨named, ?_⟩
  obtain ⟨entries, nodes, h1, h2, h3, h4, -⟩ := C85_structure _ hf
  refine ⟨entries, nodes, h1, h2, h3, fun m => (h4 m).trans ⟨?_, ?_⟩⟩
  · rintro ⟨name, ty, h1, h2, -⟩
    exact ⟨ty, h1, h2⟩
  · rintro ⟨ty, h1, h2⟩
    exact named ty m h1 h2

/-! ## Examples -/

/-- Whether the text is parsed to a file without errors. -/
def flawless (d : Definition) (text : List Nat) : Bool :=
  match d.parse 1000 text with
  | .ok (file, _) => file.nodes.all fun x => x.ty != ERROR
  | _ => false

theorem flawless_sound {d : Definition} {text : List Nat} (h : flawless d text = true) :
    ∃ file data, d.parse 1000 text = .ok (file, data) ∧ Errorless file := by
  unfold flawless at h
  split at h
  · rename_i file data hp
    refine ⟨file, data, hp, fun n hn => ?_⟩
    obtain ⟨x, hx, hty⟩ : ∃ x : NodeData, file.nodes[n]? = some x ∧ x.ty = ERROR := by
      simpa [File.ty, File.data] using hn
    have := List.all_eq_true.1 h x (List.mem_of_getElem? hx)
    simp [hty] at this
  · cases h

/-- A Fall text with an operator rule, a trait, and a method that selects a node. -/
def flawlessText : List UInt8 := ascii "#[atom] rule a { b } ast { trait t { } node b: t { m b } }"

set_option maxRecDepth 10000 in
theorem flawlessText_ok : flawless (fallDefinition (ruleLexer fallLexRules)) (flawlessText.map UInt8.toNat) = true := by
  decide +kernel

/-- The hypotheses hold for it. -/
example : ∃ file data, (fallDefinition (ruleLexer fallLexRules)).parse 1000 (flawlessText.map UInt8.toNat) =
      .ok (file, data) ∧ Errorless file ∧ HasChild file 132 [137] ∧
    ¬ ∃ ds, Eval (analysisBody ⟨flawlessText, file.nodes⟩) (collectRequests ⟨flawlessText, file.nodes⟩) none ds := by
  obtain ⟨file, data, h, he⟩ := flawless_sound flawlessText_ok
  exact ⟨file, data, h, he, (C94_fall_child (ruleLexer_lexes _) h he).2.1, (C94_fall_queries (ruleLexer_lexes _) h he).2.1⟩

/-- A Rust text without errors. -/
def flawlessRust : List UInt8 := ascii "fn f(x: u8) { struct S; }"

set_option maxRecDepth 10000 in
theorem flawlessRust_ok : flawless (rustDefinition (ruleLexer rustLexRules)) (flawlessRust.map UInt8.toNat) = true := by
  decide +kernel

example : ∃ file data, (rustDefinition (ruleLexer rustLexRules)).parse 1000 (flawlessRust.map UInt8.toNat) =
      .ok (file, data) ∧ Errorless file ∧
    ∀ m, OfType (⟨flawlessRust, file.nodes⟩ : File UInt8) 202 m → ∃ name, Declares ⟨flawlessRust, file.nodes⟩ m name := by
  obtain ⟨file, data, h, he⟩ := flawless_sound flawlessRust_ok
  exact ⟨file, data, h, he, fun m => (C94_rust (ruleLexer_lexes _) _ _ _ _ h he).1 202 m (by decide)⟩

/-- Whether there is a node of type `T` without a child of one of the types in the file of the text. -/
def childless (d : Definition) (text : List Nat) (T : NodeType) (S : List NodeType) : Bool :=
  match d.parse 1000 text with
  | .ok (file, _) => file.nodes.any fun x => x.ty == T && !x.children.any fun c =>
      match file.nodes[c]? with | some y => S.contains y.ty | none => false
  | _ => false

theorem childless_sound {d : Definition} {text : List Nat} {T : NodeType} {S : List NodeType}
    (h : childless d text T S = true) : ∃ file data, d.parse 1000 text = .ok (file, data) ∧ ¬ HasChild file T S := by
  unfold childless at h
  split at h
  · rename_i file data hp
    refine ⟨file, data, hp, fun hc => ?_⟩
    obtain ⟨x, hx, hno⟩ := List.any_eq_true.1 h
    obtain ⟨m, hm⟩ := List.getElem?_of_mem hx
    rw [Bool.and_eq_true, beq_iff_eq, Bool.not_eq_true', List.any_eq_false] at hno
    obtain ⟨k, t, ⟨cs, hcs, hk⟩, hty, ht⟩ := hc m (by simp [File.ty, File.data, hm, hno.1])
    have hcs : x.children = cs := by simpa [File.children, File.data, hm] using hcs
    subst hcs
    obtain ⟨y, hy, rfl⟩ : ∃ y : NodeData, file.nodes[k]? = some y ∧ y.ty = t := by
      simpa [File.ty, File.data] using hty
    have := hno.2 k hk
    simp [hy, ht] at this
  · cases h

set_option maxRecDepth 10000 in
/-- C94, counterexample to "what the grammar requires is there in every parsed file": in the text `rule a` the rule has
no body, and in the Rust text `fn` the function has no name. -/
theorem C94_errors_counterexample :
    (∃ file data, (fallDefinition (ruleLexer fallLexRules)).parse 1000 ((ascii "rule a").map UInt8.toNat) =
      .ok (file, data) ∧ ¬ HasChild file 132 [137]) ∧
    ∃ file data, (rustDefinition (ruleLexer rustLexRules)).parse 1000 ((ascii "fn").map UInt8.toNat) =
      .ok (file, data) ∧ ¬ HasChild file 197 [191] :=
  ⟨childless_sound (by decide +kernel), childless_sound (by decide +kernel)⟩

end Fall
