import Verif.Props.RustEditor
import Verif.Props.LanguageReparse
import Verif.Props.Promise

/-! The editor features for Rust on parsed files: examples, and what does not hold. -/

namespace Fall
open Spec

/-- Parsed Rust files are consistent. -/
theorem rust_consistent {lexer : Lexer Nat} (hlex : LexesBy rustLexRules lexer) {n : Nat} {text : List UInt8}
    {file : File Nat} {data : Definition.IncrementalData}
    (h : (rustDefinition lexer).parse n (text.map UInt8.toNat) = .ok (file, data)) :
    ConsistentFile (⟨text, file.nodes⟩ : File UInt8) := by
  obtain ⟨hc, ht, -⟩ := C31_parse_lossless (rustDefinition lexer) hlex.progress 93 158 rfl rustBinder_bounded
    (spaceless_of_visible (show visible rustGrammar.rules = true by decide +kernel)
      (hlex.blankStart (isWs := rustIsWs) (by decide +kernel))) n _ file data h
  refine ⟨hc.nodes, ?_⟩
  have := hc.covers
  rw [ht, List.length_map] at this
  exact this

section
variable {lexer : Lexer Nat} (hlex : LexesBy rustLexRules lexer) {n : Nat} {text : List Nat} {file : File Nat}
  {data : Definition.IncrementalData} (h : (rustDefinition lexer).parse n text = .ok (file, data))
include hlex h

theorem rust_child {T : NodeType} {S : List NodeType} {m : Bool} {bits : Nat}
    (hr : (rustLexRules.any fun r => r.ty == T) = false)
    (hc : Check.rustCert.promises rustGrammar T S m bits = true) : HasChild file T S := by
  have hp := Check.promises_sound hc
  exact C64_child (rustDefinition lexer) hlex.progress 93 158 rfl rustBinder_bounded
    (spaceless_of_visible (show visible rustGrammar.rules = true by decide +kernel)
      (hlex.blankStart (isWs := rustIsWs) (by decide +kernel)))
    Check.rust_safe.2 T S m (neverLexed_rules hlex hp.error hr) hp n text file data h

/-- C64. In every parsed Rust file there are the children that the accessors expect: parameters have a lifetime
(`lang/rust/syntax/src/rust.rs` 814) or a name (`lang/rust/src/editor/actions.rs` 78), paths have a segment, and
renamed imports have a new name. -/
theorem C64_rust_child : HasChild file 218 [186] ∧ HasChild file 216 [191] ∧ HasChild file 221 [223] ∧
    HasChild file 226 [191] := by
  have name : ∀ {T : NodeType}, (rustLexRules.any fun r => r.ty == T) = false →
      Check.rustCert.promises rustGrammar T [191] false
        (0x1ffffffffffffffffffff9ffa3a3fbffffffffffffffffffffffffffffffffffffffffffe7fffe1bffffffffffffffffffffffffffffffffffffffffff9effff97fffffffffffffffcfffffffffffffffffffcffcdfffff8fafffffffffffffffffffffffffffff1ffe5e5ffffe7ffffffffffffffffffffffe5fffffffdfff45fffffffff7ffffe9ffbef2fffdfffffffffffff7feebffffffffffffffffffffffffffffffffffffffffffffffffffffff) = true → HasChild file T [191] :=
    fun hr hc => rust_child hlex h hr hc
  refine ⟨rust_child hlex h (m := false) (bits := 0x1ffffffffffffffffffffffffffffffffffffffffffffffffffffffffffffffffffbffffffffffffffffffebfffffffffffffffffffdfffffffffffffffffffffffffffffffffffff3ffffffffffffffffffffffffffffffffffffffffffffffffffffffffffffffffffff7ffffffffffffffffcf3feb9ffffffffffffffffffffffffffffffffffffffffffffffffffffffffffffffffffffffffffffffffffffffffffeffffffffffffffffffffffffff) ?_ ?_, name ?_ ?_,
    rust_child hlex h (m := false) (bits := 0x1ffffffffffffffffffffffffffffffffffffffffffffffffffffffffffffffffffffffffffffffffffffffffffffffffffffffffffffffffffffffffffffffffffffffffffffffffffffffffffffffffffffffffffffffffffffffffffffffffffffffffffffffffffffffffff9f099fffffffffffffffffffffffffffffffffffffffffffffffffffffffffffffffffffffffffffffffffffffffffffffffffffffffffffffffffffffffdfffffffffff) ?_ ?_, name ?_ ?_⟩ <;> decide +kernel

end

/-- In parsed Rust files all parameters of types have a name. -/
theorem rust_named {lexer : Lexer Nat} (hlex : LexesBy rustLexRules lexer) {n : Nat} {text : List UInt8}
    {file : File Nat} {data : Definition.IncrementalData}
    (h : (rustDefinition lexer).parse n (text.map UInt8.toNat) = .ok (file, data)) (decl : NodeId) :
    NamedParameters ⟨text, file.nodes⟩ decl := by
  have hf := rust_consistent hlex h
  obtain ⟨h1, h2, -, -⟩ := C64_rust_child hlex h
  have key : ∀ {T t : NodeType} {c : NodeId}, HasChild file T [t] → OfType (⟨text, file.nodes⟩ : File UInt8) T c →
      ∃ s, Labelled (⟨text, file.nodes⟩ : File UInt8) c t s := by
    intro T t c hc ho
    obtain ⟨k, t', ⟨cs, hcs, hk⟩, hty, ht⟩ := hc c ho
    rw [List.mem_singleton] at ht
    subst ht
    obtain ⟨x, hx⟩ := first_exists (P := OfType (⟨text, file.nodes⟩ : File UInt8) t') ⟨k, hk, hty⟩
    obtain ⟨s, hs, -⟩ := labelled_first hf ⟨cs, hcs, hx⟩
    exact ⟨s, hs⟩
  exact fun params _ c _ => ⟨fun ho => key h1 ho, fun ho => key h2 ho⟩

/-- C86. In every parsed Rust file, asking for the context actions and applying one never panics; every action that is
offered gives an edit for the text, and no other action does. -/
theorem C86_parsed {lexer : Lexer Nat} (hlex : LexesBy rustLexRules lexer) (n : Nat) (text : List UInt8)
    (file : File Nat) (data : Definition.IncrementalData)
    (h : (rustDefinition lexer).parse n (text.map UInt8.toNat) = .ok (file, data)) (q : TextRange)
    (hq : q.start ≤ text.length) (id : String) :
    ∃ actions res, rustContextActions ⟨text, file.nodes⟩ rustIsWs q = some actions ∧
      rustApplyContextAction ⟨text, file.nodes⟩ rustIsWs q id = some res ∧
      actions.Sublist ["Swap", "Add braces", "Add impl"] ∧
      (id ∈ actions ↔ ∃ edit, res = some edit) ∧
      ∀ edit, res = some edit → ∃ out, edit.apply (Text.ofBuf text) = some out :=
  C86_offered ⟨text, file.nodes⟩ (rust_consistent hlex h) rustIsWs q hq (fun decl _ _ => rust_named hlex h decl) id

/-- The file that a text is parsed to. -/
def rustFile (text : List UInt8) : Option (File UInt8) :=
  match lex rustLexer (text.map UInt8.toNat) with
  | none => none
  | some tokens =>
    match (rustDefinition rustLexer).finish (text.map UInt8.toNat) tokens
      (rustEvents none (text.map UInt8.toNat) tokens) with
    | .ok (file, _) => some ⟨text, file.nodes⟩
    | _ => none

theorem rustFile_parse {text : List UInt8} {f : File UInt8} (h : rustFile text = some f) : ∃ file data,
    (rustDefinition rustLexer).parse 300 (text.map UInt8.toNat) = .ok (file, data) ∧ f = ⟨text, file.nodes⟩ := by
  unfold rustFile at h
  split at h
  · cases h
  · rename_i tokens hl
    split at h
    · rename_i file data hp
      rw [Option.some.injEq] at h
      refine ⟨file, data, ?_, h.symm⟩
      rw [Definition.parse_eq (tokens := tokens) hl, rustEvents_eq]
      exact hp
    · cases h

theorem rustFile_consistent {text : List UInt8} {f : File UInt8} (h : rustFile text = some f) : ConsistentFile f := by
  obtain ⟨file, data, hp, rfl⟩ := rustFile_parse h
  exact rust_consistent (calm_longest rustLexRules).lexesBy hp

/-- What a feature does with the file of a text. -/
def inRust (text : List UInt8) (g : File UInt8 → Option τ) : Option τ := (rustFile text).bind g

theorem inRust_some {text : List UInt8} {g : File UInt8 → Option τ} {v : τ} (h : inRust text g = some v) :
    ∃ file data, (rustDefinition rustLexer).parse 300 (text.map UInt8.toNat) = .ok (file, data) ∧
      ConsistentFile (⟨text, file.nodes⟩ : File UInt8) ∧ g ⟨text, file.nodes⟩ = some v := by
  obtain ⟨f, h1, h2⟩ := Option.bind_eq_some_iff.1 h
  have hc := rustFile_consistent h1
  obtain ⟨file, data, hp, rfl⟩ := rustFile_parse h1
  exact ⟨file, data, hp, hc, h2⟩

/-- The text after an edit. -/
def editedBy (text : List UInt8) (g : File UInt8 → Option (Option (TextEdit UInt8))) : Option (List UInt8) :=
  inRust text fun f => (g f).bind fun e => e.bind fun e => e.apply (Text.ofBuf text)

set_option maxRecDepth 10000

/-- C82: after `let`, but not if the statement has a semicolon or a value. -/
example : inRust (ascii "fn f(){let }") (afterSpaceTyped · 11) = some (some [59]) ∧
    inRust (ascii "fn f(){let ;}") (afterSpaceTyped · 11) = some none ∧
    inRust (ascii "fn f(){let a=b}") (afterSpaceTyped · 11) = some none := by decide +kernel

/-- The type of the parent of a node. -/
def parentType (f : File UInt8) (n : NodeId) : Option NodeType := do
  let p ← f.parent n
  let p ← p
  f.ty p

/-- C82. The `let` of an expression `if let` in the type of an unfinished statement is taken for that of the statement:
a semicolon is inserted after `if let`. -/
theorem C82_if_let_counterexample : ∃ text file data,
    (rustDefinition rustLexer).parse 300 (text.map UInt8.toNat) = .ok (file, data) ∧
    text = ascii "fn f(){let a:[u;{if let b=c{}}]}" ∧
    afterSpaceTyped ⟨text, file.nodes⟩ 24 = some (some [59]) ∧
    ∃ l, Leftmost (⟨text, file.nodes⟩ : File UInt8) (LeafAt ⟨text, file.nodes⟩ 23) l ∧
      ∀ stmt, OfType ⟨text, file.nodes⟩ 263 stmt → ¬ Child (⟨text, file.nodes⟩ : File UInt8) stmt l := by
  obtain ⟨file, data, h1, hf, h2⟩ := inRust_some (text := ascii "fn f(){let a:[u;{if let b=c{}}]}") (v := ())
    (g := fun f => do
      let a ← afterSpaceTyped f 24
      let l ← leafBefore f 24 1
      let l ← l
      let t ← parentType f l
      if a = some [59] ∧ t = 267 then some () else none) (by decide +kernel)
  refine ⟨_, file, data, h1, rfl, ?_⟩
  simp only [Option.bind_eq_bind, Option.bind_eq_some_iff] at h2
  obtain ⟨a, e1, o, e2, l, rfl, t, e3, e4⟩ := h2
  split at e4
  · rename_i hat
    obtain ⟨rfl, rfl⟩ := hat
    refine ⟨e1, l, ?_, fun stmt hs hc => ?_⟩
    · have hlen : (24 : Nat) - 1 ≤ (ascii "fn f(){let a:[u;{if let b=c{}}]}").length := by decide
      obtain ⟨o, g1, g2, -⟩ := leafBefore_spec hf (offset := 24) (back := 1) (by decide) hlen
      rw [e2, Option.some.injEq] at g1
      exact (g2 l).1 g1.symm
    · simp only [parentType, Option.bind_eq_bind, Option.bind_eq_some_iff] at e3
      obtain ⟨p, e5, q, rfl, e6⟩ := e3
      rw [(parent_of_child hf (child_isNode hf hc)).2 hc] at e5
      cases e5
      rw [OfType, e6] at hs
      cases hs
  · cases e4

/-- C83: the statement before the caret, without `.dd`. -/
example : editedBy (ascii "fn f(){a.dd$}") (expandDebug · 12) =
    some (ascii "fn f(){eprintln!(\"a = {:?}\", a);}") := by decide +kernel

/-- C83. The last three bytes are not looked at: typing `$` after any expression statement replaces it by a statement
that prints another expression. After a statement of two bytes it is a panic. -/
theorem C83_ending_counterexample :
    editedBy (ascii "fn f(){abcd$}") (expandDebug · 12) = some (ascii "fn f(){eprintln!(\"a = {:?}\", a);}") ∧
    inRust (ascii "fn f(){ab$}") (fun f => some (expandDebug f 10).isNone) = some true := by decide +kernel

/-- C84: a function in an implementation. -/
example : inRust (ascii "impl A for B{fn f(){}}") (breadcrumbs · 19) = some [ascii "impl A for B", ascii "fn f"] ∧
    inRust (ascii "trait A{} struct B{}") (breadcrumbs · 20) = some [ascii "struct B"] := by decide +kernel

/-- C84. The place one byte before the caret is looked at, and both leaves at that place count: a function is listed
though the caret is after it, with a space in between. At the beginning of a file there is a panic. -/
theorem C84_caret_counterexample :
    (∃ text file data, (rustDefinition rustLexer).parse 300 (text.map UInt8.toNat) = .ok (file, data) ∧
      text = ascii "fn f(){} " ∧ breadcrumbs ⟨text, file.nodes⟩ 9 = some [ascii "fn f"] ∧
      ∀ n, OfType ⟨text, file.nodes⟩ 197 n → (⟨text, file.nodes⟩ : File UInt8).range n = some ⟨0, 8⟩) ∧
    ∀ f : File UInt8, ConsistentFile f → breadcrumbs f 0 = none := by
  refine ⟨?_, fun f hf => ((C84_breadcrumbs f hf 0).1).2 (.inl rfl)⟩
  obtain ⟨file, data, h1, hf, h2⟩ := inRust_some (text := ascii "fn f(){} ") (v := ())
    (g := fun f => do
      let a ← breadcrumbs f 9
      if a = [ascii "fn f"] ∧ f.nodes.all (fun d => d.ty != 197 || d.range == ⟨0, 8⟩) then some () else none)
    (by decide +kernel)
  refine ⟨_, file, data, h1, rfl, ?_⟩
  simp only [Option.bind_eq_bind, Option.bind_eq_some_iff] at h2
  obtain ⟨a, e1, e4⟩ := h2
  split at e4
  · rename_i hat
    obtain ⟨rfl, hall⟩ := hat
    refine ⟨e1, fun n hn => ?_⟩
    simp only [OfType, File.ty, File.data, Option.map_eq_some_iff] at hn
    obtain ⟨d, hd, ht⟩ := hn
    have := List.all_eq_true.1 hall d (List.mem_of_getElem? hd)
    simp only [ht, bne_self_eq_false, Bool.false_or, beq_iff_eq] at this
    simp [File.range, File.data, hd, this]
  · cases e4

/-- C85: a module after what is in it. -/
example : inRust (ascii "mod m{struct A; fn f(){}} fn(){}") rustStructure =
    some [⟨ascii "A", ⟨6, 15⟩⟩, ⟨ascii "f", ⟨16, 24⟩⟩, ⟨ascii "m", ⟨0, 25⟩⟩] := by decide +kernel

/-- C86: the last segment, and a type with parameters. -/
example : inRust (ascii "use a::b;") (rustContextActions · rustIsWs ⟨5, 5⟩) = some ["Add braces"] ∧
    editedBy (ascii "use a::b;") (rustApplyContextAction · rustIsWs ⟨5, 5⟩ "Add braces") = some (ascii "use a::{b};") ∧
    inRust (ascii "enum S<'a, T>{}") (rustContextActions · rustIsWs ⟨5, 5⟩) = some ["Add impl"] ∧
    editedBy (ascii "enum S<'a, T>{}") (rustApplyContextAction · rustIsWs ⟨5, 5⟩ "Add impl") =
      some (ascii "enum S<'a, T>{}\n\nimpl<'a, T> S<'a, T> {\n\n}") := by decide +kernel

/-- C86: the parameters of that type have names, as the theorem about what is offered asks for. -/
example : ∃ file data,
    (rustDefinition rustLexer).parse 300 ((ascii "enum S<'a, T>{}").map UInt8.toNat) = .ok (file, data) ∧
    ConsistentFile (⟨ascii "enum S<'a, T>{}", file.nodes⟩ : File UInt8) ∧
    (∃ decl name, TypeAt ⟨ascii "enum S<'a, T>{}", file.nodes⟩ 5 decl name) ∧
    ∀ decl name, TypeAt ⟨ascii "enum S<'a, T>{}", file.nodes⟩ 5 decl name →
      NamedParameters ⟨ascii "enum S<'a, T>{}", file.nodes⟩ decl := by
  obtain ⟨file, data, h1, hf, h2⟩ := inRust_some (text := ascii "enum S<'a, T>{}") (v := true)
    (g := fun f => (addImpl f 5 true).map Option.isSome) (by decide +kernel)
  have hlen : 5 ≤ (ascii "enum S<'a, T>{}").length := by decide
  have himpl := C86_impl _ hf 5 hlen
  refine ⟨file, data, h1, hf, ?_, fun decl name ht => ?_⟩
  · apply Classical.byContradiction
    intro h
    rw [himpl.1 (fun decl name ht => h ⟨decl, name, ht⟩)] at h2
    cases h2
  · apply Classical.byContradiction
    intro h
    rw [(himpl.2 decl name _ ht (range_rng (typeAt_isNode ht))).2.2 h] at h2
    cases h2

/-- The nodes for syntax errors. -/
def syntaxErrors (f : File UInt8) : Option Nat := some (f.nodes.filter (·.ty == 0)).length

/-- C86. Braces are added though the import is renamed; the result is not a use declaration. -/
theorem C86_renamed_counterexample :
    inRust (ascii "use a::b as c;") syntaxErrors = some 0 ∧
    editedBy (ascii "use a::b as c;") (rustApplyContextAction · rustIsWs ⟨5, 5⟩ "Add braces") =
      some (ascii "use a::{b} as c;") ∧
    inRust (ascii "use a::{b} as c;") syntaxErrors = some 2 := by decide +kernel

end Fall
