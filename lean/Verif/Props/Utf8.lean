import Verif.Lemmas.Utf8
import Verif.Model.TestTools
import Verif.Props.Syn
import Verif.Props.Tree
import Verif.Props.Promise
import Verif.Props.RustEditorSample
import Verif.Props.LexRules

/-!
C95: texts are cut between characters.
-/

namespace Fall

open Spec

/-- C95. The places between the characters of a string are those where Rust allows to cut it: where no byte is that
continues a character. -/
theorem C95_boundary (s : List UInt8) (hs : Utf8 s) (k : Nat) : Between s k ↔ isBoundary s k = true := by
  rw [between_iff hs]
  unfold isBoundary
  cases h : s[k]? with
  | none => simp
  | some b =>
    have hlt := (List.getElem?_eq_some_iff.1 h).1
    have : k ≠ s.length := by omega
    simp [this, UInt8.lt_iff_toNat_lt, UInt8.le_iff_toNat_le]

/-- C95. If a lexer cuts between characters, all ends of tokens are between characters. -/
theorem C95_lex (lexer : Lexer Nat) (hl : CharLexer lexer) (text : List UInt8) (hu : Utf8 text) (tokens : List Token)
    (h : IsLexing lexer (text.map UInt8.toNat) tokens) (pre suf : List Token) (e : tokens = pre ++ suf) :
    Between text (pre.map (·.len)).sum := by
  have := lexing_between hl hu h pre.length
  rwa [e, List.take_left] at this

theorem parsed_consistent (d : Definition) (hp : Progress d.lexer) (ty body : Nat)
    (hstart : d.rules[0]? = some (.pub ty body false)) (hb : BoundedBinder d.binder) (hs : SpacelessStrings d)
    {n : Nat} {text : List UInt8} {file : File Nat} {data : Definition.IncrementalData}
    (h : d.parse n (text.map UInt8.toNat) = .ok (file, data)) : ConsistentFile (⟨text, file.nodes⟩ : File UInt8) := by
  obtain ⟨hc, ht, -⟩ := C31_parse_lossless d hp ty body hstart hb hs n _ file data h
  refine ⟨hc.nodes, ?_⟩
  have := hc.covers
  rw [ht, List.length_map] at this
  exact this

/-- C95. In every parsed file all nodes begin and end between characters, so that the text of each node is a string. -/
theorem C95_nodes (d : Definition) (hp : Progress d.lexer) (hc : CharLexer d.lexer) (ty body : Nat)
    (hstart : d.rules[0]? = some (.pub ty body false)) (hb : BoundedBinder d.binder) (hs : SpacelessStrings d)
    (n : Nat) (text : List UInt8) (hu : Utf8 text) (file : File Nat) (data : Definition.IncrementalData)
    (h : d.parse n (text.map UInt8.toNat) = .ok (file, data)) :
    Aligned ⟨text, file.nodes⟩ ∧
    ∀ m s, (⟨text, file.nodes⟩ : File UInt8).textOf m = some s → Utf8 s := by
  have hal : Aligned ⟨text, file.nodes⟩ := by
    obtain ⟨ts, h1, h2, h3, h4⟩ := C10_lex_tiles d.lexer hp (text.map UInt8.toNat)
    simp only [Definition.parse, h1, Result.ofOption, bind, Result.bind] at h
    cases h5 : d.parseTokens n none (text.map UInt8.toNat) ts with
    | panic => rw [h5] at h; cases h
    | timeout => rw [h5] at h; cases h
    | ok r =>
      rw [h5] at h
      obtain ⟨ops, events⟩ := r
      obtain ⟨t, kids, plain, h6, rfl, _, _, _, h7⟩ :=
        parseTokens_ok hstart hb h4 h3 (plainStrings_of_lexer hs h2 none) h5
      have hnodes : newFile (text.map UInt8.toNat) (Forest.node t kids .nil).ops =
          some ⟨text.map UInt8.toNat, (Forest.node t kids .nil).flatten none 0 0⟩ := by
        rw [newFile, buildNodes_roots _ rfl]
        rfl
      simp only [hnodes, pure, Result.ok.injEq, Prod.mk.injEq] at h
      obtain ⟨rfl, rfl⟩ := h
      intro m r hr
      obtain ⟨x, hx, rfl⟩ : ∃ x : NodeData, ((Forest.node t kids .nil).flatten none 0 0)[m]? = some x ∧ x.range = r := by
        simpa [File.range, File.data] using hr
      have hlt := (List.getElem?_eq_some_iff.1 hx).1
      refine repr_ends (P := Between text) (repr_single t kids) (fun pre suf e => ?_) (Nat.zero_le _) ?_ hx
      · rw [Nat.zero_add]
        have := places_ends h7 (P := Between text) (pos := 0)
          (fun i => by rw [Nat.zero_add]; exact lexing_between hc hu h2 i) e
        rwa [Nat.zero_add] at this
      · rw [Nat.zero_add]
        rwa [Forest.flatten_length] at hlt
  refine ⟨hal, fun m s hm => ?_⟩
  have hf := parsed_consistent d hp ty body hstart hb hs h
  have hn : IsNode (⟨text, file.nodes⟩ : File UInt8) m := by
    simp only [File.textOf, Option.bind_eq_bind, Option.bind_eq_some_iff] at hm
    obtain ⟨r, hr, -⟩ := hm
    obtain ⟨x, hx, -⟩ : ∃ x : NodeData, file.nodes[m]? = some x ∧ x.range = r := by
      simpa [File.range, File.data] using hr
    exact (List.getElem?_eq_some_iff.1 hx).1
  rw [textOf_eq hf hn, Option.some.injEq] at hm
  subst hm
  obtain ⟨h1, h2⟩ := hal m _ (range_rng hn)
  exact h1.bytes h2 (rng_valid hf.nodes hn)

/-- C95. Structural edits cut the text between characters only: if all nodes begin and end there and all texts of the
edit are strings, the edit copies pieces between such places, and its result is a string. -/
theorem C95_edit (f : File UInt8) (hf : ConsistentFile f) (hal : Aligned f) (hu : Utf8 f.text) (e : FileEdit UInt8)
    (he : StringEdit e) : ∃ edit out, e.intoTextEdit f = some edit ∧ edit.apply (Text.ofBuf f.text) = some out ∧
      Utf8 out ∧ ∀ r, .copy r ∈ edit.ops → Between f.text r.start ∧ Between f.text r.stop := by
  obtain ⟨edit, out, h1, h2, h3⟩ := C22_edit_renders f hf e
  refine ⟨edit, out, h1, h3, ?_, intoTextEdit_ends (.zero hu) (.all hu) hal h1⟩
  have lookup : ∀ {l : List (NodeId × List UInt8)} {n : NodeId} {s : List UInt8}, l.lookup n = some s → (n, s) ∈ l := by
    intro l n s h
    induction l with
    | nil => cases h
    | cons x l ih =>
      obtain ⟨m, t⟩ := x
      rw [List.lookup_cons] at h
      split at h
      · rename_i hb
        rw [beq_iff_eq] at hb
        cases h
        simp [hb]
      · exact List.mem_cons_of_mem _ (ih h)
  have hins : ∀ n, Utf8 (insertedAfter e n) := by
    intro n
    unfold insertedAfter
    cases h : e.inserted.lookup n with
    | none => exact .nil
    | some s => exact he.2 n s (lookup h)
  clear h1 h3
  refine Rendered.rec (motive_1 := fun _ out _ => Utf8 out) (motive_2 := fun _ out _ => Utf8 out)
    (fun _ => .nil) (fun _ h => he.1 _ _ (lookup h)) ?_ (fun _ _ _ _ _ ih => ih.append (hins _)) .nil
    (fun _ _ ih1 ih2 => ih1.append ih2) h2
  intro n r _ _ _ hr
  obtain ⟨a1, a2⟩ := hal n r hr
  obtain ⟨x, hx, rfl⟩ : ∃ x : NodeData, f.nodes[n]? = some x ∧ x.range = r := by
    simpa [File.range, File.data] using hr
  have hn : IsNode f n := (List.getElem?_eq_some_iff.1 hx).1
  have := rng_valid hf.nodes hn
  rw [range_rng hn, Option.some.injEq] at hr
  rw [← hr] at a1 a2 ⊢
  exact (a1.bytes a2 this).append (hins n)

/-- C95. Replacing a range that begins and ends between characters is such an edit. -/
theorem C95_substring (f : File UInt8) (hal : Aligned f) (e e' : FileEdit UInt8) (he : StringEdit e) (q : TextRange)
    (h1 : Between f.text q.start) (h2 : Between f.text q.stop) (s : List UInt8) (hs : Utf8 s)
    (h : e.replaceSubstring f q s = some e') : StringEdit e' := by
  have piece : ∀ {r : TextRange} {t : Text UInt8} {x : List UInt8}, (Text.ofBuf f.text).slice r = some t →
      t.asStr = some x → r.start ≤ r.stop ∧ x = bytes f.text r.start r.stop := by
    intro r t x h1 h2
    have := piece_copy (Text.ofBuf_wf f.text) (Text.asStr_ofBuf f.text) r
    simp only [TextEditOp.piece, h1, Option.bind_some, h2] at this
    split at this
    · rename_i hr
      exact ⟨hr.1, Option.some.inj this⟩
    · cases this
  have range : ∀ {a b : Nat} {r : TextRange}, TextRange.fromTo a b = some r → r = ⟨a, b⟩ := by
    intro a b r h
    simp only [TextRange.fromTo] at h
    grind
  simp only [FileEdit.replaceSubstring, Option.bind_eq_bind, Option.bind_eq_some_iff] at h
  obtain ⟨rr, -, h⟩ := h
  split at h
  · cases h
  · simp only [Option.bind_eq_some_iff] at h
    obtain ⟨node, -, nr, hnr, r1, k1, t1, k2, r2, k3, t2, k4, x, k5, y, k6, h⟩ := h
    cases h
    cases range k1
    cases range k3
    obtain ⟨l1, rfl⟩ := piece k2 k5
    obtain ⟨l2, rfl⟩ := piece k4 k6
    obtain ⟨a1, a2⟩ := hal node nr hnr
    refine ⟨fun n x hx => ?_, he.2⟩
    simp only [FileEdit.replaceWithText, List.mem_append, List.mem_singleton, Prod.mk.injEq] at hx
    rcases hx with hx | ⟨-, rfl⟩
    · exact he.1 n x hx
    · exact ((a1.bytes h1 l1).append hs).append (h2.bytes a2 l2)

/-- C95. Fall files and Rust files, if the lexer cuts between characters. -/
theorem C95_languages (lexer : Lexer Nat) (hc : CharLexer lexer) (n : Nat) (text : List UInt8) (hu : Utf8 text)
    (file : File Nat) (data : Definition.IncrementalData)
    (h : LexesBy fallLexRules lexer ∧ (fallDefinition lexer).parse n (text.map UInt8.toNat) = .ok (file, data) ∨
      LexesBy rustLexRules lexer ∧ (rustDefinition lexer).parse n (text.map UInt8.toNat) = .ok (file, data)) :
    Aligned ⟨text, file.nodes⟩ ∧ (∀ m s, (⟨text, file.nodes⟩ : File UInt8).textOf m = some s → Utf8 s) ∧
    ∀ e, StringEdit e → ∃ edit out, e.intoTextEdit ⟨text, file.nodes⟩ = some edit ∧
      edit.apply (Text.ofBuf text) = some out ∧ Utf8 out := by
  have key : ConsistentFile (⟨text, file.nodes⟩ : File UInt8) ∧ Aligned ⟨text, file.nodes⟩ ∧
      ∀ m s, (⟨text, file.nodes⟩ : File UInt8).textOf m = some s → Utf8 s := by
    rcases h with ⟨hlex, h⟩ | ⟨hlex, h⟩
    · have hs : SpacelessStrings (fallDefinition lexer) :=
        spaceless_of_visible (show visible fallGrammar.rules = true by decide +kernel)
          (hlex.blankStart (isWs := fallIsWs) (by decide +kernel))
      exact ⟨parsed_consistent _ hlex.progress 32 37 rfl (fun _ _ _ => Nat.zero_le _) hs h,
        C95_nodes _ hlex.progress hc 32 37 rfl (fun _ _ _ => Nat.zero_le _) hs n text hu file data h⟩
    · have hs : SpacelessStrings (rustDefinition lexer) :=
        spaceless_of_visible (show visible rustGrammar.rules = true by decide +kernel)
          (hlex.blankStart (isWs := rustIsWs) (by decide +kernel))
      exact ⟨parsed_consistent _ hlex.progress 93 158 rfl rustBinder_bounded hs h,
        C95_nodes _ hlex.progress hc 93 158 rfl rustBinder_bounded hs n text hu file data h⟩
  obtain ⟨hf, hal, ht⟩ := key
  refine ⟨hal, ht, fun e he => ?_⟩
  obtain ⟨edit, out, h1, h2, h3, -⟩ := C95_edit _ hf hal hu e he
  exact ⟨edit, out, h1, h2, h3⟩

/-! ## Examples -/

/-- Whether a character may begin with the byte. -/
def beginsChar (b : Nat) : Bool := b < 128 || 192 ≤ b

/-- The lexer of the rules, with an error of one character where it would cut a character. -/
def wholeLexer (rules : List LexRule) : Lexer Nat := fun s =>
  let t := ruleLexer rules s
  if t.len = s.length ∨ (s[t.len]?.any beginsChar) = true then t
  else ⟨ERROR, 1 + ((s.drop 1).takeWhile fun b => !beginsChar b).length⟩

theorem wholeLexer_lexes (rules : List LexRule) : LexesBy rules (wholeLexer rules) := by
  have h := ruleLexer_lexes rules
  constructor
  · intro text hne
    unfold wholeLexer
    simp only
    split
    · exact h.progress text hne
    · refine ⟨by simp only; omega, ?_⟩
      have := (List.takeWhile_sublist (fun b => !beginsChar b) (l := text.drop 1)).length_le
      have hlen : 1 ≤ text.length := List.length_pos_iff.2 hne
      simp only [List.length_drop] at this ⊢
      omega
  · intro text
    unfold wholeLexer
    simp only
    split
    · exact h.token text
    · exact .inl rfl

theorem wholeLexer_chars (rules : List LexRule) : CharLexer (wholeLexer rules) := by
  intro s hs hne
  rw [between_iff hs]
  unfold wholeLexer
  simp only
  have key : ∀ k : Nat, (s.map UInt8.toNat)[k]?.any beginsChar = true → ∃ b : UInt8, s[k]? = some b ∧ (b.toNat < 128 ∨ 192 ≤ b.toNat) := by
    intro k hk
    rw [List.getElem?_map] at hk
    cases hb : s[k]? with
    | none => simp [hb] at hk
    | some b => exact ⟨b, rfl, by simpa [hb, beginsChar] using hk⟩
  split
  · rename_i h
    rcases h with h | h
    · left; simpa using h
    · exact .inr (key _ h)
  · simp only
    generalize hr : ((s.map UInt8.toNat).drop 1).takeWhile (fun b => !beginsChar b) = r
    have e := List.takeWhile_append_dropWhile (p := fun b => !beginsChar b) (l := (s.map UInt8.toNat).drop 1)
    rw [hr] at e
    cases hd : ((s.map UInt8.toNat).drop 1).dropWhile (fun b => !beginsChar b) with
    | nil =>
      left
      have hlen : 1 ≤ s.length := List.length_pos_iff.2 hne
      rw [hd, List.append_nil] at e
      rw [e]
      simp
      omega
    | cons x xs =>
      right
      refine key _ ?_
      have hx : beginsChar x = true := by
        have := List.head?_dropWhile_not (fun b => !beginsChar b) ((s.map UInt8.toNat).drop 1)
        rw [hd] at this
        simpa using this
      rw [hd] at e
      have : (s.map UInt8.toNat)[1 + r.length]? = some x := by
        rw [← List.getElem?_drop, ← e]
        simp
      simp [this, hx]

/-- The text `rule é { 'ü' }`: characters of two bytes in a name, which is an error, and in a string. -/
def accentedText : List UInt8 :=
  ['r', 'u', 'l', 'e', ' ', 'é', ' ', '{', ' ', '\'', 'ü', '\'', ' ', '}'].flatMap String.utf8EncodeChar

set_option maxRecDepth 10000 in
/-- It is parsed, with the string as a token; its nodes begin and end between characters, but not all places are such. -/
example : ∃ file data, (fallDefinition (wholeLexer fallLexRules)).parse 1000 (accentedText.map UInt8.toNat) = .ok (file, data) ∧
    Aligned ⟨accentedText, file.nodes⟩ ∧ ¬ Between accentedText 6 ∧ ¬ Between accentedText 12 := by
  have h : (match (fallDefinition (wholeLexer fallLexRules)).parse 1000 (accentedText.map UInt8.toNat) with
      | .ok (file, _) => file.nodes.any fun x => x.ty == 128 && x.range == ⟨10, 14⟩
      | _ => false) = true := by decide +kernel
  have hu : Utf8 accentedText := ⟨_, rfl⟩
  split at h
  · rename_i file data hp
    refine ⟨file, data, hp, ?_, ?_⟩
    · exact (C95_languages _ (wholeLexer_chars _) 1000 accentedText hu file data (.inl ⟨wholeLexer_lexes _, hp⟩)).1
    · rw [C95_boundary _ hu, C95_boundary _ hu]
      decide +kernel
  · cases h

/-- An edit that inserts `é` and replaces a node by `ü` has strings only. -/
example : StringEdit ((FileEdit.new.insertTextAfter 1 [0xC3, 0xA9]).replaceWithText 2 [0xC3, 0xBC]) := by
  refine ⟨fun n s h => ⟨['ü'], ?_⟩, fun n s h => ⟨['é'], ?_⟩⟩ <;>
  · simp [FileEdit.new, FileEdit.insertTextAfter, FileEdit.replaceWithText] at h
    rw [h.2]
    decide

/-- A file with the one character `é`. -/
def oneChar : File UInt8 := ⟨[0xC3, 0xA9], [⟨1, none, [1], ⟨0, 2⟩⟩, ⟨2, some 0, [], ⟨0, 2⟩⟩]⟩

/-- C95, counterexample to "every range of an aligned file can be replaced": replacing the first byte of a character
leaves the second one, which is not a string. In Rust this is a panic. -/
theorem C95_substring_counterexample : Aligned oneChar ∧ ∃ e', FileEdit.new.replaceSubstring oneChar ⟨0, 1⟩ [] = some e' ∧
    ¬ StringEdit e' := by
  have hu : Utf8 oneChar.text := ⟨['é'], by decide⟩
  refine ⟨fun n r h => ?_, _, rfl, fun he => ?_⟩
  · have : r = ⟨0, 2⟩ := by
      match n, h with
      | 0, h => exact (Option.some.inj h).symm
      | 1, h => exact (Option.some.inj h).symm
    subst this
    exact ⟨.zero hu, .all hu⟩
  · have := (he.1 1 [0xA9] (by decide)).first
    revert this
    decide

end Fall
