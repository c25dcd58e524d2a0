import Verif.Spec.SymbolIndex
import Verif.Props.Lines
import Verif.Props.Indexer
import Verif.Props.Utf8Features

/-!
C101: searching the symbols of a project.
-/

namespace Fall

open Spec Indexer

/-! ## Strings -/

theorem decode_cons (c : Char) (bs : List UInt8) :
    (String.utf8EncodeChar c ++ bs).toByteArray.utf8DecodeChar? 0 = some c := by
  rw [List.toByteArray_append]
  exact ByteArray.utf8DecodeChar?_utf8EncodeChar_append

/-- Decoding gives back the characters. -/
theorem decodeUtf8_bytesOf (cs : List Char) : ∀ turns, (bytesOf cs).length ≤ turns →
    decodeUtf8 turns (bytesOf cs) = some cs := by
  induction cs with
  | nil => intro turns _; cases turns <;> rfl
  | cons c cs ih =>
    intro turns hl
    obtain ⟨b, bs, he, _⟩ := encode_lead c
    have e : bytesOf (c :: cs) = b :: (bs ++ bytesOf cs) := by
      simp [bytesOf, List.flatMap_cons, he]
    have e' : b :: (bs ++ bytesOf cs) = String.utf8EncodeChar c ++ bytesOf cs := by rw [he]; rfl
    rw [e] at hl ⊢
    cases turns with
    | zero => simp at hl
    | succ turns =>
      have hd : (b :: (bs ++ bytesOf cs)).drop c.utf8Size = bytesOf cs := by
        rw [e', List.drop_left' (String.length_utf8EncodeChar c)]
      simp only [List.length_cons, List.length_append] at hl
      have hdec : (b :: (bs ++ bytesOf cs)).toByteArray.utf8DecodeChar? 0 = some c := by rw [e', decode_cons]
      simp [decodeUtf8, hdec, hd, ih turns (by omega)]

/-- What is decoded are the bytes of a string. -/
theorem decodeUtf8_some : ∀ (turns : Nat) (bs : List UInt8) (cs : List Char), decodeUtf8 turns bs = some cs →
    bs = bytesOf cs := by
  intro turns
  induction turns with
  | zero =>
    intro bs cs h
    cases bs with
    | nil => simp only [decodeUtf8, Option.some.injEq] at h; subst h; rfl
    | cons => cases h
  | succ turns ih =>
    intro bs cs h
    cases bs with
    | nil => simp only [decodeUtf8, Option.some.injEq] at h; subst h; rfl
    | cons b bs =>
      simp only [decodeUtf8, Option.bind_eq_bind, Option.bind_eq_some_iff] at h
      obtain ⟨c, hc, cs', hcs, h⟩ := h
      cases h
      have h1 := String.toByteArray_utf8EncodeChar_of_utf8DecodeChar?_eq_some hc
      have h2 : String.utf8EncodeChar c = (b :: bs).take c.utf8Size := by
        have h3 := congrArg (fun a : ByteArray => a.data.toList) h1
        simpa using h3
      rw [show bytesOf (c :: cs') = String.utf8EncodeChar c ++ bytesOf cs' from rfl, ← ih _ _ hcs, h2,
        List.take_append_drop]

theorem decodeUtf8_iff (bs : List UInt8) (cs : List Char) : decodeUtf8 bs.length bs = some cs ↔ bs = bytesOf cs :=
  ⟨decodeUtf8_some _ _ _, fun h => by rw [h]; exact decodeUtf8_bytesOf cs _ (Nat.le_refl _)⟩

theorem isRustPath_iff (p : Path) : isRustPath p = true ↔ RustPath p := by
  constructor
  · intro h
    unfold isRustPath at h
    split at h
    · cases h
    · rename_i name hn
      obtain ⟨dir, rfl⟩ := List.getLast?_eq_some_iff.1 hn
      simp only [Bool.and_eq_true, decide_eq_true_eq] at h
      obtain ⟨h1, h2⟩ := h
      have e := List.takeWhile_append_dropWhile (p := (· != '.')) (l := name.toList.reverse)
      have e2 : name.toList.reverse.drop (name.toList.reverse.takeWhile (· != '.')).length =
          name.toList.reverse.dropWhile (· != '.') := by
        conv => lhs; arg 2; rw [← e]
        rw [List.drop_left]
      rw [e2] at h2
      have hd := List.head?_dropWhile_not (· != '.') name.toList.reverse
      rw [List.reverse_eq_iff] at h1
      rw [h1] at e
      cases h3 : name.toList.reverse.dropWhile (· != '.') with
      | nil => rw [h3] at h2; simp at h2
      | cons c cs =>
        rw [h3] at hd h2 e
        simp at hd h2
        subst hd
        refine ⟨dir, name, cs.reverse, rfl, by intro h; simp at h; subst h; simp at h2, ?_⟩
        have := congrArg List.reverse e
        simpa using this.symm
  · rintro ⟨dir, name, pre, rfl, hp, he⟩
    have hl : 0 < pre.length := List.length_pos_iff.2 hp
    simp [isRustPath, he]
    omega

/-! ## Files -/

/-- C101. Making the symbols of a file never panics. There is a symbol for each declaration of the file, with its type,
name, range, lines and columns, and of those whose names differ in case only the first is kept. -/
theorem C101_file (lexer : Lexer Nat) (hlex : LexesBy rustLexRules lexer) (hc : CharLexer lexer)
    (upperBound : List Nat → Nat → Nat) (hub : UpperBound upperBound) (lowerStr : List Char → List Char)
    (text : List Char) (fuel : Nat) (hfuel : ((bytesOf text).length + 1) * 36 + 2 ≤ fuel) :
    ∃ syms symbols, SymbolsOf lexer text syms ∧ FileSymbols.new lowerStr syms = some symbols ∧
      FileSymbols.ofText lexer fuel upperBound lowerStr text = some symbols ∧
      ∀ s, s ∈ symbols.symbols ↔ FirstNamed lowerStr syms s := by
  obtain ⟨file, data, hp, -⟩ := C34_rust_total lexer hlex.progress (hlex.blankStart (isWs := rustIsWs) (by decide +kernel))
    ((bytesOf text).map UInt8.toNat)
  have hp := hp fuel (by simpa using hfuel)
  have hu : Utf8 (bytesOf text) := ⟨text, rfl⟩
  have hf := rust_consistent hlex hp
  obtain ⟨hal, -⟩ := C95_languages lexer hc fuel (bytesOf text) hu file data (.inr ⟨hlex, hp⟩)
  have hname : ∀ {n name}, Declares ⟨bytesOf text, file.nodes⟩ n name → ∃ cs, name = bytesOf cs := by
    rintro n name ⟨ty, -, -, c, -, h⟩
    exact textOf_utf8 hf hal h
  have hadd : ∀ name n, Declares ⟨bytesOf text, file.nodes⟩ n name →
      ∃ t, symbolOf upperBound text ⟨bytesOf text, file.nodes⟩ name n = some t := by
    intro name n hd
    obtain ⟨cs, rfl⟩ := hname hd
    obtain ⟨ty, -, ht, -⟩ := hd
    obtain ⟨l1, c1, h1, -⟩ := C45_translate upperBound hub text (rng ⟨bytesOf text, file.nodes⟩ n).start
    obtain ⟨l2, c2, h2, -⟩ := C45_translate upperBound hub text (rng ⟨bytesOf text, file.nodes⟩ n).stop
    have ht' : (⟨bytesOf text, file.nodes⟩ : File UInt8).ty n = some ty := ht
    have h0 := range_rng (ofType_isNode ht)
    refine ⟨⟨ty, cs, rng ⟨bytesOf text, file.nodes⟩ n, (⟨l1, c1⟩, ⟨l2, c2⟩)⟩, ?_⟩
    unfold symbolOf
    rw [h0, ht']
    simp [decodeUtf8_bytesOf cs _ (Nat.le_refl _), h1, h2]
  obtain ⟨syms, nodes, h1, h2, h3⟩ := C85_symbols _ hf _ hadd
  obtain ⟨symbols, h4, h5, -⟩ := C57_index lowerStr syms
  refine ⟨syms, symbols, ⟨fuel, file, data, nodes, hp, h2.imp ?_, h3⟩, h4, ?_, h5⟩
  · rintro n - s ⟨name, hd, hs⟩
    simp only [symbolOf, Option.bind_eq_bind, Option.bind_eq_some_iff] at hs
    obtain ⟨r, hr, ty, hty, cs, hcs, ⟨l1, c1⟩, g1, ⟨l2, c2⟩, g2, hs⟩ := hs
    cases hs
    obtain rfl := (decodeUtf8_iff _ _).1 hcs
    refine ⟨hd, hty, hr, ?_, ?_⟩
    · obtain ⟨l, c, e, e', -⟩ := C45_translate upperBound hub text r.start
      rw [g1] at e
      cases e
      exact e'
    · obtain ⟨l, c, e, e', -⟩ := C45_translate upperBound hub text r.stop
      rw [g2] at e
      cases e
      exact e'
  · simp [FileSymbols.ofText, hp, h1, h4]

/-! ## Projects -/

theorem seen_watch {c : Config C V} {fs : FS C} {events : List (FS C × Indexer.Event)} {now : FS C}
    (h : Seen c fs events now) (q : Path) : watch c fs events q = (expected c now q).map fun v => ⟨q, v⟩ := by
  rcases h q with ⟨before, look, after, h1, h2, h3, h4⟩ | ⟨h1, h2⟩
  · rw [(C47_last_look c fs events q).2 before look after h1 h2 h3]
    unfold expected
    rw [h4]
  · rw [(C47_last_look c fs events q).1 h1, h2]
    rfl

/-- C101. The search in a project whose changes the index has seen. What is returned are declarations in the Rust files
that are there, with the right places, whose names match; of the declarations of a file whose names differ in case only,
the first. Unless it was cut off, all of them are returned that are types, or all if the query contains `#`. Nothing is
returned only if nothing matches. The search never panics. -/
theorem C101_search (lexer : Lexer Nat) (hlex : LexesBy rustLexRules lexer) (hc : CharLexer lexer)
    (upperBound : List Nat → Nat → Nat) (hub : UpperBound upperBound) (lowerStr : List Char → List Char)
    (lowerChar : Char → List Char) (fuel : List UInt8 → Nat) (hfuel : ∀ bs, (bs.length + 1) * 36 + 2 ≤ fuel bs)
    (roots : List Path) (fs : FS (List UInt8)) (events : List (FS (List UInt8) × Indexer.Event)) (now : FS (List UInt8))
    (hseen : Seen (symbolConfig lexer fuel upperBound lowerStr roots) fs events now)
    (files : List (Path × FileSymbols))
    (hfiles : ListsAll (watch (symbolConfig lexer fuel upperBound lowerStr roots) fs events) files)
    (query : List Char) :
    ∃ (found : List (Path × List Symbol)) (result : List (Path × Symbol)),
      (∀ p syms, (p, syms) ∈ found → RustPath p ∧ ∃ text, HasText now p text ∧ SymbolsOf lexer text syms) ∧
      (∀ p text, RustPath p → HasText now p text → ∃ syms, (p, syms) ∈ found) ∧
      (found.map (·.1)).Nodup ∧
      symbolQuery lowerChar files query = some result ∧
      (∀ p s, (p, s) ∈ result → ∃ syms, (p, syms) ∈ found ∧ FirstNamed lowerStr syms s ∧
        MatchesQuery lowerChar lowerStr query s) ∧
      (result.length ≤ 512 → ∀ p syms s, (p, syms) ∈ found → FirstNamed lowerStr syms s →
        MatchesQuery lowerChar lowerStr query s → ('#' ∈ query ∨ DefinesType s) → (p, s) ∈ result) ∧
      ('#' ∉ query → ∀ p s, (p, s) ∈ result → ¬ DefinesType s → ∀ p' syms' s', (p', syms') ∈ found →
        FirstNamed lowerStr syms' s' → MatchesQuery lowerChar lowerStr query s' → ¬ DefinesType s') ∧
      (result = [] → ∀ p syms s, (p, syms) ∈ found → FirstNamed lowerStr syms s →
        ¬ MatchesQuery lowerChar lowerStr query s) := by
  have hval : ∀ p v, expected (symbolConfig lexer fuel upperBound lowerStr roots) now p = some v →
      ∃ syms, (RustPath p ∧ ∃ text, HasText now p text ∧ SymbolsOf lexer text syms) ∧
        FileSymbols.new lowerStr syms = some v := by
    intro p v h
    unfold expected at h
    split at h
    · rename_i content hcont
      split at h
      · rename_i hr
        obtain ⟨text, h1, h2⟩ := Option.bind_eq_some_iff.1 h
        obtain rfl := (decodeUtf8_iff _ _).1 h1
        obtain ⟨syms, symbols, g1, g2, g3, -⟩ := C101_file lexer hlex hc upperBound hub lowerStr text (fuel (bytesOf text))
          (hfuel _)
        rw [h2, Option.some.injEq] at g3
        subst g3
        exact ⟨syms, ⟨(isRustPath_iff p).1 hr, text, hcont, g1⟩, g2⟩
      · cases h
    · cases h
  have hall : ∀ p text, RustPath p → HasText now p text →
      ∃ v, expected (symbolConfig lexer fuel upperBound lowerStr roots) now p = some v := by
    intro p text hr ht
    obtain ⟨syms, symbols, -, -, g3, -⟩ := C101_file lexer hlex hc upperBound hub lowerStr text (fuel (bytesOf text))
      (hfuel _)
    refine ⟨symbols, ?_⟩
    unfold HasText at ht
    unfold expected
    rw [ht]
    simp [symbolConfig, (isRustPath_iff p).2 hr, (decodeUtf8_iff _ _).2 rfl, g3]
  obtain ⟨hnd, hmem⟩ := hfiles
  have hfs : ∀ p v, (p, v) ∈ files ↔ expected (symbolConfig lexer fuel upperBound lowerStr roots) now p = some v := by
    intro p v
    rw [hmem, seen_watch hseen]
    cases expected (symbolConfig lexer fuel upperBound lowerStr roots) now p <;> simp
  have hfound : ∀ l : List (Path × FileSymbols), (∀ x ∈ l, x ∈ files) →
      ∃ found : List (Path × List Symbol), l.map (fun f => (f.1, some f.2)) =
          found.map (fun f => (f.1, FileSymbols.new lowerStr f.2)) ∧
        ∀ p syms, (p, syms) ∈ found → RustPath p ∧ ∃ text, HasText now p text ∧ SymbolsOf lexer text syms := by
    intro l
    induction l with
    | nil => exact fun _ => ⟨[], rfl, by simp⟩
    | cons x l ih =>
      intro hl
      obtain ⟨found, h1, h2⟩ := ih fun y hy => hl y (List.mem_cons_of_mem _ hy)
      obtain ⟨p, v⟩ := x
      obtain ⟨syms, h3, h4⟩ := hval p v ((hfs p v).1 (hl _ List.mem_cons_self))
      refine ⟨(p, syms) :: found, by simp [h1, h4], fun q syms' h => ?_⟩
      rcases List.mem_cons.1 h with h | h
      · cases h
        exact h3
      · exact h2 q syms' h
  obtain ⟨found, h1, h2⟩ := hfound files fun _ h => h
  obtain ⟨result, h3, h4, h5, h7, h6⟩ := C57_search lowerChar lowerStr found files h1 query
  refine ⟨found, result, h2, ?_, ?_, h3, h4, h5, h7, h6⟩
  · intro p text hr ht
    obtain ⟨v, hv⟩ := hall p text hr ht
    have : (p, some v) ∈ found.map (fun f => (f.1, FileSymbols.new lowerStr f.2)) := by
      rw [← h1]
      exact List.mem_map.2 ⟨(p, v), (hfs p v).2 hv, rfl⟩
    obtain ⟨⟨q, syms⟩, hq, e⟩ := List.mem_map.1 this
    simp only [Prod.mk.injEq] at e
    obtain ⟨rfl, -⟩ := e
    exact ⟨syms, hq⟩
  · have := congrArg (List.map (·.1)) h1
    simp only [List.map_map, Function.comp_def] at this
    rw [← this]
    exact hnd

/-! ## Examples -/

/-- A project with a Rust file with the given text, and a note. -/
def projectExample (text : List Char) : FS (List UInt8) := fun q =>
  if q = ["src"] then some .dir
  else if q = ["src", "a.rs"] then some (.file (bytesOf text))
  else if q = ["src", "notes.txt"] then some (.file [255])
  else none

/-- A text with two declarations whose names differ in case only. -/
def projectText : List Char := "fn a(){}\n/*é*/struct B;fn A(){}".toList

/-- The index of the project. -/
def projectConfig : Config (List UInt8) FileSymbols :=
  symbolConfig (wholeLexer rustLexRules) (fun bs => (bs.length + 1) * 36 + 2) upperBoundExample (·.map Char.toLower)
    [["src"]]

theorem projectExample_other (text : List Char) (q : Path) (hq : q ≠ ["src", "a.rs"]) :
    expected projectConfig (projectExample text) q = none := by
  unfold expected projectExample
  by_cases h1 : q = ["src"]
  · simp [h1]
  · by_cases h2 : q = ["src", "notes.txt"]
    · subst h2
      have : isRustPath ["src", "notes.txt"] = false := by decide +kernel
      simp [projectConfig, symbolConfig, this]
    · simp [h1, hq, h2]

/-- The file was changed after the index was made, and the index has seen it. -/
theorem projectExample_seen : Seen projectConfig (projectExample []) [(projectExample projectText, .path ["src", "a.rs"])]
    (projectExample projectText) := by
  intro q
  by_cases hq : q = ["src", "a.rs"]
  · subst hq
    refine .inl ⟨[(projectExample [], ["src"])], (projectExample projectText, ["src", "a.rs"]), [], rfl, .inl ⟨rfl, ?_⟩,
      by simp, rfl⟩
    simp [projectExample]
  · refine .inr ⟨fun look hl => ?_, projectExample_other _ q hq⟩
    have hl : look = (projectExample [], ["src"]) ∨ look = (projectExample projectText, ["src", "a.rs"]) := by
      simpa [looks, about, projectConfig, symbolConfig] using hl
    rintro (⟨h1, h2⟩ | ⟨h1, -, h3⟩)
    · rcases hl with rfl | rfl
      · subst h1
        exact h2 (by simp [projectExample])
      · exact hq h1.symm
    · rcases hl with rfl | rfl
      · rw [projectExample_other _ q hq] at h3
        cases h3
      · simp [projectExample] at h1

/-- The declarations of a text with their lines and columns. -/
def symbolsFound (text : List Char) : Option (List Symbol) :=
  match (rustDefinition (wholeLexer rustLexRules)).parse 2000 ((bytesOf text).map UInt8.toNat) with
  | .ok (file, _) => processSymbols ⟨bytesOf text, file.nodes⟩ (symbolOf upperBoundExample text ⟨bytesOf text, file.nodes⟩)
  | _ => none

set_option maxRecDepth 10000 in
theorem projectText_symbols : (symbolsFound projectText).map (fun l => l.map fun s => (s.ty, s.name, s.range, s.lcRange.1)) =
    some [(197, ['a'], ⟨0, 8⟩, ⟨0, 0⟩), (202, ['B'], ⟨15, 24⟩, ⟨1, 6⟩), (197, ['A'], ⟨24, 32⟩, ⟨1, 15⟩)] := by
  decide +kernel

/-- The file of the project is listed, and the search has a result. -/
example : ∃ files : List (Path × FileSymbols),
    ListsAll (watch projectConfig (projectExample []) [(projectExample projectText, .path ["src", "a.rs"])]) files ∧
    files.map (·.1) = [["src", "a.rs"]] ∧
    ∃ result, symbolQuery lowerExample files ['b'] = some result := by
  obtain ⟨syms, symbols, h1, h2, h3, h4⟩ := C101_file _ (wholeLexer_lexes _) (wholeLexer_chars _) _ upperBoundExample_ok
    (·.map Char.toLower) projectText _ (Nat.le_refl _)
  have hl : ListsAll (watch projectConfig (projectExample []) [(projectExample projectText, .path ["src", "a.rs"])])
      [(["src", "a.rs"], symbols)] := by
    refine ⟨by simp, fun p v => ?_⟩
    rw [seen_watch projectExample_seen]
    by_cases hp : p = ["src", "a.rs"]
    · subst hp
      have : expected projectConfig (projectExample projectText) ["src", "a.rs"] = some symbols := by
        have hr : isRustPath ["src", "a.rs"] = true := by decide +kernel
        simpa [expected, projectExample, projectConfig, symbolConfig, hr, (decodeUtf8_iff _ _).2 rfl] using h3
      rw [this]
      simp [eq_comm]
    · rw [projectExample_other _ _ hp]
      simp [hp]
  obtain ⟨-, result, -, -, -, h, -⟩ := C101_search _ (wholeLexer_lexes _) (wholeLexer_chars _) _ upperBoundExample_ok
    (·.map Char.toLower) lowerExample _ (fun _ => Nat.le_refl _) _ _ _ _ projectExample_seen _ hl ['b']
  exact ⟨_, hl, rfl, result, h⟩

end Fall
