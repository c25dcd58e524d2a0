import Verif.Lemmas.Symbols

/-!
Property theorems for the Rust editor plugin: C45, C46, C57.
-/

namespace Fall
open Spec

/-! ## C45 lines and columns -/

/-- C45. The line index translates every offset to the line it is in and its distance from the start
of that line, and to nothing else; it never panics. Offsets behind the end of the text count from the
start of the last line. -/
theorem C45_translate (upperBound : List Nat → Nat → Nat) (hub : UpperBound upperBound) (text : List Char)
    (offset : Nat) :
    ∃ n col, (LineIndex.new text).translate upperBound offset = some ⟨n, col⟩ ∧ IsAt text offset n col ∧
      ∀ n' col', IsAt text offset n' col' → n' = n ∧ col' = col := by
  obtain ⟨⟨n, col⟩, h⟩ := Lines.translate_total hub text offset
  refine ⟨n, col, h, (Lines.isAt_iff _ _ _ _).2 ((Lines.translate_iff hub _ _ _ _).1 h), fun n' col' h' => ?_⟩
  have h2 := (Lines.translate_iff hub _ _ _ _).2 ((Lines.isAt_iff _ _ _ _).1 h')
  rw [h] at h2
  simp only [Option.some.injEq, LineCol.mk.injEq] at h2
  exact ⟨h2.1.symm, h2.2.symm⟩

/-- A function as promised by the crate `ordslice`. -/
def upperBoundExample (l : List Nat) (x : Nat) : Nat := l.countP (decide <| · ≤ x)

theorem upperBoundExample_ok : UpperBound upperBoundExample := fun _ _ _ => rfl

example : (LineIndex.new "é\n\nab".toList).translate upperBoundExample 5 = some ⟨2, 1⟩ := by decide

/-- C45. Offsets and pairs of line and column correspond one to one, in order. -/
theorem C45_order (upperBound : List Nat → Nat → Nat) (hub : UpperBound upperBound) (text : List Char)
    (o1 o2 : Nat) (lc1 lc2 : LineCol) (h1 : (LineIndex.new text).translate upperBound o1 = some lc1)
    (h2 : (LineIndex.new text).translate upperBound o2 = some lc2) :
    o1 < o2 ↔ lc1.line < lc2.line ∨ (lc1.line = lc2.line ∧ lc1.col < lc2.col) := by
  obtain ⟨n1, c1⟩ := lc1
  obtain ⟨n2, c2⟩ := lc2
  obtain ⟨x1, g1, g2, g3⟩ := (Lines.translate_iff hub _ _ _ _).1 h1
  obtain ⟨x2, k1, k2, k3⟩ := (Lines.translate_iff hub _ _ _ _).1 h2
  have hs := Lines.starts_sorted text
  have mono : ∀ i j x y : Nat, i ≤ j → (LineIndex.new text).newlines[i]? = some x →
      (LineIndex.new text).newlines[j]? = some y → x ≤ y := by
    intro i j x y hij hx hy
    have h := (Lines.lt_countP (x := y) hs hy).2 (Nat.le_refl _)
    exact (Lines.lt_countP (x := y) hs hx).1 (by omega)
  have next : ∀ i j y : Nat, i < j → (LineIndex.new text).newlines[j]? = some y →
      ∃ z, (LineIndex.new text).newlines[i + 1]? = some z ∧ z ≤ y := by
    intro i j y hij hy
    have hlt : j < (LineIndex.new text).newlines.length := by
      rcases Nat.lt_or_ge j (LineIndex.new text).newlines.length with h | h
      · exact h
      · rw [List.getElem?_eq_none h] at hy; cases hy
    exact ⟨_, List.getElem?_eq_getElem (by omega),
      mono (i + 1) j _ y (by omega) (List.getElem?_eq_getElem (by omega)) hy⟩
  simp only
  rcases Nat.lt_trichotomy n1 n2 with h | h | h
  · obtain ⟨z, hz, hzy⟩ := next n1 n2 x2 h k1
    have := g3 z hz
    omega
  · subst h
    rw [g1] at k1
    simp only [Option.some.injEq] at k1
    omega
  · obtain ⟨z, hz, hzy⟩ := next n2 n1 x1 h g1
    have := k3 z hz
    omega

/-- C45. The lines cut the text into pieces: the first line begins at the start, every line begins
where the one before it ends, and the last one ends with the text. -/
theorem C45_partition (text : List Char) :
    ∃ lines : List (List Char), lines.flatten = text ∧ lines.length = text.count '\n' + 1 ∧
      ∀ n line, lines[n]? = some line ↔ ∃ before after, LineAt text n before line after := by
  have key : ∀ text : List Char, ∃ lines : List (List Char), lines.flatten = text ∧
      lines.length = text.count '\n' + 1 ∧
      ∀ n line, lines[n]? = some line ↔
        ∃ after, LineAt text n (lines.take n).flatten line after := by
    intro text
    induction hlen : text.length using Nat.strongRecOn generalizing text with
    | ind k ih =>
      rcases Lines.first_newline text with h | ⟨l, r, h1, h2⟩
      · refine ⟨[text], by simp, by simp [List.count_eq_zero.2 h], fun n line => ?_⟩
        cases n with
        | zero =>
          simp only [List.getElem?_cons_zero, Option.some.injEq, List.take_zero, List.flatten_nil]
          constructor
          · rintro rfl
            exact ⟨[], by simp, rfl, Or.inl rfl, Or.inl ⟨h, rfl⟩⟩
          · rintro ⟨after, h1, h2, h3, ⟨h4, rfl⟩ | ⟨l, rfl, h4⟩⟩
            · simpa using h1
            · exact absurd (by rw [h1]; simp) h
        | succ n =>
          simp only [List.getElem?_cons_succ, List.getElem?_nil, reduceCtorEq, false_iff, not_exists]
          rintro after ⟨h1, h2, -, -⟩
          simp only [List.take_succ_cons, List.take_nil, List.flatten_cons, List.flatten_nil,
            List.append_nil] at h2
          rw [List.count_eq_zero.2 h] at h2
          omega
      · obtain ⟨lines, g1, g2, g3⟩ := ih r.length (by rw [← hlen, h1]; simp; omega) r rfl
        refine ⟨(l ++ ['\n']) :: lines, by simp [g1, h1], ?_, fun n line => ?_⟩
        · simp [h1, g2, List.count_eq_zero.2 h2]
        cases n with
        | zero =>
          simp only [List.getElem?_cons_zero, Option.some.injEq, List.take_zero, List.flatten_nil]
          constructor
          · rintro rfl
            exact ⟨r, by simp [h1], rfl, Or.inl rfl, Or.inr ⟨l, rfl, h2⟩⟩
          · rintro ⟨after, k1, k2, k3, ⟨k4, rfl⟩ | ⟨l', rfl, k4⟩⟩
            · exact absurd (by rw [h1] at k1; simp at k1; rw [← k1]; simp) k4
            · refine Lines.append_count_eq (b := r) (d := after) ?_ ?_ (Or.inr ⟨l, rfl⟩) (Or.inr ⟨l', rfl⟩)
              · rw [h1] at k1
                simpa using k1
              · simp [List.count_eq_zero.2 h2, List.count_eq_zero.2 k4]
        | succ n =>
          rw [List.getElem?_cons_succ, g3]
          simp only [List.take_succ_cons, List.flatten_cons]
          constructor
          · rintro ⟨after, k1, k2, k3, k4⟩
            refine ⟨after, by rw [h1, k1]; simp, ?_, ?_, k4⟩
            · simp [k2, List.count_eq_zero.2 h2, Nat.add_comm]
            · rcases k3 with k3 | ⟨b, k3⟩
              · exact Or.inr ⟨l, by simp [k3]⟩
              · exact Or.inr ⟨l ++ ['\n'] ++ b, by simp [k3]⟩
          · rintro ⟨after, k1, k2, k3, k4⟩
            refine ⟨after, ?_, ?_, ?_, k4⟩
            · rw [h1] at k1
              simpa using k1
            · simp [List.count_eq_zero.2 h2] at k2
              omega
            · generalize hf : (lines.take n).flatten = f at k1 k2 k3
              rcases List.eq_nil_or_concat f with rfl | ⟨f', x, rfl⟩
              · exact Or.inl rfl
              · right
                rcases k3 with k3 | ⟨b, k3⟩
                · simp at k3
                · rw [List.concat_eq_append, ← List.append_assoc] at k3
                  obtain ⟨-, k5⟩ := List.append_inj' k3 rfl
                  exact ⟨f', by rw [List.concat_eq_append, k5]⟩
  obtain ⟨lines, h1, h2, h3⟩ := key text
  refine ⟨lines, h1, h2, fun n line => ?_⟩
  rw [h3]
  constructor
  · rintro ⟨after, h⟩
    exact ⟨_, after, h⟩
  · rintro ⟨before, after, h⟩
    refine ⟨after, ?_⟩
    suffices hb : before = (lines.take n).flatten by rw [← hb]; exact h
    have hn : n < lines.length := by
      rw [h2, h.split, ← h.number]
      simp only [List.count_append]
      omega
    obtain ⟨after', h'⟩ := (h3 n lines[n]).1 (List.getElem?_eq_getElem hn)
    refine Lines.append_count_eq (b := line ++ after) (d := lines[n] ++ after') ?_
      (h.number.trans h'.number.symm) h.begins h'.begins
    rw [← List.append_assoc, ← List.append_assoc, ← h.split, ← h'.split]

example : LineAt "ab\nc\n".toList 2 "ab\nc\n".toList [] [] :=
  ⟨by decide, by decide, Or.inr ⟨"ab\nc".toList, by decide⟩, Or.inl ⟨by decide, rfl⟩⟩

/-! ## C46 subsequences -/

/-- C46. The automaton of a query accepts a name exactly if the query is a subsequence of the name
(as bytes). -/
theorem C46_accepts (a : FstSubSeq) (name : List UInt8) :
    a.isMatch (name.foldl a.accept a.start) = true ↔ a.query.Sublist name := by
  simpa [FstSubSeq.start] using a.run_iff name 0 (Nat.zero_le _)

example : (⟨[102, 98]⟩ : FstSubSeq).query.Sublist [102, 111, 111, 98, 97, 114] := by decide

/-- C46. The hints never change the answer: however a search stops early where the hints allow it, it
answers yes exactly if the query is a subsequence. -/
theorem C46_hints (a : FstSubSeq) (name : List UInt8) (r : Bool) (h : Searched a a.start name r) :
    r = true ↔ a.query.Sublist name := by
  rw [← C46_accepts]
  have key : ∀ s name r, s ≤ a.query.length → Searched a s name r → r = a.isMatch (name.foldl a.accept s) := by
    intro s name r hs h
    induction h with
    | abandon h => simp [FstSubSeq.canMatch] at h
    | @always s name h =>
      refine ((a.run_iff name s hs).2 ?_).symm
      have : s = a.query.length := by simpa [FstSubSeq.willAlwaysMatch] using h
      rw [this]
      simp
    | done => rfl
    | step _ ih => exact ih (a.accept_le hs _).2
  rw [key _ _ _ (Nat.zero_le _) h]
  rfl

/-- An early yes. -/
example : Searched ⟨[102]⟩ 0 [97, 102, 98, 99] true := .step (.step (.always rfl))

/-- C46. If the query is ASCII the same holds for characters; otherwise a name in which the query is
a subsequence is still found. -/
theorem C46_characters (query name : List Char) :
    (query.Sublist name → (bytesOf query).Sublist (bytesOf name)) ∧
    ((∀ c ∈ query, c.val.toNat ≤ 127) → (bytesOf query).Sublist (bytesOf name) → query.Sublist name) :=
  ⟨Symbols.sublist_bytes, Symbols.sublist_ascii⟩

example : ∀ c ∈ "foo".toList, c.val.toNat ≤ 127 := by decide

/-- C46. For other queries, names are found that do not contain the characters of the query. -/
theorem C46_characters_counterexample :
    ∃ query name : List Char, (bytesOf query).Sublist (bytesOf name) ∧ ¬ query.Sublist name :=
  ⟨['é'], ['ã', '©'], by decide, by decide⟩

/-! ## C57 symbol search -/

/-- C57. The index of a file never panics, and it contains, for every name up to case, the first
symbol with it, in the order of the names. -/
theorem C57_index (lowerStr : List Char → List Char) (found : List Symbol) :
    ∃ file, FileSymbols.new lowerStr found = some file ∧
      (∀ s, s ∈ file.symbols ↔ FirstNamed lowerStr found s) ∧
      file.symbols.Pairwise (fun a b => lexLe (bytesOf (lowerStr a.name)) (bytesOf (lowerStr b.name)) = true ∧
        lowerStr a.name ≠ lowerStr b.name) := by
  obtain ⟨file, h1, h2, -, h3⟩ := Symbols.new_eq lowerStr found
  exact ⟨file, h1, h2, h3⟩

/-- Lower case for ASCII. -/
def lowerExample (c : Char) : List Char := [c.toLower]

/-- `fn foo`, `struct Bar`, `struct Foo`. -/
def symbolsExample : List Symbol :=
  [⟨197, "foo".toList, ⟨0, 9⟩, (⟨0, 0⟩, ⟨0, 9⟩)⟩, ⟨202, "Bar".toList, ⟨10, 21⟩, (⟨1, 0⟩, ⟨1, 11⟩)⟩,
    ⟨202, "Foo".toList, ⟨22, 33⟩, (⟨2, 0⟩, ⟨2, 11⟩)⟩]

/-- The first two are in the index. -/
example : FirstNamed (·.flatMap lowerExample) symbolsExample
      ⟨202, "Bar".toList, ⟨10, 21⟩, (⟨1, 0⟩, ⟨1, 11⟩)⟩ :=
  ⟨[_], [_], rfl, by decide⟩

theorem foo_hidden (s : Symbol) (h : s.name = "Foo".toList) :
    ¬ FirstNamed (·.flatMap lowerExample) symbolsExample s := by
  rintro ⟨a, b, h1, h2⟩
  match a, h1, h2 with
  | [], h1, _ =>
    simp only [symbolsExample, List.nil_append, List.cons.injEq] at h1
    rw [← h1.1] at h
    revert h
    decide
  | x :: a, h1, h2 =>
    simp only [symbolsExample, List.cons_append, List.cons.injEq] at h1
    refine h2 x List.mem_cons_self ?_
    rw [← h1.1, h]
    decide

/-- C57. What a search returns are symbols of the files: each is the first with its name in its file and
matches the query. Unless the search has been cut off after 512 symbols, all of these are returned that
are types, and those that are not types if the query contains `#`. If the query does not contain `#`,
other symbols are only returned if no type matches. Nothing is returned only if nothing at all matches. The
search never panics. -/
theorem C57_search (lowerChar : Char → List Char) (lowerStr : List Char → List Char)
    (found : List (P × List Symbol)) (files : List (P × FileSymbols))
    (hfiles : files.map (fun f => (f.1, some f.2)) = found.map fun f => (f.1, FileSymbols.new lowerStr f.2))
    (query : List Char) :
    ∃ result, symbolQuery lowerChar files query = some result ∧
      (∀ p s, (p, s) ∈ result → ∃ syms, (p, syms) ∈ found ∧ FirstNamed lowerStr syms s ∧
        MatchesQuery lowerChar lowerStr query s) ∧
      (result.length ≤ 512 → ∀ p syms s, (p, syms) ∈ found → FirstNamed lowerStr syms s →
        MatchesQuery lowerChar lowerStr query s → ('#' ∈ query ∨ DefinesType s) → (p, s) ∈ result) ∧
      ('#' ∉ query → ∀ p s, (p, s) ∈ result → ¬ DefinesType s → ∀ p' syms' s', (p', syms') ∈ found →
        FirstNamed lowerStr syms' s' → MatchesQuery lowerChar lowerStr query s' → ¬ DefinesType s') ∧
      (result = [] → ∀ p syms s, (p, syms) ∈ found → FirstNamed lowerStr syms s →
        ¬ MatchesQuery lowerChar lowerStr query s) := by
  have hf1 : ∀ p file, (p, file) ∈ files → ∃ syms, (p, syms) ∈ found ∧
      FileSymbols.new lowerStr syms = some file := by
    intro p file h
    have h1 : (p, some file) ∈ files.map (fun f => (f.1, some f.2)) := List.mem_map.2 ⟨_, h, rfl⟩
    rw [hfiles] at h1
    obtain ⟨⟨p', syms⟩, h2, h3⟩ := List.mem_map.1 h1
    simp only [Prod.mk.injEq] at h3
    obtain ⟨rfl, h3⟩ := h3
    exact ⟨syms, h2, h3⟩
  have hf2 : ∀ p syms, (p, syms) ∈ found → ∃ file, (p, file) ∈ files ∧
      FileSymbols.new lowerStr syms = some file := by
    intro p syms h
    have h1 : (p, FileSymbols.new lowerStr syms) ∈ found.map fun f => (f.1, FileSymbols.new lowerStr f.2) :=
      List.mem_map.2 ⟨_, h, rfl⟩
    rw [← hfiles] at h1
    obtain ⟨⟨p', file⟩, h2, h3⟩ := List.mem_map.1 h1
    simp only [Prod.mk.injEq] at h3
    obtain ⟨rfl, h3⟩ := h3
    exact ⟨file, h2, h3.symm⟩
  -- one pass
  have pass : ∀ q : SymQuery, ∃ result, processQuery q files [] = some result ∧
      (∀ p s, (p, s) ∈ result → ∃ syms, (p, syms) ∈ found ∧ FirstNamed lowerStr syms s ∧
        (bytesOf q.query).Sublist (bytesOf (lowerStr s.name)) ∧ (q.allSymbols = true ∨ isTypeDef s.ty = true)) ∧
      (result.length ≤ 512 → ∀ p syms s, (p, syms) ∈ found → FirstNamed lowerStr syms s →
        (bytesOf q.query).Sublist (bytesOf (lowerStr s.name)) → (q.allSymbols = true ∨ isTypeDef s.ty = true) →
          (p, s) ∈ result) := by
    intro q
    have hp : ∀ f ∈ files, q.process f.2 = some ((q.process f.2).getD []) := by
      intro f hf
      obtain ⟨syms, -, h2⟩ := hf1 f.1 f.2 hf
      obtain ⟨rs, h3, -⟩ := Symbols.process_mem h2 q
      simp [h3]
    obtain ⟨n, h1, h2⟩ := Symbols.processQuery_eq (res := fun f => (q.process f.2).getD []) files hp []
    simp only [List.nil_append] at h1 h2
    refine ⟨_, h1, ?_, ?_⟩
    · intro p s hs
      obtain ⟨f, hf, hs⟩ := List.mem_flatMap.1 hs
      obtain ⟨s', hs', heq⟩ := List.mem_map.1 hs
      simp only [Prod.mk.injEq] at heq
      obtain ⟨rfl, rfl⟩ := heq
      obtain ⟨syms, k1, k2⟩ := hf1 f.1 f.2 (List.mem_of_mem_take hf)
      obtain ⟨rs, k3, k4⟩ := Symbols.process_mem k2 q
      rw [k3] at hs'
      exact ⟨syms, k1, (k4 s').1 hs'⟩
    · intro hlen p syms s hsyms hfirst hmatch hty
      obtain ⟨file, k1, k2⟩ := hf2 p syms hsyms
      obtain ⟨rs, k3, k4⟩ := Symbols.process_mem k2 q
      have hn : ¬ n < files.length := fun h => by have := h2 h; omega
      rw [List.take_of_length_le (by omega)]
      refine List.mem_flatMap.2 ⟨_, k1, List.mem_map.2 ⟨s, ?_, rfl⟩⟩
      rw [k3]
      exact (k4 s).2 ⟨hfirst, hmatch, hty⟩
  have hty : ∀ s : Symbol, isTypeDef s.ty = true ↔ DefinesType s := by
    intro s
    simp [isTypeDef, DefinesType]
  have hall : (SymQuery.new lowerChar query).allSymbols = true ↔ '#' ∈ query := by simp [SymQuery.new]
  obtain ⟨r1, h1, h2, h3⟩ := pass (SymQuery.new lowerChar query)
  obtain ⟨r2, g1, g2, g3⟩ := pass { SymQuery.new lowerChar query with allSymbols := true }
  unfold symbolQuery
  simp only [h1, Option.bind_eq_bind, Option.bind_some]
  split
  · rename_i hc
    simp only [Bool.and_eq_true, List.isEmpty_iff, Bool.not_eq_true'] at hc
    obtain ⟨rfl, hc⟩ := hc
    refine ⟨r2, g1, fun p s hs => ?_, fun hlen p syms s k1 k2 k3 _ => g3 hlen p syms s k1 k2 k3 (Or.inl rfl),
      fun _ _ _ _ _ p syms s k1 k2 k3 k4 => ?_, fun he p syms s k1 k2 k3 => ?_⟩
    · obtain ⟨syms, k1, k2, k3, -⟩ := g2 p s hs
      exact ⟨syms, k1, k2, k3⟩
    · have := h3 (by simp) p syms s k1 k2 k3 (Or.inr ((hty s).2 k4))
      simp at this
    · subst he
      have := g3 (by simp) p syms s k1 k2 k3 (Or.inl rfl)
      simp at this
  · rename_i hc
    refine ⟨r1, rfl, fun p s hs => ?_, fun hlen p syms s k1 k2 k3 k4 => ?_,
      fun hq p s hs hs' => ?_, fun he p syms s k1 k2 k3 => ?_⟩
    · obtain ⟨syms, k1, k2, k3, -⟩ := h2 p s hs
      exact ⟨syms, k1, k2, k3⟩
    · exact h3 hlen p syms s k1 k2 k3 (by rwa [hall, hty])
    · obtain ⟨-, -, -, -, k⟩ := h2 p s hs
      rw [hall, hty] at k
      exact absurd k (by simp [hq, hs'])
    · subst he
      simp only [List.isEmpty_nil, Bool.true_and, Bool.not_eq_true, Bool.not_eq_false'] at hc
      have := h3 (by simp) p syms s k1 k2 k3 (Or.inl hc)
      simp at this

/-- The two files `fn foo`, `struct Bar`, `struct Foo` and `struct Baz`. -/
def foundExample : List (Nat × List Symbol) :=
  [(1, symbolsExample), (2, [⟨202, "Baz".toList, ⟨0, 10⟩, (⟨0, 0⟩, ⟨0, 10⟩)⟩])]

example : ∃ files : List (Nat × FileSymbols), files.map (fun f => (f.1, some f.2)) =
      foundExample.map (fun f => (f.1, FileSymbols.new (·.flatMap lowerExample) f.2)) ∧
    MatchesQuery lowerExample (·.flatMap lowerExample) "bA".toList
      ⟨202, "Baz".toList, ⟨0, 10⟩, (⟨0, 0⟩, ⟨0, 10⟩)⟩ := by
  obtain ⟨f1, h1, -⟩ := C57_index (·.flatMap lowerExample) symbolsExample
  obtain ⟨f2, h2, -⟩ := C57_index (·.flatMap lowerExample)
    [⟨202, "Baz".toList, ⟨0, 10⟩, (⟨0, 0⟩, ⟨0, 10⟩)⟩]
  exact ⟨[(1, f1), (2, f2)], by simp only [foundExample, List.map_cons, List.map_nil, h1, h2],
    by unfold MatchesQuery; decide⟩

/-- C57. A type may not be found although its exact name is typed: a function whose name differs in case
only hides it. -/
theorem C57_hidden_counterexample :
    ∃ (found : List Symbol) (file : FileSymbols) (s : Symbol) (result : List (Nat × Symbol)),
      FileSymbols.new (·.flatMap lowerExample) found = some file ∧ s ∈ found ∧ DefinesType s ∧
      symbolQuery lowerExample [(0, file)] s.name = some result ∧ (0, s) ∉ result := by
  obtain ⟨f1, h1, -⟩ := C57_index (·.flatMap lowerExample) symbolsExample
  obtain ⟨result, h2, h3, -⟩ := C57_search lowerExample (·.flatMap lowerExample) [(0, symbolsExample)] [(0, f1)]
    (by simp only [List.map_cons, List.map_nil, h1]) "Foo".toList
  refine ⟨symbolsExample, f1, ⟨202, "Foo".toList, ⟨22, 33⟩, (⟨2, 0⟩, ⟨2, 11⟩)⟩, result, h1, by decide, Or.inl rfl,
    h2, fun h => ?_⟩
  obtain ⟨syms, h4, h5, -⟩ := h3 _ _ h
  simp only [List.mem_singleton, Prod.mk.injEq, true_and] at h4
  subst h4
  exact foo_hidden _ rfl h5

/-- C57. Names are put into lower case as strings, queries character by character. Where these differ,
as for a final sigma, a symbol is not found by its own name. -/
theorem C57_case_counterexample (lowerChar : Char → List Char) (lowerStr : List Char → List Char)
    (h1 : lowerChar 'Α' = ['α']) (h2 : lowerChar 'Σ' = ['σ']) (h3 : lowerStr ['Α', 'Σ'] = ['α', 'ς'])
    (ty : NodeType) (range : TextRange) (lc : LineCol × LineCol) :
    ¬ MatchesQuery lowerChar lowerStr ['Α', 'Σ'] ⟨ty, ['Α', 'Σ'], range, lc⟩ := by
  unfold MatchesQuery
  have : (['Α', 'Σ'] : List Char).filter (· != '#') = ['Α', 'Σ'] := by decide
  simp only [this, List.flatMap_cons, List.flatMap_nil, h1, h2, h3]
  decide

end Fall
