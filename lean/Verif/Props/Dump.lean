import Verif.Lemmas.Dump
import Verif.Model.TestTools
import Verif.Lemmas.Generate
import Verif.Props.Promise
import Verif.Props.RustEditorSample

/-!
C87: the text of a tree, as shown by the editor and compared by tests, determines the tree.
-/

namespace Fall
open Spec

section
variable (info : NodeType → Option TypeInfo) (debug : List UInt8 → List UInt8)

/-- C87. If all types have a name, the text of a tree is written without a panic. Two trees have the same text exactly
if they are the same tree: the same types, the same children and the same texts of the leaves. -/
theorem C87_tree_ws (hn : Names info) (hq : Quotes debug) (f g : File UInt8) (hf : ConsistentFile f)
    (hg : ConsistentFile g) (kf : KnownTypes info f) (kg : KnownTypes info g) :
    ∃ s t, dumpFileWs info debug f = some s ∧ dumpFileWs info debug g = some t ∧
      (s = t ↔ ∃ T, TreesAt f [f.root] T ∧ TreesAt g [g.root] T) ∧ (s = t → f.text = g.text) := by
  obtain ⟨T, hT⟩ := treeAt_exists hf
  obtain ⟨U, hU⟩ := treeAt_exists hg
  refine ⟨_, _, dump_eq hf kf true hT, dump_eq hg kg true hU, ?_⟩
  have key : rowsText info debug ((T.shown info true).rows 0) = rowsText info debug ((U.shown info true).rows 0) → T = U :=
    fun h => rows_injective T 0 U
      (rowsText_injective hn hq _ _ (shown_types kf hT true 0) (shown_types kg hU true 0) h)
  refine ⟨⟨fun h => ⟨T, hT, key h ▸ hU⟩, ?_⟩, fun h => ?_⟩
  · rintro ⟨V, h1, h2⟩
    rw [treesAt_unique hT h1, treesAt_unique hU h2]
  · rw [← treeAt_text hf hT, ← treeAt_text hg hU, key h]

/-- C87. Without white space, two trees have the same text exactly if they are the same after all nodes like white
space are taken away, with what is in them. -/
theorem C87_tree (hn : Names info) (hq : Quotes debug) (f g : File UInt8) (hf : ConsistentFile f)
    (hg : ConsistentFile g) (kf : KnownTypes info f) (kg : KnownTypes info g) :
    ∃ s t, dumpFile info debug f = some s ∧ dumpFile info debug g = some t ∧
      (s = t ↔ ∃ T U, TreesAt f [f.root] T ∧ TreesAt g [g.root] U ∧
        T.without (likeSpace info) = U.without (likeSpace info)) := by
  obtain ⟨T, hT⟩ := treeAt_exists hf
  obtain ⟨U, hU⟩ := treeAt_exists hg
  refine ⟨_, _, dump_eq hf kf false hT, dump_eq hg kg false hU, fun h => ⟨T, U, hT, hU, ?_⟩, ?_⟩
  · exact rows_injective _ 0 _
      (rowsText_injective hn hq _ _ (shown_types kf hT false 0) (shown_types kg hU false 0) h)
  · rintro ⟨T', U', h1, h2, h3⟩
    cases treesAt_unique hT h1
    cases treesAt_unique hU h2
    simp only [Trees.shown, Bool.false_eq_true, if_false, h3]

end

/-! ## The comparison in tests -/

theorem trim_iff {s t : List UInt8} : trimText s = t ↔ Spec.Trimmed s t := by
  refine ⟨fun h => h ▸ trimmed_trim s, ?_⟩
  rintro ⟨a, b, rfl, ha, hb, h1, h2⟩
  have ha' : ∀ x ∈ a, isSpaceByte x = true := fun x hx => spaceByte_iff.2 (ha x hx)
  have hb' : ∀ x ∈ b.reverse, isSpaceByte x = true := fun x hx => spaceByte_iff.2 (hb x (List.mem_reverse.1 hx))
  cases t with
  | nil =>
    have : (a ++ [] ++ b).dropWhile isSpaceByte = [] := by
      have := List.dropWhile_append_of_pos (l₂ := []) (fun x hx => hb' x (List.mem_reverse.2 hx))
      rw [List.append_nil, List.dropWhile_append_of_pos ha']
      simpa using this
    rw [trimText, this]
    rfl
  | cons y t =>
    have hy : isSpaceByte y = false := by
      rw [Bool.eq_false_iff, ne_eq, spaceByte_iff]
      exact h1 y rfl
    obtain ⟨z, hz⟩ : ∃ z, (y :: t).getLast? = some z := ⟨_, List.getLast?_cons⟩
    have hz' : isSpaceByte z = false := by
      rw [Bool.eq_false_iff, ne_eq, spaceByte_iff]
      exact h2 z hz
    obtain ⟨u, hu⟩ := List.getLast?_eq_some_iff.1 hz
    have e1 : (a ++ (y :: t) ++ b).dropWhile isSpaceByte = (y :: t) ++ b := by
      rw [List.append_assoc, List.dropWhile_append_of_pos ha', List.cons_append, List.dropWhile_cons_of_neg (by simp [hy])]
    rw [trimText, e1, List.reverse_append, List.dropWhile_append_of_pos hb', hu, List.reverse_append]
    simp [hz']

section
variable {info : NodeType → Option TypeInfo} {debug : List UInt8 → List UInt8}

theorem rowText_last (hn : Names info) (hq : Quotes debug) {r : Nat × NodeType × Option (List UInt8)}
    (hr : ∃ i, info r.2.1 = some i) : ∃ c, (rowText info debug r).getLast? = some c ∧ ¬ SpaceByte c := by
  obtain ⟨h1, h2⟩ := nameOf_visible hn hr
  have hne : nameOf info r.2.1 ++ rowEnd debug r.2.2 ≠ [] := by simp [h1]
  rw [rowText, List.getLast?_append]
  cases ho : r.2.2 with
  | none =>
    obtain ⟨c, hc⟩ : ∃ c, (nameOf info r.2.1).getLast? = some c := by
      cases hx : nameOf info r.2.1 with
      | nil => exact absurd hx h1
      | cons b bs => exact ⟨_, List.getLast?_cons⟩
    exact ⟨c, by simp [rowEnd, hc], h2 c (List.mem_of_getLast? hc)⟩
  | some s =>
    refine ⟨34, ?_, by simp [SpaceByte]⟩
    have := hq.quote s
    simp [rowEnd, List.getLast?_append, List.getLast?_cons, this]

/-- The text of rows that begin at the left: white space around it is one line end. -/
theorem rowsText_trim (hn : Names info) (hq : Quotes debug) {r : Nat × NodeType × Option (List UInt8)}
    {rs : List (Nat × NodeType × Option (List UInt8))} (h0 : r.1 = 0) (h : ∀ x ∈ r :: rs, ∃ i, info x.2.1 = some i) :
    trimText (rowsText info debug (r :: rs)) ++ [10] = rowsText info debug (r :: rs) := by
  obtain ⟨last, init, e⟩ : ∃ last init, r :: rs = init ++ [last] := by
    have := List.dropLast_concat_getLast (l := r :: rs) (by simp)
    exact ⟨_, _, this.symm⟩
  have e1 : rowsText info debug (r :: rs) = (rowsText info debug init ++ rowText info debug last) ++ [10] := by
    rw [e]
    simp [rowsText]
  obtain ⟨h1, h2⟩ := nameOf_visible hn (h r List.mem_cons_self)
  obtain ⟨b, bs, hb⟩ : ∃ b bs, nameOf info r.2.1 = b :: bs := by
    cases hx : nameOf info r.2.1 with
    | nil => exact absurd hx h1
    | cons b bs => exact ⟨b, bs, rfl⟩
  obtain ⟨rest, e2⟩ : ∃ rest, rowsText info debug (r :: rs) = b :: rest := by
    rw [rowsText, List.flatMap_cons, rowText, h0, hb]
    simp only [List.replicate_zero, List.flatten_nil, List.nil_append, List.cons_append]
    exact ⟨_, rfl⟩
  obtain ⟨c, hc, hcs⟩ := rowText_last (debug := debug) hn hq (h last (by rw [e]; simp))
  have hlast : (rowsText info debug init ++ rowText info debug last).getLast? = some c := by
    rw [List.getLast?_append, hc]
    rfl
  have : trimText (rowsText info debug (r :: rs)) = rowsText info debug init ++ rowText info debug last := by
    refine trim_iff.2 ⟨[], [10], by simp [e1], by simp, by simp [SpaceByte], fun x hx => ?_, fun x hx => ?_⟩
    · cases hl : rowsText info debug init ++ rowText info debug last with
      | nil => rw [hl] at hx; cases hx
      | cons y ys =>
        rw [hl] at hx e1
        rw [e2] at e1
        simp only [List.cons_append, List.cons.injEq] at e1
        simp only [List.head?_cons, Option.some.injEq] at hx
        rw [← hx, ← e1.1]
        exact h2 b (by simp [hb])
    · rw [hlast, Option.some.injEq] at hx
      exact hx ▸ hcs
  rw [this, e1]

theorem dump_trim (hn : Names info) (hq : Quotes debug) {f : File UInt8}
    (hk : KnownTypes info f) {T : Trees} (h : TreesAt f [f.root] T) :
    trimText (rowsText info debug ((T.shown info true).rows 0)) ++ [10] =
      rowsText info debug ((T.shown info true).rows 0) := by
  have ht := shown_types hk h true 0
  cases hr : (T.shown info true).rows 0 with
  | nil =>
    cases h with
    | leaf => simp [Trees.shown, Trees.rows] at hr
    | inner => simp [Trees.shown, Trees.rows] at hr
  | cons r rs =>
    rw [hr] at ht
    exact rowsText_trim hn hq (rows_head _ 0 r rs hr) ht

end

/-- C87. The comparison of files in tests passes exactly if the files have the same tree, and then they have the same
text. -/
theorem C87_equal_files (info : NodeType → Option TypeInfo) (debug : List UInt8 → List UInt8) (hn : Names info)
    (hq : Quotes debug) (f g : File UInt8) (hf : ConsistentFile f) (hg : ConsistentFile g) (kf : KnownTypes info f)
    (kg : KnownTypes info g) :
    (checkEqualFiles info debug f g = some () ↔ ∃ T, TreesAt f [f.root] T ∧ TreesAt g [g.root] T) ∧
    (checkEqualFiles info debug f g = some () → f.text = g.text) := by
  obtain ⟨T, hT⟩ := treeAt_exists hf
  obtain ⟨U, hU⟩ := treeAt_exists hg
  obtain ⟨s, t, h1, h2, h3, h4⟩ := C87_tree_ws info debug hn hq f g hf hg kf kg
  have e1 := dump_eq (debug := debug) hf kf true hT
  have e2 := dump_eq (debug := debug) hg kg true hU
  have hs : rowsText info debug ((T.shown info true).rows 0) = s := by
    rw [dumpFileWs, e1, Option.some.injEq] at h1
    exact h1
  have ht : rowsText info debug ((U.shown info true).rows 0) = t := by
    rw [dumpFileWs, e2, Option.some.injEq] at h2
    exact h2
  have k1 := dump_trim hn hq kf hT
  have k2 := dump_trim hn hq kg hU
  rw [hs] at k1
  rw [ht] at k2
  have key : checkEqualFiles info debug f g = some () ↔ s = t := by
    simp only [checkEqualFiles, h1, h2, Option.bind_eq_bind, Option.bind_some, reportDiff]
    constructor
    · intro h
      split at h
      · rename_i he
        rw [← k1, ← k2, he]
      · cases h
    · rintro rfl
      simp
  rw [key]
  exact ⟨h3, h4⟩

/-- C87. A test of a tree passes exactly if the expected text is the text of the tree, up to white space around it. The
text of a tree has a line end after it and no other white space around it. -/
theorem C87_syntax (info : NodeType → Option TypeInfo) (debug : List UInt8 → List UInt8) (hn : Names info)
    (hq : Quotes debug) (f : File UInt8) (hf : ConsistentFile f) (hk : KnownTypes info f) :
    (∃ s, dumpFileWs info debug f = some (s ++ [10]) ∧
      ∀ expected, checkSyntaxWs info debug f expected = some () ↔ Spec.Trimmed expected s) ∧
    ∃ d s, dumpFile info debug f = some d ∧ Spec.Trimmed d s ∧
      ∀ expected, checkSyntax info debug f expected = some () ↔ Spec.Trimmed expected s := by
  obtain ⟨T, hT⟩ := treeAt_exists hf
  have e1 := dump_eq (debug := debug) hf hk true hT
  have e2 := dump_eq (debug := debug) hf hk false hT
  have key : ∀ e d : List UInt8, reportDiff e d = some () ↔ Spec.Trimmed e (trimText d) := by
    intro e d
    rw [← trim_iff, reportDiff]
    split
    · simp [*]
    · simp [*]
  refine ⟨⟨_, by rw [dumpFileWs, e1, dump_trim hn hq hk hT], fun expected => ?_⟩, _, _, e2, trimmed_trim _, fun expected => ?_⟩
  · simp only [checkSyntaxWs, dumpFileWs, e1, Option.bind_eq_bind, Option.bind_some]
    exact key _ _
  · simp only [checkSyntax, dumpFile, e2, Option.bind_eq_bind, Option.bind_some]
    exact key _ _

/-! ## Parsed files -/

/-- The forest of trees. -/
def Spec.Trees.forest : Trees → Forest
  | .nil => .nil
  | .leaf ty s rest => .leaf ty s.length rest.forest
  | .inner ty kids rest => .node ty kids.forest rest.forest

theorem repr_get {N : List NodeData} {p : Option Nat} {id pos : Nat} {F : Forest} (h : Repr N p id pos F) :
    ∀ k, k < F.size → N[id + k]? = (F.flatten p id pos)[k]? := by
  induction F generalizing p id pos with
  | nil => intro k hk; cases hk
  | leaf ty len rest ih =>
    intro k hk
    obtain ⟨h1, h2⟩ := h
    cases k with
    | zero => simpa [Forest.flatten] using h1
    | succ k =>
      have := ih h2 k (by simp [Forest.size] at hk; omega)
      rw [show id + (k + 1) = id + 1 + k by omega, this]
      simp [Forest.flatten]
  | node ty kids rest ih1 ih2 =>
    intro k hk
    obtain ⟨h1, h2, h3⟩ := h
    cases k with
    | zero => simpa [Forest.flatten] using h1
    | succ k =>
      simp only [Forest.flatten, List.getElem?_cons_succ]
      by_cases hlt : k < kids.size
      · rw [List.getElem?_append_left (by rw [Forest.flatten_length]; exact hlt), ← ih1 h2 k hlt]
        congr 1
        omega
      · rw [List.getElem?_append_right (by rw [Forest.flatten_length]; omega), Forest.flatten_length,
          ← ih2 h3 (k - kids.size) (by simp [Forest.size] at hk; omega)]
        congr 1
        omega

theorem repr_table {N : List NodeData} {F : Forest} (h : Repr N none 0 0 F) (hl : N.length = F.size) :
    N = F.flatten none 0 0 := by
  apply List.ext_getElem?
  intro k
  by_cases hk : k < F.size
  · simpa using repr_get h k hk
  · rw [List.getElem?_eq_none (by omega), List.getElem?_eq_none (by rw [Forest.flatten_length]; omega)]

theorem rootIds_nil {F : Forest} {id : Nat} (h : F.rootIds id = []) : F = .nil := by
  cases F with
  | nil => rfl
  | leaf | node => cases h

/-- The table of nodes is determined by the trees. -/
theorem treesAt_forest {f : File UInt8} (hf : ConsistentFile f) {F : Forest} {p : Option Nat} {id pos : Nat}
    (h : Repr f.nodes p id pos F) {T : Trees} (hT : TreesAt f (F.rootIds id) T) :
    T.forest.flatten p id pos = F.flatten p id pos ∧ T.forest.size = F.size ∧ T.forest.len = F.len ∧
      T.forest.rootIds id = F.rootIds id := by
  have hlen : ∀ {n : Nat} {d : NodeData} {s : List UInt8}, f.nodes[n]? = some d → f.textOf n = some s →
      s.length = d.range.stop - d.range.start := by
    intro n d s hd hs
    have hn : IsNode f n := isNode_of_getElem hd
    rw [textOf_eq hf hn, Option.some.injEq] at hs
    have hdat : dat f n = d := by
      have := getElem_dat hn
      rw [hd, Option.some.injEq] at this
      exact this.symm
    have hr : (rng f n).stop ≤ f.text.length := node_range_le hf hn
    rw [← hs, ← hdat, bytes, List.length_take, List.length_drop]
    simp only [rng] at hr ⊢
    omega
  induction F generalizing p id pos T with
  | nil =>
    cases hT
    exact ⟨rfl, rfl, rfl, rfl⟩
  | leaf ty len rest ih =>
    obtain ⟨h1, h2⟩ := h
    cases hT with
    | leaf g1 g2 g3 g4 =>
      have hl := hlen h1 g3
      simp only [File.ty, File.data, h1, Option.map_some, Option.some.injEq] at g1
      obtain ⟨k1, k2, k3, k4⟩ := ih h2 g4
      have : ∀ {s : List UInt8}, s.length = pos + len - pos → s.length = len := by omega
      have hl := this hl
      simp only [Trees.forest, Forest.flatten, Forest.size, Forest.len, Forest.rootIds, hl, k1, k2, k3, k4, ← g1, true_and]
    | inner g1 g2 g3 =>
      simp only [File.children, File.data, h1, Option.map_some, Option.some.injEq] at g2
      exact absurd g2.symm g3
  | node ty kids rest ih1 ih2 =>
    obtain ⟨h1, h2, h3⟩ := h
    cases hT with
    | leaf g1 g2 g3 g4 =>
      have hl := hlen h1 g3
      simp only [File.ty, File.data, h1, Option.map_some, Option.some.injEq] at g1
      simp only [File.children, File.data, h1, Option.map_some, Option.some.injEq] at g2
      cases rootIds_nil g2
      obtain ⟨k1, k2, k3, k4⟩ := ih2 h3 g4
      have : ∀ {s : List UInt8}, s.length = pos + Forest.len .nil - pos → s.length = 0 := by
        simp only [Forest.len]
        omega
      have hl := this hl
      simp only [Forest.size, Nat.add_zero, Forest.len] at k1 k4
      simp only [Trees.forest, Forest.flatten, Forest.size, Forest.len, Forest.rootIds, hl, k1, k2, k3, k4, ← g1, true_and,
        Nat.add_zero, List.nil_append]
    | inner g1 g2 g3 g4 g5 =>
      simp only [File.ty, File.data, h1, Option.map_some, Option.some.injEq] at g1
      simp only [File.children, File.data, h1, Option.map_some, Option.some.injEq] at g2
      subst g2
      obtain ⟨k1, k2, k3, k4⟩ := ih2 h3 g5
      obtain ⟨m1, m2, m3, m4⟩ := ih1 h2 g4
      simp only [Trees.forest, Forest.flatten, Forest.size, Forest.len, Forest.rootIds, k1, k2, k3, k4, m1, m2, m3, m4, ← g1,
        true_and]

theorem sub_inj (a b : Nat) (ha : 100 ≤ a) (hb : 100 ≤ b) (h : a - 100 = b - 100) : a = b := by omega

/-- The names of the types of a language with a table. -/
def tableNamesOk (names : List String) : Bool :=
  (names.map ascii).Pairwise (· ≠ ·) && names.all fun name => ascii name != ascii "ERROR" && !(ascii name).isEmpty &&
    (ascii name).all fun b => !isSpaceByte b

theorem tableInfo_some {names : List String} {white : NodeType → Bool} {t : NodeType} {i : TypeInfo}
    (h : tableInfo names white t = some i) : i.whitespaceLike = white t ∧
      ((t = 0 ∧ i.name = ascii "ERROR") ∨ (100 ≤ t ∧ (names.map ascii)[t - 100]? = some i.name)) := by
  unfold tableInfo at h
  split at h
  · rename_i h0
    cases h
    exact ⟨rfl, .inl ⟨of_decide_eq_true h0, rfl⟩⟩
  · split at h
    · cases h
    · rename_i _ h1
      obtain ⟨name, h2, rfl⟩ := Option.map_eq_some_iff.1 h
      exact ⟨rfl, .inr ⟨by simpa using h1, by simp [h2]⟩⟩

theorem tableInfo_names {names : List String} {white : NodeType → Bool} (h : tableNamesOk names = true) :
    Names (tableInfo names white) := by
  simp only [tableNamesOk, Bool.and_eq_true, decide_eq_true_eq, List.all_eq_true, bne_iff_ne, ne_eq,
    Bool.not_eq_true'] at h
  obtain ⟨h1, h2⟩ := h
  have get : ∀ {k : Nat} {s : List UInt8}, (names.map ascii)[k]? = some s → s ≠ ascii "ERROR" ∧ s ≠ [] ∧
      ∀ b ∈ s, ¬ SpaceByte b := by
    intro k s hk
    obtain ⟨name, hm, rfl⟩ := List.mem_map.1 (List.mem_of_getElem? hk)
    obtain ⟨⟨g1, g2⟩, g3⟩ := h2 name hm
    exact ⟨g1, by simpa using g2, fun b hb => by rw [← spaceByte_iff, g3 b hb]; simp⟩
  constructor
  · intro t t' i i' e e' hn
    rcases (tableInfo_some e).2 with ⟨k1, k2⟩ | ⟨k1, k2⟩ <;> rcases (tableInfo_some e').2 with ⟨m1, m2⟩ | ⟨m1, m2⟩
    · rw [k1, m1]
    · exact absurd (hn ▸ k2) (get m2).1
    · exact absurd (hn ▸ m2) (get k2).1
    · rw [hn] at k2
      have key : t - 100 = t' - 100 := by
        obtain ⟨a1, a2⟩ := List.getElem?_eq_some_iff.1 k2
        obtain ⟨b1, b2⟩ := List.getElem?_eq_some_iff.1 m2
        rw [List.pairwise_iff_getElem] at h1
        rcases Nat.lt_trichotomy (t - 100) (t' - 100) with hlt | heq | hgt
        · exact absurd (a2.trans b2.symm) (h1 _ _ a1 b1 hlt)
        · exact heq
        · exact absurd (b2.trans a2.symm) (h1 _ _ b1 a1 hgt)
      exact sub_inj t t' k1 m1 key
  · intro t i e
    rcases (tableInfo_some e).2 with ⟨k1, k2⟩ | ⟨k1, k2⟩
    · rw [k2]
      refine ⟨by decide, fun b hb => ?_⟩
      have : (ascii "ERROR").all (fun b => !isSpaceByte b) = true := by decide
      have := List.all_eq_true.1 this b hb
      rw [← spaceByte_iff]
      simpa using this
    · exact (get k2).2

/-- The names of the types of the Fall and the Rust language are fit for it. -/
theorem fall_names : Names fallInfo := tableInfo_names (by decide +kernel)

theorem rust_names : Names rustInfo := tableInfo_names (by decide +kernel)

/-- All types of a parsed file are those of the grammar and of the lexer. -/
theorem parsed_types (d : Definition) (hp : Progress d.lexer) (ty body : Nat)
    (hstart : d.rules[0]? = some (.pub ty body false)) (hb : BoundedBinder d.binder) (hs : SpacelessStrings d)
    (hl : Linked d.grammar) {n : Nat} {text : List Nat} {file : File Nat}
    {data : Definition.IncrementalData} (h : d.parse n text = .ok (file, data)) {m : NodeId} {t : NodeType}
    (ht : file.ty m = some t) : t = ERROR ∨ t ∈ d.nodeTypes ∨ ∃ s, (d.lexer s).ty = t := by
  by_cases hno : Builds d.grammar t
  · cases hno with
    | error => exact .inl rfl
    | pub _ h | pubReplaced _ _ h | pre _ _ h | op _ _ h => exact .inr (.inl (List.mem_of_getElem? h))
  · obtain ⟨r, hr⟩ : ∃ r, file.range m = some r := by
      simp only [File.ty, File.data, Option.map_eq_some_iff] at ht
      obtain ⟨x, hx, -⟩ := ht
      exact ⟨x.range, by simp [File.range, File.data, hx]⟩
    rcases C64_tokens d hp ty body hstart hb hs hl n text file data h m t r ht hr hno with h | ⟨i, w, -, h, -⟩
    · exact .inr (.inr ⟨_, by rw [h]⟩)
    · exact .inr (.inl (List.mem_of_getElem? h))

/-- What is needed of a language with lexical rules. -/
theorem parsed_known {d : Definition} {rules : List LexRule} (hlex : LexesBy rules d.lexer) (ty body : Nat)
    (hstart : d.rules[0]? = some (.pub ty body false)) (hb : BoundedBinder d.binder) (hs : SpacelessStrings d)
    (hl : Linked d.grammar) {info : NodeType → Option TypeInfo} (herr : (info 0).isSome = true)
    (hty : (d.nodeTypes.all fun t => (info t).isSome) = true) (hru : (rules.all fun r => (info r.ty).isSome) = true)
    {n : Nat} {text : List UInt8} {file : File Nat} {data : Definition.IncrementalData}
    (h : d.parse n (text.map UInt8.toNat) = .ok (file, data)) : KnownTypes info ⟨text, file.nodes⟩ := by
  intro m t ht
  apply Option.isSome_iff_exists.1
  rcases parsed_types d hlex.progress ty body hstart hb hs hl h ht with rfl | hm | ⟨s, rfl⟩
  · exact herr
  · exact List.all_eq_true.1 hty t hm
  · rcases hlex.token s with h0 | ⟨r, hm, h1, -⟩
    · rw [h0]
      exact herr
    · rw [← h1]
      exact List.all_eq_true.1 hru r hm

/-- Parsed files with the same tree are the same. -/
theorem parsed_same {d : Definition} (hp : Progress d.lexer) (ty body : Nat)
    (hstart : d.rules[0]? = some (.pub ty body false)) (hb : BoundedBinder d.binder) (hs : SpacelessStrings d)
    (hl : Linked d.grammar) {n n' : Nat} {text text' : List UInt8} {file file' : File Nat}
    {data data' : Definition.IncrementalData} (h : d.parse n (text.map UInt8.toNat) = .ok (file, data))
    (h' : d.parse n' (text'.map UInt8.toNat) = .ok (file', data'))
    (hc : ConsistentFile (⟨text, file.nodes⟩ : File UInt8)) (hc' : ConsistentFile (⟨text', file'.nodes⟩ : File UInt8))
    {T : Trees} (hT : TreesAt ⟨text, file.nodes⟩ [0] T) (hT' : TreesAt ⟨text', file'.nodes⟩ [0] T) : file = file' := by
  obtain ⟨t, kids, -, -, -, h2, h3, h4, -⟩ := parse_reading hp hstart hb hs hl h
  obtain ⟨t', kids', -, -, -, h2', h3', h4', -⟩ := parse_reading hp hstart hb hs hl h'
  have e1 := (treesAt_forest hc (F := .node t kids .nil) h2 hT).1
  have e2 := (treesAt_forest hc' (F := .node t' kids' .nil) h2' hT').1
  have hnodes : file.nodes = file'.nodes := by
    rw [repr_table h2 h3, repr_table h2' h3', ← e1, ← e2]
  have htext : file.text = file'.text := by
    have g1 := treeAt_text hc hT
    have g2 := treeAt_text hc' hT'
    simp only at g1 g2
    rw [h4, h4', ← g1, ← g2]
  cases file
  cases file'
  simp only at hnodes htext
  rw [hnodes, htext]

/-- C87. In a language with lexical rules and with names for all types, the texts of the trees of parsed files are
written without a panic. Two files have the same text of their trees exactly if they are the same: the same text and the
same nodes. -/
theorem C87_parsed (d : Definition) (rules : List LexRule) (hlex : LexesBy rules d.lexer) (ty body : Nat)
    (hstart : d.rules[0]? = some (.pub ty body false)) (hb : BoundedBinder d.binder) (hs : SpacelessStrings d)
    (hl : Linked d.grammar) (info : NodeType → Option TypeInfo) (hn : Names info) (herr : (info 0).isSome = true)
    (hty : (d.nodeTypes.all fun t => (info t).isSome) = true) (hru : (rules.all fun r => (info r.ty).isSome) = true)
    (debug : List UInt8 → List UInt8) (hq : Quotes debug) (n n' : Nat) (text text' : List UInt8) (file file' : File Nat)
    (data data' : Definition.IncrementalData) (h : d.parse n (text.map UInt8.toNat) = .ok (file, data))
    (h' : d.parse n' (text'.map UInt8.toNat) = .ok (file', data')) :
    ∃ s s', dumpFileWs info debug ⟨text, file.nodes⟩ = some s ∧
      dumpFileWs info debug ⟨text', file'.nodes⟩ = some s' ∧ (s = s' ↔ file = file') := by
  have consistent : ∀ {n : Nat} {text : List UInt8} {file : File Nat} {data : Definition.IncrementalData},
      d.parse n (text.map UInt8.toNat) = .ok (file, data) → ConsistentFile (⟨text, file.nodes⟩ : File UInt8) := by
    intro n text file data h
    obtain ⟨hc, ht, -⟩ := C31_parse_lossless d hlex.progress ty body hstart hb hs n _ file data h
    refine ⟨hc.nodes, ?_⟩
    have := hc.covers
    rw [ht, List.length_map] at this
    exact this
  have hc := consistent h
  have hc' := consistent h'
  obtain ⟨s, s', h1, h2, h3, -⟩ := C87_tree_ws info debug hn hq _ _ hc hc'
    (parsed_known hlex ty body hstart hb hs hl herr hty hru h)
    (parsed_known hlex ty body hstart hb hs hl herr hty hru h')
  refine ⟨s, s', h1, h2, ?_, ?_⟩
  · intro e
    obtain ⟨T, g1, g2⟩ := h3.1 e
    exact parsed_same hlex.progress ty body hstart hb hs hl h h' hc hc' g1 g2
  · rintro rfl
    have e : text = text' := by
      have g1 := (C31_parse_lossless d hlex.progress ty body hstart hb hs n _ file data h).2.1
      have g2 := (C31_parse_lossless d hlex.progress ty body hstart hb hs n' _ file data' h').2.1
      rw [g1] at g2
      exact (List.map_inj_right (fun a b h => UInt8.toNat_inj.1 h)).1 g2
    subst e
    rw [h1, Option.some.injEq] at h2
    exact h2

/-- C87 for Fall. -/
theorem C87_fall {lexer : Lexer Nat} (hlex : LexesBy fallLexRules lexer) (debug : List UInt8 → List UInt8)
    (hq : Quotes debug) (n n' : Nat) (text text' : List UInt8) (file file' : File Nat)
    (data data' : Definition.IncrementalData)
    (h : (fallDefinition lexer).parse n (text.map UInt8.toNat) = .ok (file, data))
    (h' : (fallDefinition lexer).parse n' (text'.map UInt8.toNat) = .ok (file', data')) :
    ∃ s s', dumpFileWs fallInfo debug ⟨text, file.nodes⟩ = some s ∧
      dumpFileWs fallInfo debug ⟨text', file'.nodes⟩ = some s' ∧ (s = s' ↔ file = file') :=
  C87_parsed (fallDefinition lexer) fallLexRules hlex 32 37 rfl (fun _ _ _ => Nat.zero_le _)
    (spaceless_of_visible (show visible fallGrammar.rules = true by decide +kernel)
      (hlex.blankStart (isWs := fallIsWs) (by decide +kernel))) Check.fall_safe.2 fallInfo fall_names (by decide +kernel)
    (show (fallTypes.all fun t => (fallInfo t).isSome) = true by decide +kernel) (by decide +kernel) debug hq n n' text
    text' file file' data data' h h'

/-- C87 for Rust. -/
theorem C87_rust {lexer : Lexer Nat} (hlex : LexesBy rustLexRules lexer) (debug : List UInt8 → List UInt8)
    (hq : Quotes debug) (n n' : Nat) (text text' : List UInt8) (file file' : File Nat)
    (data data' : Definition.IncrementalData)
    (h : (rustDefinition lexer).parse n (text.map UInt8.toNat) = .ok (file, data))
    (h' : (rustDefinition lexer).parse n' (text'.map UInt8.toNat) = .ok (file', data')) :
    ∃ s s', dumpFileWs rustInfo debug ⟨text, file.nodes⟩ = some s ∧
      dumpFileWs rustInfo debug ⟨text', file'.nodes⟩ = some s' ∧ (s = s' ↔ file = file') :=
  C87_parsed (rustDefinition lexer) rustLexRules hlex 93 158 rfl rustBinder_bounded
    (spaceless_of_visible (show visible rustGrammar.rules = true by decide +kernel)
      (hlex.blankStart (isWs := rustIsWs) (by decide +kernel))) Check.rust_safe.2 rustInfo rust_names (by decide +kernel)
    (show (rustTypes.all fun t => (rustInfo t).isSome) = true by decide +kernel) (by decide +kernel) debug hq n n' text
    text' file file' data data' h h'

/-! Examples. -/

/-- A way of writing strings like that of Rust for ASCII: other bytes are written with two digits for their value. -/
def hexDigit (n : UInt8) : UInt8 := if n < 10 then 48 + n else 87 + n

/-- How one byte is written. -/
def quoteByte (b : UInt8) : List UInt8 :=
  if b = 34 then [92, 34] else if b = 92 then [92, 92] else if b = 10 then [92, 110]
  else if b = 9 then [92, 116] else if b = 13 then [92, 114]
  else if 32 ≤ b ∧ b < 127 then [b] else [92, 120, hexDigit (b / 16), hexDigit (b % 16)]

/-- How a string is written. -/
def quoteText (s : List UInt8) : List UInt8 := 34 :: (s.flatMap quoteByte ++ [34])

/-- What is written for a byte is read again. -/
def unquote : List UInt8 → UInt8
  | [b] => b
  | [_, b] => if b = 110 then 10 else if b = 116 then 9 else if b = 114 then 13 else b
  | [_, _, x, y] => (if x < 58 then x - 48 else x - 87) * 16 + (if y < 58 then y - 48 else y - 87)
  | _ => 0

theorem quoteByte_ok (b : UInt8) : unquote (quoteByte b) = b ∧ 10 ∉ quoteByte b ∧
    (quoteByte b = [b] ∧ b ≠ 92 ∧ b ≠ 34 ∨ (∃ c, quoteByte b = [92, c] ∧ c ≠ 120) ∨
      ∃ x y, quoteByte b = [92, 120, x, y]) := by
  have key : ∀ n < 256, (fun b : UInt8 => unquote (quoteByte b) = b ∧ 10 ∉ quoteByte b ∧
      (quoteByte b = [b] ∧ b ≠ 92 ∧ b ≠ 34 ∨ ((quoteByte b).length = 2 ∧ (quoteByte b)[0]? = some 92 ∧
        (quoteByte b)[1]? ≠ some 120) ∨
      ((quoteByte b).length = 4 ∧ (quoteByte b)[0]? = some 92 ∧ (quoteByte b)[1]? = some 120))) (UInt8.ofNat n) := by
    decide +kernel
  have := key b.toNat b.toNat_lt
  simp only [UInt8.ofNat_toNat] at this
  obtain ⟨h1, h2, h3⟩ := this
  refine ⟨h1, h2, ?_⟩
  rcases h3 with h | ⟨h, h', h''⟩ | ⟨h, h', h''⟩
  · exact .inl h
  · right; left
    match hq : quoteByte b, h with
    | [x, y], _ =>
      rw [hq] at h' h''
      simp at h' h''
      exact ⟨y, by rw [h'], h''⟩
  · right; right
    match hq : quoteByte b, h with
    | [x, y, z, w], _ =>
      rw [hq] at h' h''
      simp at h' h''
      exact ⟨z, w, by rw [h', h'']⟩

theorem quoteByte_prefix {a b : UInt8} {s t : List UInt8} (h : quoteByte a ++ s = quoteByte b ++ t) : a = b ∧ s = t := by
  obtain ⟨a1, -, a3⟩ := quoteByte_ok a
  obtain ⟨b1, -, b3⟩ := quoteByte_ok b
  have : quoteByte a = quoteByte b := by
    rcases a3 with ⟨e, n1, n2⟩ | ⟨c, e, n⟩ | ⟨x, y, e⟩ <;> rcases b3 with ⟨e', n1', n2'⟩ | ⟨c', e', n'⟩ | ⟨x', y', e'⟩ <;>
      rw [e, e'] at h <;> simp at h <;> simp [e, e'] <;> grind
  refine ⟨by rw [← a1, ← b1, this], ?_⟩
  rw [this] at h
  exact List.append_cancel_left h

theorem quoteByte_end {a : UInt8} {s : List UInt8} : [34] ≠ quoteByte a ++ s := by
  obtain ⟨-, -, a3⟩ := quoteByte_ok a
  rcases a3 with ⟨e, n1, n2⟩ | ⟨c, e, n⟩ | ⟨x, y, e⟩ <;> rw [e] <;> simp
  intro h
  exact absurd h.symm n2

theorem quoteText_quotes : Quotes quoteText := by
  refine ⟨?_, ?_, ?_⟩
  · intro s
    induction s with
    | nil =>
      intro t h
      cases t with
      | nil => rfl
      | cons b t =>
        simp only [quoteText, List.flatMap_nil, List.nil_append, List.cons.injEq, true_and, List.flatMap_cons,
          List.append_assoc] at h
        exact absurd h quoteByte_end
    | cons a s ih =>
      intro t h
      cases t with
      | nil =>
        simp only [quoteText, List.flatMap_nil, List.nil_append, List.cons.injEq, true_and, List.flatMap_cons,
          List.append_assoc] at h
        exact absurd h.symm quoteByte_end
      | cons b t =>
        simp only [quoteText, List.cons.injEq, true_and, List.flatMap_cons, List.append_assoc] at h
        obtain ⟨rfl, h2⟩ := quoteByte_prefix h
        rw [ih t (by simp only [quoteText, h2])]
  · intro s
    simp only [quoteText, List.mem_cons, List.mem_append, List.mem_flatMap]
    rintro (h | ⟨b, -, h⟩ | h | h)
    · cases h
    · exact (quoteByte_ok b).2.1 h
    · cases h
    · cases h
  · intro s
    rw [quoteText, ← List.cons_append, List.getLast?_concat]

/-- The text of a tree, with and without white space. -/
example : inRust (ascii "struct S ;\n") (dumpFile rustInfo quoteText) = some (ascii
      "FILE\n  STRUCT_DEF\n    STRUCT \"struct\"\n    IDENT \"S\"\n    SEMI \";\"\n") ∧
    inRust (ascii "struct S ;\n") (dumpFileWs rustInfo quoteText) = some (ascii
      "FILE\n  STRUCT_DEF\n    STRUCT \"struct\"\n    WHITESPACE \" \"\n    IDENT \"S\"\n    WHITESPACE \" \"\n    SEMI \";\"\n  WHITESPACE \"\\n\"\n") := by
  decide +kernel

/-- A test with an expected tree that is written with other white space around it passes; one with another tree does
not. -/
example : inRust (ascii "struct S;") (checkSyntax rustInfo quoteText · (ascii
      "\n  FILE\n  STRUCT_DEF\n    STRUCT \"struct\"\n    IDENT \"S\"\n    SEMI \";\"")) = some () ∧
    inRust (ascii "struct S;") (checkSyntax rustInfo quoteText · (ascii
      "FILE\n  STRUCT_DEF\n    STRUCT \"struct\"\n    IDENT \"T\"\n    SEMI \";\"")) = none := by decide +kernel

/-- C87. Without white space the text of a tree does not determine the text of a file: comments are not in it, and two
tokens may be separated or not. A test of the tree passes for all of these. -/
theorem C87_hidden_counterexample :
    inRust (ascii "struct S;") (dumpFile rustInfo quoteText) =
      inRust (ascii "struct S; // a") (dumpFile rustInfo quoteText) ∧
    inRust (ascii "struct S; // a") (dumpFile rustInfo quoteText) =
      inRust (ascii "struct S ;") (dumpFile rustInfo quoteText) ∧
    (inRust (ascii "struct S;") (dumpFile rustInfo quoteText)).isSome = true := by decide +kernel

end Fall
