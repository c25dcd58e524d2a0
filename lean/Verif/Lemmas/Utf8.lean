import Verif.Spec.Utf8
import Verif.Spec.Convert
import Verif.Spec.Lex
import Verif.Lemmas.TreeBuild
import Verif.Lemmas.Text

/-!
Places between characters.
-/

namespace Fall

open Spec

theorem Spec.Utf8.nil : Utf8 [] := ⟨[], rfl⟩

theorem Spec.Utf8.append {a b : List UInt8} (ha : Utf8 a) (hb : Utf8 b) : Utf8 (a ++ b) := by
  obtain ⟨x, rfl⟩ := ha
  obtain ⟨y, rfl⟩ := hb
  exact ⟨x ++ y, by simp⟩

theorem Spec.Utf8.flatten {l : List (List UInt8)} (h : ∀ s, s ∈ l → Utf8 s) : Utf8 l.flatten := by
  induction l with
  | nil => exact .nil
  | cons s l ih =>
    rw [List.flatten_cons]
    exact (h s (by simp)).append (ih fun s hs => h s (by simp [hs]))

theorem Spec.Between.zero {s : List UInt8} (h : Utf8 s) : Between s 0 := ⟨[], s, .nil, h, rfl, rfl⟩

theorem Spec.Between.all {s : List UInt8} (h : Utf8 s) : Between s s.length := ⟨s, [], h, .nil, by simp, rfl⟩

theorem Spec.Between.utf8 {s : List UInt8} {k : Nat} (h : Between s k) : Utf8 s := by
  obtain ⟨a, b, ha, hb, rfl, -⟩ := h
  exact ha.append hb

theorem Spec.Between.le {s : List UInt8} {k : Nat} (h : Between s k) : k ≤ s.length := by
  obtain ⟨a, b, ha, hb, rfl, rfl⟩ := h
  simp

theorem Spec.Between.shift {a b : List UInt8} {k : Nat} (ha : Utf8 a) (h : Between b k) :
    Between (a ++ b) (a.length + k) := by
  obtain ⟨x, y, hx, hy, rfl, rfl⟩ := h
  exact ⟨a ++ x, y, ha.append hx, hy, by simp, by simp⟩

/-- The first byte of a character can begin one, the others cannot. -/
theorem encode_bytes (c : Char) : ∃ b bs, String.utf8EncodeChar c = b :: bs ∧ (b.toNat < 128 ∨ 192 ≤ b.toNat) ∧
    ∀ x, x ∈ bs → 128 ≤ x.toNat ∧ x.toNat < 192 := by
  unfold String.utf8EncodeChar
  simp only
  split
  · exact ⟨_, _, rfl, .inl (by rw [UInt8.toNat_ofNat']; omega), by simp⟩
  · split
    · refine ⟨_, _, rfl, .inr ?_, ?_⟩
      · rw [UInt8.toNat_ofNat']; omega
      · simp only [List.mem_cons, List.not_mem_nil, or_false, forall_eq]
        rw [UInt8.toNat_ofNat']; omega
    · split
      · refine ⟨_, _, rfl, .inr ?_, ?_⟩
        · rw [UInt8.toNat_ofNat']; omega
        · simp only [List.mem_cons, List.not_mem_nil, or_false, forall_eq_or_imp, forall_eq]
          simp only [UInt8.toNat_ofNat']
          omega
      · refine ⟨_, _, rfl, .inr ?_, ?_⟩
        · rw [UInt8.toNat_ofNat']; omega
        · simp only [List.mem_cons, List.not_mem_nil, or_false, forall_eq_or_imp, forall_eq]
          simp only [UInt8.toNat_ofNat']
          omega

/-- A string that is not empty begins with a byte that can begin a character. -/
theorem Spec.Utf8.first {b : UInt8} {bs : List UInt8} (h : Utf8 (b :: bs)) : b.toNat < 128 ∨ 192 ≤ b.toNat := by
  obtain ⟨cs, h⟩ := h
  cases cs with
  | nil => cases h
  | cons c cs =>
    obtain ⟨x, xs, e, hx, -⟩ := encode_bytes c
    rw [List.flatMap_cons, e] at h
    simp only [List.cons_append, List.cons.injEq] at h
    rw [h.1]
    exact hx

/-- The places between characters are those that Rust takes for boundaries. -/
theorem between_iff {s : List UInt8} (hs : Utf8 s) (k : Nat) :
    Between s k ↔ k = s.length ∨ ∃ b, s[k]? = some b ∧ (b.toNat < 128 ∨ 192 ≤ b.toNat) := by
  constructor
  · rintro ⟨a, b, ha, hb, rfl, rfl⟩
    cases b with
    | nil => simp
    | cons x xs => exact .inr ⟨x, by simp, hb.first⟩
  · rintro (rfl | ⟨b, hb, hk⟩)
    · exact .all hs
    · obtain ⟨cs, rfl⟩ := hs
      induction cs generalizing k with
      | nil => simp at hb
      | cons c cs ih =>
        have hc : Utf8 (String.utf8EncodeChar c) := ⟨[c], by simp⟩
        rw [List.flatMap_cons] at hb ⊢
        by_cases hlt : k < (String.utf8EncodeChar c).length
        · rw [List.getElem?_append_left hlt] at hb
          obtain ⟨x, xs, e, -, hx⟩ := encode_bytes c
          rw [e] at hb
          cases k with
          | zero => exact .zero (hc.append ⟨cs, rfl⟩)
          | succ k =>
            have := hx b (List.mem_of_getElem? (by simpa using hb))
            omega
        · rw [List.getElem?_append_right (Nat.le_of_not_lt hlt)] at hb
          have := (ih _ hb).shift hc
          rwa [Nat.add_sub_cancel' (Nat.le_of_not_lt hlt)] at this

/-- What is between two places is a string. -/
theorem Spec.Between.bytes {s : List UInt8} {i j : Nat} (hi : Between s i) (hj : Between s j) (h : i ≤ j) :
    Utf8 (bytes s i j) := by
  obtain ⟨a, b, ha, hb, rfl, rfl⟩ := hi
  have hs := ha.append hb
  have h1 := (between_iff hs j).1 hj
  have h2 : Between b (j - a.length) := by
    rw [between_iff hb]
    rcases h1 with h1 | ⟨x, hx, h1⟩
    · left
      simp at h1
      omega
    · right
      rw [List.getElem?_append_right h] at hx
      exact ⟨x, hx, h1⟩
  obtain ⟨c, d, hc, -, rfl, e⟩ := h2
  have : Spec.bytes (a ++ (c ++ d)) a.length j = c := by
    unfold Spec.bytes
    rw [List.drop_append_of_le_length (by simp), e]
    simp
  rwa [this]

/-- The ends of tokens are between characters. -/
theorem lexing_between {lexer : Lexer Nat} (hl : CharLexer lexer) {s : List UInt8} (hs : Utf8 s) {ts : List Token}
    (h : IsLexing lexer (s.map UInt8.toNat) ts) (i : Nat) : Between s ((ts.take i).map (·.len)).sum := by
  induction ts generalizing s i with
  | nil => simpa using Between.zero hs
  | cons t ts ih =>
    cases i with
    | zero => simpa using Between.zero hs
    | succ i =>
      obtain ⟨h1, h2, h3, h4⟩ := h
      have hne : s ≠ [] := by
        rintro rfl
        simp at h3
        omega
      have := hl s hs hne
      rw [h1] at this
      obtain ⟨a, b, ha, hb, rfl, e⟩ := this
      rw [e, ← List.map_drop, List.drop_left] at h4
      have := (ih hb h4 i).shift ha
      simpa [e] using this

/-- Events are placed at the ends of tokens. -/
theorem places_ends {isWs : NodeType → Bool} {es : List Event} {ts : List Token} {ops : List BuilderOp}
    (h : Places isWs es ts ops) {P : Nat → Prop} {pos : Nat} (hP : ∀ i, P (pos + ((ts.take i).map (·.len)).sum))
    {pre suf : List BuilderOp} (e : ops = pre ++ suf) : P (pos + leafLen pre) := by
  induction h generalizing pos pre with
  | nil =>
    have : pre = [] := by cases pre <;> simp_all
    subst this
    simpa [leafLen] using hP 0
  | @space _ _ _ t _ _ ih =>
    cases pre with
    | nil => simpa [leafLen] using hP 0
    | cons x pre =>
      simp only [List.cons_append, List.cons.injEq] at e
      obtain ⟨rfl, e⟩ := e
      have := ih (pos := pos + t.len) (fun i => by simpa [Nat.add_assoc] using hP (i + 1)) e
      simpa [leafLen, Nat.add_assoc] using this
  | start _ ih | fin _ ih =>
    cases pre with
    | nil => simpa [leafLen] using hP 0
    | cons x pre =>
      simp only [List.cons_append, List.cons.injEq] at e
      obtain ⟨rfl, e⟩ := e
      simpa [leafLen] using ih hP e
  | @token _ raw _ _ _ _ _ _ _ ih =>
    cases pre with
    | nil => simpa [leafLen] using hP 0
    | cons x pre =>
      simp only [List.cons_append, List.cons.injEq] at e
      obtain ⟨rfl, e⟩ := e
      have := ih (pos := pos + (raw.map (·.len)).sum) (fun i => by
        simpa [List.take_append, List.take_of_length_le, Nat.add_assoc] using hP (raw.length + i)) e
      simpa [leafLen, Nat.add_assoc] using this
  | cached _ ih => exact ih hP e

/-- Nodes begin and end where events were placed. -/
theorem repr_ends {N : List NodeData} {p : Option Nat} {id pos : Nat} {f : Forest} (h : Repr N p id pos f)
    {P : Nat → Prop} (hP : ∀ pre suf, f.ops = pre ++ suf → P (pos + leafLen pre)) {n : Nat} {d : NodeData}
    (h1 : id ≤ n) (h2 : n < id + f.size) (hd : N[n]? = some d) : P d.range.start ∧ P d.range.stop := by
  induction f generalizing p id pos with
  | nil => simp [Forest.size] at h2; omega
  | leaf ty len rest ih =>
    obtain ⟨h3, h4⟩ := h
    by_cases he : n = id
    · subst he
      rw [h3, Option.some.injEq] at hd
      subst hd
      refine ⟨by simpa [leafLen] using hP [] _ rfl, ?_⟩
      simpa [leafLen] using hP [.leaf ty len] rest.ops rfl
    · refine ih h4 (fun pre suf e => ?_) (by omega) (by simp [Forest.size] at h2; omega)
      have := hP (.leaf ty len :: pre) suf (by simp [Forest.ops, e])
      simpa [leafLen, Nat.add_assoc] using this
  | node ty kids rest ih1 ih2 =>
    obtain ⟨h3, h4, h5⟩ := h
    have k1 : ∀ pre suf, kids.ops = pre ++ suf → P (pos + leafLen pre) := fun pre suf e => by
      have := hP (.start ty :: pre) (suf ++ .finish :: rest.ops) (by simp [Forest.ops, e])
      simpa [leafLen] using this
    by_cases he : n = id
    · subst he
      rw [h3, Option.some.injEq] at hd
      subst hd
      refine ⟨by simpa [leafLen] using hP [] _ rfl, ?_⟩
      have := k1 kids.ops [] (by simp)
      rwa [Forest.leafLen_ops] at this
    · by_cases hk : n < id + 1 + kids.size
      · exact ih1 h4 k1 (by omega) (by omega)
      · refine ih2 h5 (fun pre suf e => ?_) (by omega) (by simp [Forest.size] at h2; omega)
        have := hP (.start ty :: (kids.ops ++ .finish :: pre)) suf (by simp [Forest.ops, e])
        simpa [leafLen, leafLen_append, Forest.leafLen_ops, Nat.add_assoc] using this

/-! ## Edits -/

/-- What the builder has copied begins and ends at places of `P`, and so does what comes next. -/
def TextEditBuilder.Ends (P : Nat → Prop) (b : TextEditBuilder α) : Prop :=
  P b.lastOffset ∧ P b.textLen ∧ ∀ r, .copy r ∈ b.segments → P r.start ∧ P r.stop

namespace TextEditBuilder.Ends

variable {P : Nat → Prop} {b b' : TextEditBuilder α}

theorem advanceTo {k : Nat} (h : b.Ends P) (hk : P k) (e : b.advanceTo k = some b') : b'.Ends P ∧ b'.lastOffset = k := by
  unfold TextEditBuilder.advanceTo at e
  split at e
  · rename_i hlt
    rw [Nat.compare_eq_lt] at hlt
    simp only [copyLen, Option.map_eq_some_iff] at e
    obtain ⟨r, hr, rfl⟩ := e
    have hr : r = ⟨b.lastOffset, k⟩ := by
      simp only [TextRange.fromLen, TextRange.fromTo] at hr
      grind
    subst hr
    refine ⟨⟨?_, h.2.1, ?_⟩, ?_⟩
    · simp only; rwa [Nat.add_sub_cancel' (by omega)]
    · intro r hr
      simp only [List.mem_append, List.mem_singleton, TextEditOp.copy.injEq] at hr
      rcases hr with hr | rfl
      · exact h.2.2 r hr
      · exact ⟨h.1, hk⟩
    · simp only; omega
  · rename_i heq
    rw [Nat.compare_eq_eq] at heq
    cases e
    exact ⟨h, heq⟩
  · cases e

theorem insert {k : Nat} {s : List α} (h : b.Ends P) (hk : P k) (e : b.insert k s = some b') : b'.Ends P := by
  simp only [TextEditBuilder.insert, Option.map_eq_some_iff] at e
  obtain ⟨c, hc, rfl⟩ := e
  obtain ⟨h1, -⟩ := h.advanceTo hk hc
  exact ⟨h1.1, h1.2.1, fun r hr => h1.2.2 r (by simpa [insert_] using hr)⟩

theorem delete {r : TextRange} (h : b.Ends P) (h1 : P r.start) (h2 : P r.stop) (e : b.delete r = some b') :
    b'.Ends P := by
  simp only [TextEditBuilder.delete, Option.bind_eq_some_iff] at e
  obtain ⟨c, hc, e⟩ := e
  obtain ⟨h3, h4⟩ := h.advanceTo h1 hc
  split at e
  · cases e
    refine ⟨?_, h3.2.1, h3.2.2⟩
    simp only [deleteLen, h4, TextRange.len]
    rwa [Nat.add_sub_cancel' (by assumption)]
  · cases e

theorem replace {r : TextRange} {s : List α} (h : b.Ends P) (h1 : P r.start) (h2 : P r.stop)
    (e : b.replace r s = some b') : b'.Ends P := by
  simp only [TextEditBuilder.replace, Option.bind_eq_some_iff] at e
  obtain ⟨c, hc, e⟩ := e
  obtain ⟨h3, h4⟩ := h.advanceTo h1 hc
  split at e
  · cases e
    refine ⟨?_, h3.2.1, fun r hr => h3.2.2 r (by simpa [insert_, deleteLen] using hr)⟩
    simp only [deleteLen, insert_, h4, TextRange.len]
    rwa [Nat.add_sub_cancel' (by assumption)]
  · cases e

end TextEditBuilder.Ends

/-- The copies of a session of the builder begin and end at the places of the requests, or at the ends of the text. -/
theorem editForNode_ends {f : File α} {e : FileEdit α} {P : Nat → Prop}
    (hP : ∀ n r, f.range n = some r → P r.start ∧ P r.stop) {fuel : Nat} {b b' : TextEditBuilder α} {n : NodeId}
    (hb : b.Ends P) (h : e.textEditForNode f fuel b n = some b') : b'.Ends P := by
  induction fuel generalizing b b' n with
  | zero => cases h
  | succ fuel ih =>
    simp only [FileEdit.textEditForNode, Option.bind_eq_bind, Option.bind_eq_some_iff] at h
    obtain ⟨d, hd, h⟩ := h
    obtain ⟨h1, h2⟩ := hP n d.range (by simp [File.range, hd])
    split at h
    · exact hb.delete h1 h2 h
    · split at h
      · exact hb.replace h1 h2 h
      · obtain ⟨c, hc, h⟩ := Option.bind_eq_some_iff.1 h
        have hfold : ∀ (l : List NodeId) (b c : TextEditBuilder α), b.Ends P →
            l.foldlM (e.textEditForNode f fuel) b = some c → c.Ends P := by
          intro l
          induction l with
          | nil => intro b c hb h; cases h; exact hb
          | cons x l ihl =>
            intro b c hb h
            rw [List.foldlM_cons, Option.bind_eq_bind, Option.bind_eq_some_iff] at h
            obtain ⟨y, hy, h⟩ := h
            exact ihl y c (ih hb hy) h
        have hc := hfold _ _ _ hb hc
        split at h
        · exact hc.insert h2 h
        · cases h; exact hc

theorem intoTextEdit_ends {f : File α} {e : FileEdit α} {P : Nat → Prop} (h0 : P 0) (hlen : P f.text.length)
    (hP : ∀ n r, f.range n = some r → P r.start ∧ P r.stop) {edit : TextEdit α} (h : e.intoTextEdit f = some edit)
    (r : TextRange) (hr : .copy r ∈ edit.ops) : P r.start ∧ P r.stop := by
  simp only [FileEdit.intoTextEdit, Option.bind_eq_bind, Option.bind_eq_some_iff] at h
  obtain ⟨b, hb, x, hx, r0, hr0, h⟩ := h
  cases h
  have hb := editForNode_ends hP ⟨h0, by simpa [TextEditBuilder.new, Text.ofBuf, Text.len, TextRange.len] using hlen, by simp [TextEditBuilder.new]⟩ hb
  simp only [TextEditBuilder.build, Option.map_eq_some_iff] at hx
  obtain ⟨c, hc, rfl⟩ := hx
  obtain ⟨h1, -⟩ := hb.advanceTo hb.2.1 hc
  have hr : .copy r ∈ c.segments ∨ r = r0 := by simpa using hr
  rcases hr with hr | rfl
  · exact h1.2.2 r hr
  · have : r = ⟨f.text.length, f.text.length⟩ := by
      simp only [TextRange.fromLen, TextRange.fromTo] at hr0
      grind
    subst this
    exact ⟨hlen, hlen⟩

/-- The texts that the builder has inserted satisfy `Q`. -/
def TextEditBuilder.Inserts (Q : List α → Prop) (b : TextEditBuilder α) : Prop := ∀ s, .insert s ∈ b.segments → Q s

namespace TextEditBuilder.Inserts

variable {Q : List α → Prop} {b b' : TextEditBuilder α}

theorem advanceTo {k : Nat} (h : b.Inserts Q) (e : b.advanceTo k = some b') : b'.Inserts Q := by
  unfold TextEditBuilder.advanceTo at e
  split at e
  · simp only [copyLen, Option.map_eq_some_iff] at e
    obtain ⟨r, -, rfl⟩ := e
    intro s hs
    exact h s (by simpa using hs)
  · cases e; exact h
  · cases e

theorem insert {k : Nat} {s : List α} (h : b.Inserts Q) (hs : Q s) (e : b.insert k s = some b') : b'.Inserts Q := by
  simp only [TextEditBuilder.insert, Option.map_eq_some_iff] at e
  obtain ⟨c, hc, rfl⟩ := e
  intro t ht
  have ht : .insert t ∈ c.segments ∨ t = s := by simpa [insert_] using ht
  rcases ht with ht | rfl
  · exact h.advanceTo hc t ht
  · exact hs

theorem delete {r : TextRange} (h : b.Inserts Q) (e : b.delete r = some b') : b'.Inserts Q := by
  simp only [TextEditBuilder.delete, Option.bind_eq_some_iff] at e
  obtain ⟨c, hc, e⟩ := e
  split at e
  · cases e
    intro t ht
    exact h.advanceTo hc t (by simpa [deleteLen] using ht)
  · cases e

theorem replace {r : TextRange} {s : List α} (h : b.Inserts Q) (hs : Q s) (e : b.replace r s = some b') :
    b'.Inserts Q := by
  simp only [TextEditBuilder.replace, Option.bind_eq_some_iff] at e
  obtain ⟨c, hc, e⟩ := e
  split at e
  · cases e
    intro t ht
    have ht : .insert t ∈ c.segments ∨ t = s := by simpa [insert_, deleteLen] using ht
    rcases ht with ht | rfl
    · exact h.advanceTo hc t ht
    · exact hs
  · cases e

end TextEditBuilder.Inserts

theorem editForNode_inserts {f : File α} {e : FileEdit α} {Q : List α → Prop}
    (h1 : ∀ n s, (n, s) ∈ e.replaced → Q s) (h2 : ∀ n s, (n, s) ∈ e.inserted → Q s) {fuel : Nat}
    {b b' : TextEditBuilder α} {n : NodeId} (hb : b.Inserts Q) (h : e.textEditForNode f fuel b n = some b') :
    b'.Inserts Q := by
  induction fuel generalizing b b' n with
  | zero => cases h
  | succ fuel ih =>
    simp only [FileEdit.textEditForNode, Option.bind_eq_bind, Option.bind_eq_some_iff] at h
    obtain ⟨d, hd, h⟩ := h
    split at h
    · exact hb.delete h
    · split at h
      · rename_i r hr
        exact hb.replace (h1 r.1 r.2 (List.mem_of_find?_eq_some hr)) h
      · obtain ⟨c, hc, h⟩ := Option.bind_eq_some_iff.1 h
        have hfold : ∀ (l : List NodeId) (b c : TextEditBuilder α), b.Inserts Q →
            l.foldlM (e.textEditForNode f fuel) b = some c → c.Inserts Q := by
          intro l
          induction l with
          | nil => intro b c hb h; cases h; exact hb
          | cons x l ihl =>
            intro b c hb h
            rw [List.foldlM_cons, Option.bind_eq_bind, Option.bind_eq_some_iff] at h
            obtain ⟨y, hy, h⟩ := h
            exact ihl y c (ih hb hy) h
        have hc := hfold _ _ _ hb hc
        split at h
        · rename_i r hr
          exact hc.insert (h2 r.1 r.2 (List.mem_of_find?_eq_some hr)) h
        · cases h; exact hc

theorem intoTextEdit_inserts {f : File α} {e : FileEdit α} {Q : List α → Prop}
    (h1 : ∀ n s, (n, s) ∈ e.replaced → Q s) (h2 : ∀ n s, (n, s) ∈ e.inserted → Q s) {edit : TextEdit α}
    (h : e.intoTextEdit f = some edit) (s : List α) (hs : .insert s ∈ edit.ops) : Q s := by
  simp only [FileEdit.intoTextEdit, Option.bind_eq_bind, Option.bind_eq_some_iff] at h
  obtain ⟨b, hb, x, hx, r0, hr0, h⟩ := h
  cases h
  have hb := editForNode_inserts h1 h2 (b := TextEditBuilder.new (Text.ofBuf f.text))
    (by intro s hs; simp [TextEditBuilder.new] at hs) hb
  simp only [TextEditBuilder.build, Option.map_eq_some_iff] at hx
  obtain ⟨c, hc, rfl⟩ := hx
  exact hb.advanceTo hc s (by simpa using hs)

end Fall
