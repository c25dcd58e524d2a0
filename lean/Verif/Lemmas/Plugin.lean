import Verif.Spec.Plugin
import Verif.Spec.Incremental
import Verif.Props.Text
import Verif.Props.Tree

/-! Lemmas about positions, edits of the editor and the files that the plugin keeps. -/

namespace Fall
open Spec

/-! ## Positions -/

/-- The step of `positionAfter`. -/
def stepPosition (p : Position) (c : Nat) : Position :=
  if c = 10 then ⟨p.line + 1, 0⟩ else ⟨p.line, p.character + utf16Len c⟩

theorem positionAfter_eq (text : List Nat) : positionAfter text = text.foldl stepPosition ⟨0, 0⟩ := rfl

theorem utf16Len_pos (c : Nat) : 0 < utf16Len c := by
  unfold utf16Len
  split <;> decide

theorem units_cons (c : Nat) (text : List Nat) : units (c :: text) = utf16Len c + units text := by simp [units]

theorem units_append (a b : List Nat) : units (a ++ b) = units a + units b := by simp [units]

theorem offsetAt_line {a : List Nat} (h : 10 ∉ a) (b : List Nat) : offsetAt (a ++ b) ⟨0, units a⟩ = units a := by
  induction a with
  | nil =>
    cases b with
    | nil => rfl
    | cons c b => simp [offsetAt, units]
  | cons c a ih =>
    simp only [List.mem_cons, not_or] at h
    have := utf16Len_pos c
    rw [units_cons, List.cons_append, offsetAt, if_neg (by omega), Nat.add_sub_cancel_left, ih h.2]

theorem offsetAt_fold (a : List Nat) : ∀ (l k : Nat) (q : Position), a.foldl stepPosition ⟨l, k⟩ = q →
    l ≤ q.line ∧ (q.line = l → 10 ∉ a ∧ q.character = k + units a) ∧
      (l < q.line → ∀ b, offsetAt (a ++ b) ⟨q.line - l, q.character⟩ = units a) := by
  induction a with
  | nil =>
    rintro l k q rfl
    exact ⟨Nat.le_refl _, fun _ => ⟨by simp, by simp [units]⟩, fun h => absurd h (Nat.lt_irrefl _)⟩
  | cons c a ih =>
    intro l k q h
    rw [List.foldl_cons] at h
    by_cases hc : c = 10
    · subst hc
      obtain ⟨h1, h2, h3⟩ := ih (l + 1) 0 q h
      refine ⟨by omega, fun he => by omega, fun hl b => ?_⟩
      obtain ⟨m, hm⟩ : ∃ m, q.line - l = m + 1 := ⟨q.line - (l + 1), by omega⟩
      rw [hm, List.cons_append, offsetAt, if_pos rfl, units_cons]
      by_cases he : q.line = l + 1
      · obtain ⟨h4, h5⟩ := h2 he
        have : m = 0 := by omega
        rw [this, h5, Nat.zero_add, offsetAt_line h4]
      · have := h3 (by omega) b
        rw [show q.line - (l + 1) = m by omega] at this
        rw [this]
    · rw [stepPosition, if_neg hc] at h
      obtain ⟨h1, h2, h3⟩ := ih l (k + utf16Len c) q h
      refine ⟨h1, fun he => ?_, fun hl b => ?_⟩
      · obtain ⟨h4, h5⟩ := h2 he
        refine ⟨?_, by rw [h5, units_cons]; omega⟩
        rw [List.mem_cons, not_or]
        exact ⟨fun h => hc h.symm, h4⟩
      · obtain ⟨m, hm⟩ : ∃ m, q.line - l = m + 1 := ⟨q.line - l - 1, by omega⟩
        have := h3 hl b
        rw [hm] at this
        rw [hm, List.cons_append, offsetAt, if_neg hc, units_cons, this]

/-- The offset of a position is the same in all documents with the same text before. -/
theorem offsetAt_after (a b : List Nat) : offsetAt (a ++ b) (positionAfter a) = units a := by
  obtain ⟨h1, h2, h3⟩ := offsetAt_fold a 0 0 _ rfl
  rw [← positionAfter_eq] at h1 h2 h3
  by_cases h : (positionAfter a).line = 0
  · obtain ⟨h4, h5⟩ := h2 h
    have : positionAfter a = ⟨0, units a⟩ := by
      cases hp : positionAfter a with
      | mk l c =>
        rw [hp] at h h5
        simp only [Nat.zero_add] at h h5
        rw [h, h5]
    rw [this, offsetAt_line h4]
  · have := h3 (by omega) b
    rwa [Nat.sub_zero] at this

theorem positionFrom_units (a b : List Nat) : ∀ p, positionFrom (a ++ b) (units a) p = a.foldl stepPosition p := by
  induction a with
  | nil =>
    intro p
    cases b with
    | nil => rfl
    | cons c b => simp [positionFrom, units]
  | cons c a ih =>
    intro p
    have := utf16Len_pos c
    rw [units_cons, List.cons_append, positionFrom, if_neg (by omega), Nat.add_sub_cancel_left, ih]
    rfl

/-- The position of an offset. -/
theorem positionAt_units (a b : List Nat) : positionAt (a ++ b) (units a) = positionAfter a :=
  positionFrom_units a b _

/-! ## Encodings -/

theorem utf8Text_append (a b : List Nat) : utf8Text (a ++ b) = utf8Text a ++ utf8Text b := by simp [utf8Text]

theorem utf8Text_ascii {doc : List Nat} (h : Ascii doc) : utf8Text doc = doc := by
  induction doc with
  | nil => rfl
  | cons c doc ih =>
    have hc : c < 128 := h c (by simp)
    rw [show utf8Text (c :: doc) = utf8 c ++ utf8Text doc by simp [utf8Text], ih fun b hb => h b (by simp [hb]), utf8,
      if_pos hc]
    rfl

theorem units_ascii {doc : List Nat} (h : Ascii doc) : units doc = doc.length := by
  induction doc with
  | nil => rfl
  | cons c doc ih =>
    have hc : c < 128 := h c (by simp)
    rw [units_cons, ih fun b hb => h b (by simp [hb]), utf16Len, if_pos (by omega), List.length_cons]
    omega

/-- A character has at least as many bytes as units, and as many only if it is ASCII. -/
theorem utf8_length (c : Nat) : utf16Len c ≤ (utf8 c).length ∧ ((utf8 c).length = utf16Len c ↔ c < 128) := by
  unfold utf16Len utf8
  by_cases h1 : c < 128
  · simp [h1, show c < 65536 by omega]
  · by_cases h2 : c < 2048
    · simp [h1, h2, show c < 65536 by omega]
    · by_cases h3 : c < 65536
      · simp [h1, h2, h3]
      · simp [h1, h2, h3]

theorem utf8Text_length (a : List Nat) : units a ≤ (utf8Text a).length ∧ ((utf8Text a).length = units a ↔ Ascii a) := by
  induction a with
  | nil => exact ⟨Nat.le_refl _, fun _ => by simp [Ascii], fun _ => rfl⟩
  | cons c a ih =>
    obtain ⟨h1, h2⟩ := utf8_length c
    obtain ⟨h3, h4⟩ := ih
    have e : utf8Text (c :: a) = utf8 c ++ utf8Text a := by simp [utf8Text]
    rw [e, units_cons, List.length_append]
    refine ⟨by omega, fun h => ?_, fun h => ?_⟩
    · have ha := h2.1 (by omega)
      have hb := h4.1 (by omega)
      rintro b (_ | ⟨_, hb'⟩)
      · exact ha
      · exact hb b ‹_›
    · have ha := h2.2 (h c (by simp))
      have hb := h4.2 fun b hb => h b (by simp [hb])
      omega

/-! ## Edits -/

theorem OrderedCopies.mono {ops : List (TextEditOp α)} : ∀ {x y : Nat}, x ≤ y → OrderedCopies y ops → OrderedCopies x ops := by
  induction ops with
  | nil => intros; trivial
  | cons op ops ih =>
    intro x y hxy h
    cases op with
    | copy r => exact ⟨Nat.le_trans hxy h.1, h.2⟩
    | insert t => exact ih hxy h

theorem CopiesInOrder.mono {n : Nat} {ops : List (TextEditOp α)} : ∀ {x y : Nat}, (∃ r, .copy r ∈ ops) → x ≤ y →
    CopiesInOrder n y ops → CopiesInOrder n x ops := by
  induction ops with
  | nil => rintro x y ⟨r, h⟩; cases h
  | cons op ops ih =>
    rintro x y ⟨r, hr⟩ hxy h
    cases op with
    | copy r' => exact ⟨Nat.le_trans hxy h.1, h.2⟩
    | insert t =>
      refine ih ⟨r, ?_⟩ hxy h
      rcases List.mem_cons.1 hr with h | h
      · cases h
      · exact h

/-- What is copied so far is in order, and comes before the current offset. -/
structure Tidy (b : TextEditBuilder α) : Prop where
  ordered : ∀ ops, OrderedCopies b.lastOffset ops → OrderedCopies 0 (b.segments ++ ops)
  complete : ∀ n ops, (∃ r, .copy r ∈ ops) → CopiesInOrder n b.lastOffset ops → CopiesInOrder n 0 (b.segments ++ ops)

theorem Tidy.new (t : Text α) : Tidy (TextEditBuilder.new t) := ⟨fun _ h => h, fun _ _ _ h => h⟩

theorem Tidy.advanceTo {b b' : TextEditBuilder α} (h : Tidy b) {offset : Nat} (hb : b.advanceTo offset = some b') :
    Tidy b' ∧ b'.lastOffset = offset ∧ b'.textLen = b.textLen := by
  unfold TextEditBuilder.advanceTo at hb
  split at hb
  · rename_i hlt
    have hlt := Nat.compare_eq_lt.1 hlt
    simp only [TextEditBuilder.copyLen, TextRange.fromLen, TextRange.fromTo, Option.map_eq_some_iff] at hb
    obtain ⟨r, hr, rfl⟩ := hb
    split at hr
    · cases hr
      refine ⟨⟨fun ops ho => ?_, fun n ops hc ho => ?_⟩, by dsimp only; omega, rfl⟩
      · rw [List.append_assoc]
        exact h.ordered _ ⟨Nat.le_refl _, ho⟩
      · rw [List.append_assoc]
        exact h.complete n _ ⟨_, List.mem_cons_self ..⟩ ⟨Nat.le_refl _, by simp, ho⟩
    · cases hr
  · rename_i heq
    cases hb
    exact ⟨h, Nat.compare_eq_eq.1 heq, rfl⟩
  · cases hb

theorem Tidy.insert_ {b : TextEditBuilder α} (h : Tidy b) (t : List α) : Tidy (b.insert_ t) := by
  refine ⟨fun ops ho => ?_, fun n ops hc ho => ?_⟩
  · rw [TextEditBuilder.insert_, List.append_assoc]
    exact h.ordered _ ho
  · rw [TextEditBuilder.insert_, List.append_assoc]
    exact h.complete n _ (hc.imp fun r hr => by simp [hr]) ho

theorem Tidy.deleteLen {b : TextEditBuilder α} (h : Tidy b) (k : Nat) : Tidy (b.deleteLen k) :=
  ⟨fun _ ho => h.ordered _ (OrderedCopies.mono (Nat.le_add_right _ _) ho),
    fun n _ hc ho => h.complete n _ hc (CopiesInOrder.mono hc (Nat.le_add_right _ _) ho)⟩

theorem Tidy.insert {b b' : TextEditBuilder α} (h : Tidy b) {offset : Nat} {t : List α}
    (hb : b.insert offset t = some b') : Tidy b' ∧ b'.textLen = b.textLen := by
  simp only [TextEditBuilder.insert, Option.map_eq_some_iff] at hb
  obtain ⟨b1, h1, rfl⟩ := hb
  obtain ⟨h2, _, h3⟩ := h.advanceTo h1
  exact ⟨h2.insert_ t, h3⟩

theorem Tidy.delete {b b' : TextEditBuilder α} (h : Tidy b) {r : TextRange} (hb : b.delete r = some b') :
    Tidy b' ∧ b'.textLen = b.textLen := by
  simp only [TextEditBuilder.delete, Option.bind_eq_some_iff] at hb
  obtain ⟨b1, h1, hb⟩ := hb
  obtain ⟨h2, _, h3⟩ := h.advanceTo h1
  split at hb
  · cases hb
    exact ⟨h2.deleteLen _, h3⟩
  · cases hb

theorem Tidy.replace {b b' : TextEditBuilder α} (h : Tidy b) {r : TextRange} {t : List α}
    (hb : b.replace r t = some b') : Tidy b' ∧ b'.textLen = b.textLen := by
  simp only [TextEditBuilder.replace, Option.bind_eq_some_iff] at hb
  obtain ⟨b1, h1, hb⟩ := hb
  obtain ⟨h2, _, h3⟩ := h.advanceTo h1
  split at hb
  · cases hb
    exact ⟨(h2.insert_ t).deleteLen _, h3⟩
  · cases hb

/-- The copies of an edit made from records are in order. -/
theorem fromVsEdits_ordered {t : Text α} {es : List (VsEdit α)} {e : TextEdit α} (h : fromVsEdits t es = some e) :
    OrderedCopies 0 e.ops := by
  simp only [fromVsEdits, Option.bind_eq_some_iff] at h
  obtain ⟨b, hb, he⟩ := h
  have key : ∀ (es : List (VsEdit α)) (b b' : TextEditBuilder α), Tidy b →
      es.foldlM (fun (b : TextEditBuilder α) e => b.replace e.delete e.insert) b = some b' → Tidy b' := by
    intro es
    induction es with
    | nil =>
      intro b b' hb h
      cases h
      exact hb
    | cons e es ih =>
      intro b b' hb h
      rw [List.foldlM_cons, Option.bind_eq_bind, Option.bind_eq_some_iff] at h
      obtain ⟨b1, h1, h2⟩ := h
      exact ih b1 b' (hb.replace h1).1 h2
  have ht := key es _ b (Tidy.new t) hb
  simp only [TextEditBuilder.build, Option.map_eq_some_iff] at he
  obtain ⟨b1, h1, rfl⟩ := he
  have := (ht.advanceTo h1).1.ordered [] trivial
  rwa [List.append_nil] at this

theorem textEditForNode_tidy {f : File α} {e : FileEdit α} : ∀ (fuel : Nat) (n : NodeId) (b b' : TextEditBuilder α), Tidy b →
    e.textEditForNode f fuel b n = some b' → Tidy b' ∧ b'.textLen = b.textLen := by
  intro fuel
  induction fuel with
  | zero => intro n b b' _ h; cases h
  | succ fuel ih =>
    intro n b b' hb h
    simp only [FileEdit.textEditForNode, Option.bind_eq_bind, Option.bind_eq_some_iff] at h
    obtain ⟨d, hd, h⟩ := h
    split at h
    · exact hb.delete h
    · split at h
      · exact hb.replace h
      · rw [Option.bind_eq_some_iff] at h
        obtain ⟨b1, h1, h⟩ := h
        have key : ∀ (cs : List NodeId) (b b' : TextEditBuilder α), Tidy b →
            cs.foldlM (e.textEditForNode f fuel) b = some b' → Tidy b' ∧ b'.textLen = b.textLen := by
          intro cs
          induction cs with
          | nil =>
            intro b b' hb h
            cases h
            exact ⟨hb, rfl⟩
          | cons c cs ihc =>
            intro b b' hb h
            rw [List.foldlM_cons, Option.bind_eq_bind, Option.bind_eq_some_iff] at h
            obtain ⟨b1, h1, h2⟩ := h
            obtain ⟨h3, h4⟩ := ih c b b1 hb h1
            obtain ⟨h5, h6⟩ := ihc b1 b' h3 h2
            exact ⟨h5, h6.trans h4⟩
        obtain ⟨h2, h3⟩ := key _ _ _ hb h1
        split at h
        · obtain ⟨h4, h5⟩ := h2.insert h
          exact ⟨h4, h5.trans h3⟩
        · cases h
          exact ⟨h2, h3⟩

/-- The copies of an edit of a file are in order, and it ends where the file ends. -/
theorem intoTextEdit_complete {f : File α} {e : FileEdit α} {edit : TextEdit α} (h : e.intoTextEdit f = some edit) :
    CopiesInOrder f.text.length 0 edit.ops := by
  simp only [FileEdit.intoTextEdit, Option.bind_eq_bind, Option.bind_eq_some_iff] at h
  obtain ⟨b, hb, edit', he, r, hr, h⟩ := h
  cases h
  obtain ⟨h1, h2⟩ := textEditForNode_tidy _ _ _ _ (Tidy.new _) hb
  simp only [TextEditBuilder.build, Option.map_eq_some_iff] at he
  obtain ⟨b1, he, rfl⟩ := he
  obtain ⟨h3, h4, -⟩ := h1.advanceTo he
  have hlen : b.textLen = f.text.length := by
    rw [h2]
    simp [TextEditBuilder.new, Text.len, Text.ofBuf]
  have hr : r = ⟨f.text.length, f.text.length⟩ := by
    simp only [TextRange.fromLen, TextRange.fromTo, Nat.add_zero, Nat.le_refl, if_true, Option.some.injEq] at hr
    exact hr.symm
  subst hr
  exact h3.complete _ _ ⟨_, List.mem_singleton.2 rfl⟩ ⟨by rw [h4, hlen]; exact Nat.le_refl _, Nat.le_refl _, rfl⟩

end Fall
