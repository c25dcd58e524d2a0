import Verif.Model.Text
import Verif.Spec.Text

namespace Fall
open Spec

theorem fromTo_eq_some {a b : Nat} {r : TextRange} :
    TextRange.fromTo a b = some r ↔ a ≤ b ∧ r = ⟨a, b⟩ := by
  unfold TextRange.fromTo
  by_cases h : a ≤ b
  · simp only [h, if_true, Option.some.injEq, true_and]; exact eq_comm
  · simp [h]

/-- Slicing the bytes of a slice. -/
theorem bytes_bytes (text : List α) {a b c d : Nat} (hd : d ≤ b - a) :
    bytes (bytes text a b) c d = bytes text (a + c) (a + d) := by
  unfold bytes
  rw [List.drop_take, List.drop_drop, List.take_take]
  congr 1
  omega

theorem bytes_length (text : List α) {a b : Nat} (hb : b ≤ text.length) :
    (bytes text a b).length = b - a := by
  simp [bytes]; omega

theorem bytes_append_bytes (text : List α) {a b c : Nat} (hab : a ≤ b) (hbc : b ≤ c) :
    bytes text a b ++ bytes text b c = bytes text a c := by
  unfold bytes
  have h : b - a + (c - b) = c - a := by omega
  rw [← h, List.take_add, List.drop_drop]
  congr 3; omega

theorem bytes_self (text : List α) (a : Nat) : bytes text a a = [] := by simp [bytes]

theorem bytes_full (text : List α) : bytes text 0 text.length = text := by simp [bytes]

theorem Text.ofBuf_wf (s : List α) : ValidView (Text.ofBuf s) := by
  simp [Text.ofBuf, ValidView]

theorem Text.asStr_eq {t : Text α} (h : ValidView t) :
    t.asStr = some (bytes t.owned t.range.start t.range.stop) := by
  have := h; simp [ValidView] at this
  simp [Text.asStr, bytes, this]

theorem Text.asStr_ofBuf (s : List α) : (Text.ofBuf s).asStr = some s := by
  rw [Text.asStr_eq (Text.ofBuf_wf s)]; simp [Text.ofBuf, bytes]

theorem Text.slice_eq_some {t u : Text α} {r : TextRange} :
    t.slice r = some u ↔
      r.stop ≤ t.len ∧ t.range.start + r.start ≤ t.range.stop ∧ r.start ≤ r.stop ∧
        u = ⟨t.owned, ⟨t.range.start + r.start, t.range.start + r.stop⟩⟩ := by
  unfold Text.slice
  simp only [TextRange.fromTo]
  by_cases h1 : r.stop ≤ t.len <;> simp [h1]
  by_cases h2 : t.range.start + r.start ≤ t.range.stop <;> simp [h2]
  by_cases h3 : r.start ≤ r.stop <;> simp [h3]
  have : t.range.start + r.start + (r.stop - r.start) = t.range.start + r.stop := by omega
  rw [this]
  exact eq_comm

theorem Text.slice_wf {t u : Text α} {r : TextRange} (h : ValidView t) (hs : t.slice r = some u) :
    ValidView u := by
  rw [Text.slice_eq_some] at hs
  obtain ⟨h1, h2, h3, rfl⟩ := hs
  simp [ValidView, Text.len] at *
  omega

theorem Text.slice_isSome {t : Text α} {r : TextRange} (h : ValidView t) :
    (t.slice r).isSome ↔ r.start ≤ r.stop ∧ r.stop ≤ t.len := by
  rw [Option.isSome_iff_exists]
  simp only [Text.slice_eq_some]
  obtain ⟨g1, g2⟩ := h
  unfold Text.len
  constructor
  · rintro ⟨_, h1, h2, h3, _⟩; omega
  · rintro ⟨h1, h2⟩
    exact ⟨_, by omega, by omega, by omega, rfl⟩

/-- The bytes of an in-bounds slice. -/
theorem piece_copy {t : Text α} (h : ValidView t) {s : List α} (hs : t.asStr = some s) (r : TextRange) :
    (TextEditOp.copy r).piece t =
      if r.start ≤ r.stop ∧ r.stop ≤ s.length then some (bytes s r.start r.stop) else none := by
  rw [Text.asStr_eq h] at hs
  cases hs
  have hl : (bytes t.owned t.range.start t.range.stop).length = t.len := by
    rw [bytes_length _ h.2]; rfl
  rw [hl]
  unfold TextEditOp.piece
  cases hsl : t.slice r with
  | none =>
    have := Text.slice_isSome (r := r) h
    rw [hsl] at this
    simp only [Option.isSome_none, Bool.false_eq_true, false_iff] at this
    simp only [hsl, this, if_false]; rfl
  | some u =>
    have hu := Text.slice_wf h hsl
    have hsl' := hsl
    rw [Text.slice_eq_some] at hsl
    obtain ⟨h1, h2, h3, rfl⟩ := hsl
    simp only [hsl']
    show Text.asStr _ = _
    rw [Text.asStr_eq hu]
    simp only [h3, h1, and_self, if_true]
    rw [bytes_bytes]
    simpa [Text.len] using h1

theorem piece_insert (t : Text α) (s : List α) : (TextEditOp.insert s).piece t = some s := by
  simp [TextEditOp.piece, Text.asStr_ofBuf]

/-- Specification of one operation on the plain text. -/
def opBytes (s : List α) : TextEditOp α → Option (List α)
  | .copy r => if r.start ≤ r.stop ∧ r.stop ≤ s.length then some (bytes s r.start r.stop) else none
  | .insert i => some i

theorem piece_eq {t : Text α} (h : ValidView t) {s : List α} (hs : t.asStr = some s) (op : TextEditOp α) :
    op.piece t = opBytes s op := by
  cases op with
  | copy r => exact piece_copy h hs r
  | insert i => exact piece_insert t i

/-- Applying a script to the plain text. -/
def applyOps (s : List α) : List (TextEditOp α) → Option (List α)
  | [] => some []
  | op :: ops => (opBytes s op).bind fun x => (applyOps s ops).map (x ++ ·)

theorem foldlM_piece {t : Text α} (h : ValidView t) {s : List α} (hs : t.asStr = some s)
    (ops : List (TextEditOp α)) (acc : List α) :
    ops.foldlM (fun result op => (op.piece t).map (result ++ ·)) acc =
      (applyOps s ops).map (acc ++ ·) := by
  induction ops generalizing acc with
  | nil => simp [applyOps]
  | cons op ops ih =>
    simp only [List.foldlM_cons, applyOps]
    rw [piece_eq h hs]
    cases opBytes s op with
    | none => simp
    | some x =>
      simp only [Option.map_some, Option.bind_eq_bind, Option.bind_some]
      rw [ih]
      cases applyOps s ops <;> simp

theorem apply_eq {t : Text α} (h : ValidView t) {s : List α} (hs : t.asStr = some s) (e : TextEdit α) :
    e.apply t = applyOps s e.ops := by
  unfold TextEdit.apply
  rw [foldlM_piece h hs]
  simp

theorem applyOps_append (s : List α) (xs ys : List (TextEditOp α)) :
    applyOps s (xs ++ ys) =
      (applyOps s xs).bind fun a => (applyOps s ys).map (a ++ ·) := by
  induction xs with
  | nil => simp [applyOps]
  | cons x xs ih =>
    simp only [List.cons_append, applyOps, ih]
    cases opBytes s x <;> simp
    cases applyOps s xs <;> simp
    cases applyOps s ys <;> simp

theorem asStr_len {t : Text α} (h : ValidView t) {s : List α} (hs : t.asStr = some s) :
    s.length = t.len := by
  rw [Text.asStr_eq h] at hs
  cases hs
  rw [bytes_length _ h.2]; rfl

/-! ## The builder -/

theorem advanceTo_eq (b : TextEditBuilder α) (offset : Nat) :
    b.advanceTo offset =
      if b.lastOffset < offset then
        some { b with segments := b.segments ++ [.copy ⟨b.lastOffset, offset⟩], lastOffset := offset }
      else if b.lastOffset = offset then some b else none := by
  unfold TextEditBuilder.advanceTo
  rcases Nat.lt_trichotomy b.lastOffset offset with h | h | h
  · rw [Nat.compare_eq_lt.2 h]
    have e : b.lastOffset + (offset - b.lastOffset) = offset := by omega
    simp [h, TextEditBuilder.copyLen, TextRange.fromLen, TextRange.fromTo, e]
    omega
  · rw [Nat.compare_eq_eq.2 h]
    simp [h]
  · rw [Nat.compare_eq_gt.2 h]
    have h1 : ¬ b.lastOffset < offset := by omega
    have h2 : ¬ b.lastOffset = offset := by omega
    simp [h1, h2]

/-- The effect of a request on the builder. -/
theorem run_eq (b : TextEditBuilder α) (req : EditReq α) :
    req.run b = (b.advanceTo (request req).1.start).bind fun b' =>
      if (request req).1.start ≤ (request req).1.stop then
        some { b' with
          segments := b'.segments ++ (match req with
            | .delete _ => []
            | .insert _ s => [.insert s]
            | .replace _ s => [.insert s]),
          lastOffset := b'.lastOffset + (request req).1.len }
      else none := by
  cases req <;>
    simp [EditReq.run, TextEditBuilder.insert, TextEditBuilder.delete, TextEditBuilder.replace,
      request, TextEditBuilder.insert_, TextEditBuilder.deleteLen, TextRange.len] <;>
    cases b.advanceTo _ <;> simp <;> split <;> rename_i h <;> simp only [h] <;> simp

/-- The state of the builder corresponds to the part of the text edited so far. -/
def Built (s : List α) (b : TextEditBuilder α) (out : List α) : Prop :=
  b.textLen = s.length ∧ applyOps s b.segments = some out

theorem advanceTo_built {s : List α} {b : TextEditBuilder α} {out : List α} (hb : Built s b out)
    {offset : Nat} (h1 : b.lastOffset ≤ offset) (h2 : offset ≤ s.length) :
    ∃ b', b.advanceTo offset = some b' ∧ b'.lastOffset = offset ∧
      Built s b' (out ++ bytes s b.lastOffset offset) := by
  rw [advanceTo_eq]
  by_cases h : b.lastOffset < offset
  · simp only [h, if_true]
    refine ⟨_, rfl, rfl, hb.1, ?_⟩
    simp only
    rw [applyOps_append, hb.2]
    simp [applyOps, opBytes, h1, h2]
  · have : b.lastOffset = offset := by omega
    subst this
    simp only [Nat.lt_irrefl, if_false, if_true]
    refine ⟨b, rfl, rfl, hb.1, ?_⟩
    rw [bytes_self, hb.2]; simp

theorem advanceTo_none {b : TextEditBuilder α} {offset : Nat} (h : offset < b.lastOffset) :
    b.advanceTo offset = none := by
  rw [advanceTo_eq]
  have h1 : ¬ b.lastOffset < offset := by omega
  have h2 : ¬ b.lastOffset = offset := by omega
  simp [h1, h2]

theorem advanceTo_lastOffset {b b' : TextEditBuilder α} {offset : Nat}
    (h : b.advanceTo offset = some b') :
    b.lastOffset ≤ offset ∧ b'.lastOffset = offset ∧ b'.textLen = b.textLen := by
  rw [advanceTo_eq] at h
  split at h
  · cases h; simp; omega
  · split at h
    · cases h; simp_all
    · simp at h

theorem InOrder_le {len : Nat} {rs : List (TextRange × List α)} {pos : Nat}
    (h : InOrder len pos rs) : pos ≤ len := by
  induction rs generalizing pos with
  | nil => exact h
  | cons r rs ih =>
    obtain ⟨h1, h2, h3⟩ := h
    have := ih h3
    omega

theorem run_built {s : List α} {b : TextEditBuilder α} {out : List α} (hb : Built s b out)
    (req : EditReq α) (h1 : b.lastOffset ≤ (request req).1.start)
    (h2 : (request req).1.start ≤ (request req).1.stop)
    (h3 : (request req).1.stop ≤ s.length) :
    ∃ b', req.run b = some b' ∧ b'.lastOffset = (request req).1.stop ∧
      Built s b' (out ++ bytes s b.lastOffset (request req).1.start ++ (request req).2) := by
  obtain ⟨b1, e1, l1, hb1⟩ := advanceTo_built hb h1 (Nat.le_trans h2 h3)
  rw [run_eq, e1]
  simp only [Option.bind_some, h2, if_true]
  refine ⟨_, rfl, ?_, hb1.1, ?_⟩
  · simp only [l1, TextRange.len]; omega
  · simp only
    rw [applyOps_append, hb1.2]
    cases req <;> simp [applyOps, opBytes, request]

theorem runs_built {s : List α} (reqs : List (EditReq α)) {b : TextEditBuilder α} {out : List α}
    (hb : Built s b out) (ho : InOrder s.length b.lastOffset (reqs.map request)) :
    ∃ e, ((reqs.foldlM EditReq.run b).bind TextEditBuilder.build) = some e ∧
      applyOps s e.ops = some (out ++ splice s b.lastOffset (reqs.map request)) := by
  induction reqs generalizing b out with
  | nil =>
    obtain ⟨b1, e1, _, hb1⟩ := advanceTo_built hb ho (Nat.le_refl _)
    refine ⟨⟨b1.segments⟩, ?_, ?_⟩
    · simp [TextEditBuilder.build, hb.1, e1]
    · rw [hb1.2]; rfl
  | cons req reqs ih =>
    have ho' : b.lastOffset ≤ (request req).1.start ∧ (request req).1.start ≤ (request req).1.stop ∧
        InOrder s.length (request req).1.stop (reqs.map request) := ho
    obtain ⟨h1, h2, h3⟩ := ho'
    obtain ⟨b1, e1, l1, hb1⟩ := run_built hb req h1 h2 (InOrder_le h3)
    rw [← l1] at h3
    obtain ⟨e, e2, e3⟩ := ih hb1 h3
    refine ⟨e, ?_, ?_⟩
    · simp [List.foldlM_cons, e1, e2]
    · rw [e3, l1]
      simp [splice]

theorem runs_inOrder (len : Nat) (reqs : List (EditReq α)) {b : TextEditBuilder α}
    (hl : b.textLen = len) {e : TextEdit α}
    (h : ((reqs.foldlM EditReq.run b).bind TextEditBuilder.build) = some e) :
    InOrder len b.lastOffset (reqs.map request) := by
  induction reqs generalizing b with
  | nil =>
    simp [TextEditBuilder.build] at h
    obtain ⟨b', h, _⟩ := h
    have := (advanceTo_lastOffset h).1
    simpa [InOrder, ← hl] using this
  | cons req reqs ih =>
    simp only [List.foldlM_cons, Option.bind_eq_bind] at h
    cases hr : req.run b with
    | none => simp [hr] at h
    | some b' =>
      rw [hr] at h
      simp only [Option.bind_some] at h
      rw [run_eq] at hr
      cases ha : b.advanceTo (request req).1.start with
      | none => simp [ha] at hr
      | some b1 =>
        rw [ha] at hr
        obtain ⟨g1, g2, g3⟩ := advanceTo_lastOffset ha
        simp only [Option.bind_some] at hr
        split at hr
        · rename_i hle
          cases hr
          have := ih (by simpa [g3] using hl) h
          refine ⟨g1, hle, ?_⟩
          simp only [g2, TextRange.len] at this
          rwa [Nat.add_sub_cancel' hle] at this
        · simp at hr

end Fall
