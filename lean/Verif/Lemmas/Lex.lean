import Verif.Spec.Lex
import Verif.Lemmas.Text

/-! Helper lemmas for lexing. -/

namespace Fall
open Spec

theorem Spec.IsLexing.sum {lexer : Lexer α} {text : List α} {ts : List Token}
    (h : IsLexing lexer text ts) : (ts.map (·.len)).sum = text.length := by
  induction ts generalizing text with
  | nil => simp [IsLexing] at h; simp [h]
  | cons t ts ih =>
    obtain ⟨_, h2, h3, h4⟩ := h
    have := ih h4
    simp at this ⊢
    omega

theorem Spec.IsLexing.unique {lexer : Lexer α} {text : List α} {ts us : List Token}
    (h : IsLexing lexer text ts) (g : IsLexing lexer text us) : ts = us := by
  induction ts generalizing text us with
  | nil =>
    cases us with
    | nil => rfl
    | cons u us => simp [IsLexing] at h; subst h; obtain ⟨_, h2, h3, _⟩ := g; simp at h3; omega
  | cons t ts ih =>
    cases us with
    | nil => simp [IsLexing] at g; subst g; obtain ⟨_, h2, h3, _⟩ := h; simp at h3; omega
    | cons u us =>
      obtain ⟨h1, h2, h3, h4⟩ := h
      obtain ⟨g1, g2, g3, g4⟩ := g
      rw [h1] at g1
      subst g1
      rw [ih h4 g4]

theorem Spec.IsLexing.exists {lexer : Lexer α} (hp : Progress lexer) (text : List α) :
    ∃ ts, IsLexing lexer text ts := by
  generalize hn : text.length = n
  induction n using Nat.strongRecOn generalizing text with
  | _ n ih =>
    by_cases h : text = []
    · exact ⟨[], h⟩
    · obtain ⟨h1, h2⟩ := hp text h
      obtain ⟨ts, hts⟩ := ih (text.drop (lexer text).len).length (by simp; omega) _ rfl
      exact ⟨lexer text :: ts, rfl, h1, h2, hts⟩

/-- The lexing loop with enough budget. -/
theorem lexLoop_eq {lexer : Lexer α} {text : List α} {ts : List Token}
    (h : IsLexing lexer text ts) (fuel : Nat) (hf : text.length ≤ fuel) (acc : List Token) :
    lexLoop lexer fuel text acc = some (acc ++ ts) := by
  induction ts generalizing text fuel acc with
  | nil => simp [IsLexing] at h; subst h; unfold lexLoop; simp
  | cons t ts ih =>
    obtain ⟨h1, h2, h3, h4⟩ := h
    have hne : text.isEmpty = false := by cases text <;> simp_all
    cases fuel with
    | zero => omega
    | succ fuel =>
      unfold lexLoop
      simp only [hne, Bool.false_eq_true, if_false, Lexer.step, h1, h3, if_true, Option.bind_some]
      rw [ih h4 fuel (by simp; omega)]
      simp

/-- A prefix of a tokenization. -/
def PrefixLexing (lexer : Lexer α) : List α → List Token → Prop
  | _, [] => True
  | text, t :: ts =>
    lexer text = t ∧ 0 < t.len ∧ t.len ≤ text.length ∧ PrefixLexing lexer (text.drop t.len) ts

theorem PrefixLexing.append {lexer : Lexer α} {text : List α} {ts us : List Token}
    (h : PrefixLexing lexer text ts)
    (g : IsLexing lexer (text.drop (ts.map (·.len)).sum) us) :
    IsLexing lexer text (ts ++ us) := by
  induction ts generalizing text with
  | nil => simpa using g
  | cons t ts ih =>
    obtain ⟨h1, h2, h3, h4⟩ := h
    refine ⟨h1, h2, h3, ih h4 ?_⟩
    simpa [List.drop_drop] using g

theorem PrefixLexing.snoc {lexer : Lexer α} {text : List α} {ts : List Token} {t : Token}
    (h : PrefixLexing lexer text ts)
    (g1 : lexer (text.drop (ts.map (·.len)).sum) = t) (g2 : 0 < t.len)
    (g3 : t.len ≤ (text.drop (ts.map (·.len)).sum).length) :
    PrefixLexing lexer text (ts ++ [t]) := by
  induction ts generalizing text with
  | nil => exact ⟨by simpa using g1, g2, by simpa using g3, trivial⟩
  | cons u ts ih =>
    obtain ⟨h1, h2, h3, h4⟩ := h
    refine ⟨h1, h2, h3, ih h4 ?_ ?_⟩
    · simpa [List.drop_drop] using g1
    · simp at g3 ⊢; omega

/-! ## Relexing -/

/-- The invariant of relexing: the new tokens are a prefix of the fresh tokenization, the remaining
old tokens are the tokenization of the remaining old text. -/
structure RelexInv (lexer : Lexer α) (oldTokens : List Token) (oldText newText : List α) (s : RelexState α) : Prop where
  new : PrefixLexing lexer newText s.new
  newLen : s.newLen = (s.new.map (·.len)).sum
  newLe : s.newLen ≤ newText.length
  old : IsLexing lexer (oldText.drop s.oldLen) s.old
  oldLe : s.oldLen ≤ oldText.length
  noError : ∀ t ∈ s.old, t.ty ≠ ERROR
  ghost : ∃ sub : List Token, sub.Sublist s.new ∧ (sub ++ s.old).Sublist oldTokens ∧
    s.reused = (sub.map (·.len)).sum

theorem RelexInv.old_length {lexer : Lexer α} {oldTokens : List Token} {oldText newText : List α}
    {s : RelexState α} (h : RelexInv lexer oldTokens oldText newText s) :
    s.old.length ≤ oldTokens.length := by
  obtain ⟨sub, _, g2, _⟩ := h.ghost
  have := g2.length_le
  simp at this
  omega

theorem stepNew_inv {lexer : Lexer α} (hp : Progress lexer) {oldText newText : List α} {oldTokens : List Token}
    {s : RelexState α} (h : RelexInv lexer oldTokens oldText newText s)
    (ht : s.txt = newText.drop s.newLen) (hlt : s.newLen < newText.length) :
    ∃ s', s.stepNew lexer = some s' ∧ RelexInv lexer oldTokens oldText newText s' ∧
      s'.txt = newText.drop s'.newLen ∧ s.newLen < s'.newLen ∧ s'.old = s.old ∧
      s'.oldLen = s.oldLen := by
  have hne : s.txt ≠ [] := by rw [ht]; simp; omega
  obtain ⟨h1, h2⟩ := hp s.txt hne
  refine ⟨{ s with txt := s.txt.drop (lexer s.txt).len, newLen := s.newLen + (lexer s.txt).len,
                    new := s.new ++ [lexer s.txt] },
    by simp only [RelexState.stepNew, Lexer.step, h2, if_true, Option.map_some], ?_, ?_, ?_, rfl, rfl⟩
  · rw [ht] at h1 h2
    obtain ⟨sub, g1, g2, g3⟩ := h.ghost
    refine ⟨?_, ?_, ?_, h.old, h.oldLe, h.noError,
      ⟨sub, g1.trans (List.sublist_append_left _ _), g2, g3⟩⟩
    · apply PrefixLexing.snoc h.new
      · rw [ht, h.newLen]
      · rw [ht]; exact h1
      · rw [ht, ← h.newLen]; exact h2
    · simp [h.newLen]
    · have h2' := h2
      simp only [List.length_drop] at h2'
      simp only [ht]
      omega
  · simp [ht, List.drop_drop]
  · simp only; omega

theorem skipOld_inv {lexer : Lexer α} {oldText newText : List α} {oldTokens : List Token}
    {s : RelexState α} (h : RelexInv lexer oldTokens oldText newText s) (hlt : s.oldLen < oldText.length) :
    ∃ s', s.skipOld = some s' ∧ RelexInv lexer oldTokens oldText newText s' ∧
      s'.txt = s.txt ∧ s'.newLen = s.newLen ∧ s'.old.length < s.old.length ∧
      s.oldLen < s'.oldLen := by
  have ho := h.old
  have hno := h.noError
  cases hs : s.old with
  | nil =>
    rw [hs] at ho
    simp [IsLexing] at ho
    omega
  | cons t ts =>
    rw [hs] at ho hno
    obtain ⟨h1, h2, h3, h4⟩ := ho
    refine ⟨{ s with old := ts, oldLen := s.oldLen + t.len },
      by simp only [RelexState.skipOld, hs], ⟨h.new, h.newLen, h.newLe, ?_, ?_, ?_, ?_⟩,
      rfl, rfl, by simp, by simp; omega⟩
    · simpa [List.drop_drop] using h4
    · simp at h3 ⊢; omega
    · intro u hu
      exact hno u (List.mem_cons_of_mem _ hu)
    · obtain ⟨sub, g1, g2, g3⟩ := h.ghost
      rw [hs] at g2
      exact ⟨sub, g1, ((List.Sublist.refl sub).append (List.sublist_cons_self t ts)).trans g2, g3⟩

theorem lexTo_inv {lexer : Lexer α} (hp : Progress lexer) {oldText newText : List α} {oldTokens : List Token}
    (editPoint : Nat) (he : editPoint ≤ newText.length) (fuel : Nat) {s : RelexState α}
    (h : RelexInv lexer oldTokens oldText newText s) (ht : s.txt = newText.drop s.newLen)
    (hf : newText.length - s.newLen ≤ fuel) :
    ∃ s', lexTo lexer editPoint fuel s = some s' ∧ RelexInv lexer oldTokens oldText newText s' ∧
      s'.txt = newText.drop s'.newLen ∧ editPoint ≤ s'.newLen ∧ s'.old = s.old ∧
      s'.oldLen = s.oldLen := by
  induction fuel generalizing s with
  | zero =>
    unfold lexTo
    have : ¬ s.newLen < editPoint := by omega
    simp only [this, if_false]
    exact ⟨s, rfl, h, ht, by omega, rfl, rfl⟩
  | succ fuel ih =>
    unfold lexTo
    by_cases hlt : s.newLen < editPoint
    · simp only [hlt, if_true]
      obtain ⟨s1, e1, i1, t1, l1, o1, o2⟩ := stepNew_inv hp h ht (by omega)
      obtain ⟨s2, e2, i2, t2, l2, o3, o4⟩ := ih i1 t1 (by omega)
      exact ⟨s2, by simp [e1, e2], i2, t2, l2, by rw [o3, o1], by rw [o4, o2]⟩
    · simp only [hlt, if_false]
      exact ⟨s, rfl, h, ht, by omega, rfl, rfl⟩

theorem skipTo_inv {lexer : Lexer α} {oldText newText : List α} {oldTokens : List Token}
    (start : Nat) (hstart : start ≤ oldText.length) (fuel : Nat) {s : RelexState α}
    (h : RelexInv lexer oldTokens oldText newText s) (hf : s.old.length ≤ fuel) :
    ∃ s', skipTo start fuel s = some s' ∧ RelexInv lexer oldTokens oldText newText s' ∧
      s'.txt = s.txt ∧ s'.newLen = s.newLen ∧ s'.old.length ≤ s.old.length ∧
      start ≤ s'.oldLen := by
  induction fuel generalizing s with
  | zero =>
    unfold skipTo
    by_cases hlt : s.oldLen < start
    · obtain ⟨s1, e1, i1, t1, n1, l1, o1⟩ := skipOld_inv h (by omega)
      omega
    · simp only [hlt, if_false]
      exact ⟨s, rfl, h, rfl, rfl, by omega, by omega⟩
  | succ fuel ih =>
    unfold skipTo
    by_cases hlt : s.oldLen < start
    · simp only [hlt, if_true]
      obtain ⟨s1, e1, i1, t1, n1, l1, o1⟩ := skipOld_inv h (by omega)
      obtain ⟨s2, e2, i2, t2, n2, l2, o2⟩ := ih i1 (by omega)
      exact ⟨s2, by simp [e1, e2], i2, by rw [t2, t1], by rw [n2, n1], by omega, o2⟩
    · simp only [hlt, if_false]
      exact ⟨s, rfl, h, rfl, rfl, by omega, by omega⟩

/-- Equal bytes at two places: `old[o .. o+n) = new[p .. p+n)`. -/
theorem take_drop_agree {oldText newText : List α} {a b ep : Nat}
    (hag : (newText.drop ep).take (b - a) = (oldText.drop a).take (b - a))
    {o p k : Nat} (ho : a ≤ o) (hp : p - ep = o - a) (hpe : ep ≤ p) (hk : o + k ≤ b) :
    (oldText.drop o).take k = (newText.drop p).take k := by
  have e1 : (oldText.drop o).take k = (((oldText.drop a).take (b - a)).drop (o - a)).take k := by
    rw [List.drop_take, List.take_take, List.drop_drop]
    congr 1
    · omega
    · congr 1; omega
  have e2 : (newText.drop p).take k = (((newText.drop ep).take (b - a)).drop (o - a)).take k := by
    rw [List.drop_take, List.take_take, List.drop_drop]
    congr 1
    · omega
    · congr 1; omega
  rw [e1, e2, hag]

theorem reuse_inv {lexer : Lexer α} (hla : OneByteLookahead lexer) {oldText newText : List α} {oldTokens : List Token}
    (editPoint : Nat) (range : TextRange)
    (hr1 : range.start ≤ range.stop) (hr2 : range.stop ≤ oldText.length)
    (hag : (newText.drop editPoint).take (range.stop - range.start) =
      (oldText.drop range.start).take (range.stop - range.start))
    (hen : editPoint + (range.stop - range.start) ≤ newText.length)
    {old : List Token} {s : RelexState α} (h : RelexInv lexer oldTokens oldText newText s)
    (hold : s.old = old) (hsync : s.newLen - editPoint = s.oldLen - range.start)
    (hn : editPoint ≤ s.newLen) (ho : range.start ≤ s.oldLen) (hos : s.oldLen < range.stop) :
    RelexInv lexer oldTokens oldText newText (reuse range.stop old s) ∧
      range.stop ≤ (reuse range.stop old s).oldLen ∧
      editPoint ≤ (reuse range.stop old s).newLen ∧
      (reuse range.stop old s).newLen ≤ newText.length := by
  induction old generalizing s with
  | nil =>
    have := h.old
    rw [hold] at this
    simp [IsLexing] at this
    omega
  | cons t ts ih =>
    have hlex := h.old
    rw [hold] at hlex
    obtain ⟨h1, h2, h3, h4⟩ := hlex
    have hne : ∀ u ∈ t :: ts, u.ty ≠ ERROR := hold ▸ h.noError
    obtain ⟨sub, g1, g2, g3⟩ := h.ghost
    rw [hold] at g2
    have hl3 : t.len ≤ oldText.length - s.oldLen := by simpa using h3
    unfold reuse
    simp only
    by_cases hge : s.oldLen + t.len ≥ range.stop
    · rw [if_pos hge]
      refine ⟨⟨h.new, h.newLen, h.newLe, ?_, ?_, ?_, ⟨sub, g1,
        ((List.Sublist.refl sub).append (List.sublist_cons_self t ts)).trans g2, g3⟩⟩, hge, hn, h.newLe⟩
      · simpa [List.drop_drop] using h4
      · simp; omega
      · intro u hu; exact hne u (List.mem_cons_of_mem _ hu)
    · rw [if_neg hge]
      have hagree : (oldText.drop s.oldLen).take (t.len + 1) = (newText.drop s.newLen).take (t.len + 1) :=
        take_drop_agree hag ho hsync hn (by omega)
      have hnext : lexer (newText.drop s.newLen) = t := by
        have := hla (oldText.drop s.oldLen) (newText.drop s.newLen)
          (by rw [h1]; exact hne t (by simp)) (by rw [h1]; exact hagree)
        rw [this, h1]
      apply ih
      · refine ⟨?_, ?_, ?_, ?_, ?_, ?_, ⟨sub ++ [t], g1.append (List.Sublist.refl _),
          by simpa using g2, by simp [g3]⟩⟩
        · simp only
          apply PrefixLexing.snoc h.new
          · rw [← h.newLen]; exact hnext
          · exact h2
          · rw [← h.newLen]; simp; omega
        · simp [h.newLen]
        · simp; omega
        · simpa [List.drop_drop] using h4
        · simp; omega
        · intro u hu; exact hne u (List.mem_cons_of_mem _ hu)
      · rfl
      · simp; omega
      · simp; omega
      · simp; omega
      · simp; omega

theorem syncLoop_inv {lexer : Lexer α} (hp : Progress lexer) (hla : OneByteLookahead lexer)
    {oldText newText : List α} {oldTokens : List Token} (editPoint : Nat) (range : TextRange)
    (hr1 : range.start ≤ range.stop) (hr2 : range.stop ≤ oldText.length)
    (hag : (newText.drop editPoint).take (range.stop - range.start) =
      (oldText.drop range.start).take (range.stop - range.start))
    (hen : editPoint + (range.stop - range.start) ≤ newText.length)
    (fuel : Nat) {s : RelexState α} (h : RelexInv lexer oldTokens oldText newText s)
    (ht : s.txt = newText.drop s.newLen ∨ range.stop ≤ s.oldLen)
    (hn : editPoint ≤ s.newLen) (ho : range.start ≤ s.oldLen)
    (hf : newText.length - s.newLen + s.old.length ≤ fuel) :
    ∃ s', syncLoop lexer editPoint range fuel s = some s' ∧ RelexInv lexer oldTokens oldText newText s' := by
  induction fuel generalizing s with
  | zero =>
    have hold : s.old = [] := List.length_eq_zero_iff.1 (by omega)
    have := h.old
    rw [hold] at this
    simp [IsLexing] at this
    unfold syncLoop
    have c1 : ¬ (s.newLen < editPoint ∨ s.oldLen < range.start) := by omega
    have c2 : s.newLen - editPoint ≥ range.len ∨ s.oldLen - range.start ≥ range.len := by
      simp only [TextRange.len]; omega
    simp only [c1, c2, if_true, if_false]
    exact ⟨s, rfl, h⟩
  | succ fuel ih =>
    unfold syncLoop
    have c1 : ¬ (s.newLen < editPoint ∨ s.oldLen < range.start) := by omega
    simp only [c1, if_false]
    by_cases c2 : s.newLen - editPoint ≥ range.len ∨ s.oldLen - range.start ≥ range.len
    · simp only [c2, if_true]
      exact ⟨s, rfl, h⟩
    · simp only [c2, if_false]
      simp only [TextRange.len] at c2
      have ht' : s.txt = newText.drop s.newLen := by
        rcases ht with ht | ht
        · exact ht
        · omega
      rcases Nat.lt_trichotomy (s.newLen - editPoint) (s.oldLen - range.start) with hc | hc | hc
      · rw [Nat.compare_eq_lt.2 hc]
        obtain ⟨s1, e1, i1, t1, l1, o1, o2⟩ := stepNew_inv hp h ht' (by omega)
        simp only [e1, Option.bind_some]
        exact ih i1 (.inl t1) (by omega) (by omega) (by rw [o1]; omega)
      · rw [Nat.compare_eq_eq.2 hc]
        simp only
        obtain ⟨i1, l1, l2, l3⟩ := reuse_inv hla editPoint range hr1 hr2 hag hen h rfl hc hn ho
          (by omega)
        generalize hs1 : reuse range.stop s.old s = s1 at i1 l1 l2 l3
        -- the next iteration leaves the loop
        have c3 : ¬ (s1.newLen < editPoint ∨ s1.oldLen < range.start) := by omega
        have c4 : s1.newLen - editPoint ≥ range.len ∨ s1.oldLen - range.start ≥ range.len := by
          simp only [TextRange.len]; omega
        refine ⟨s1, ?_, i1⟩
        unfold syncLoop
        simp only [c3, c4, if_true, if_false]
      · rw [Nat.compare_eq_gt.2 hc]
        obtain ⟨s1, e1, i1, t1, n1, l1, o1⟩ := skipOld_inv h (by omega)
        simp only [e1, Option.bind_some]
        exact ih i1 (.inl (by rw [t1, n1]; exact ht')) (by omega) (by omega) (by omega)

theorem relexOps_inv {lexer : Lexer α} (hp : Progress lexer) (hla : OneByteLookahead lexer)
    {oldText newText : List α} {oldTokens : List Token} (fuel : Nat) (ops : List (TextEditOp α))
    (done : List α) {s : RelexState α} (h : RelexInv lexer oldTokens oldText newText s)
    {rest : List α} (hops : applyOps oldText ops = some rest) (hnew : newText = done ++ rest)
    (hf : newText.length + oldTokens.length ≤ fuel) :
    ∃ s', relexOps lexer newText fuel ops done.length s = some s' ∧
      RelexInv lexer oldTokens oldText newText s' := by
  induction ops generalizing done s rest with
  | nil => exact ⟨s, by simp [relexOps], h⟩
  | cons op ops ih =>
    cases op with
    | insert i =>
      simp only [applyOps, opBytes, Option.bind_some, Option.map_eq_some_iff] at hops
      obtain ⟨rest', hr, rfl⟩ := hops
      have := ih (done ++ i) h hr (by rw [hnew]; simp)
      simpa [relexOps] using this
    | copy range =>
      simp only [applyOps, opBytes] at hops
      by_cases hr : range.start ≤ range.stop ∧ range.stop ≤ oldText.length
      · simp only [hr, and_self, if_true, Option.bind_some, Option.map_eq_some_iff] at hops
        obtain ⟨rest', hrest, rfl⟩ := hops
        have hbl := bytes_length (a := range.start) oldText hr.2
        have hag : (newText.drop done.length).take (range.stop - range.start) =
            (oldText.drop range.start).take (range.stop - range.start) := by
          rw [hnew, List.drop_left]
          rw [List.take_left' hbl]
          rfl
        have hnl : newText.length = done.length + (range.stop - range.start) + rest'.length := by
          rw [hnew]; simp [hbl]; omega
        have hol := h.old_length
        simp only [relexOps, h.newLe, if_true]
        have h0 : RelexInv lexer oldTokens oldText newText { s with txt := newText.drop s.newLen } :=
          ⟨h.new, h.newLen, h.newLe, h.old, h.oldLe, h.noError, h.ghost⟩
        obtain ⟨s1, e1, i1, t1, l1, o1, o2⟩ := lexTo_inv hp done.length (by omega) fuel h0 rfl
          (by simp; omega)
        simp only [e1, Option.bind_some]
        obtain ⟨s2, e2, i2, t2, n2, l2, o3⟩ := skipTo_inv range.start (by omega) fuel i1
          (by rw [o1]; simp; omega)
        simp only [e2, Option.bind_some]
        obtain ⟨s3, e3, i3⟩ := syncLoop_inv hp hla done.length range hr.1 hr.2 hag (by omega) fuel i2
          (.inl (by rw [t2, t1, n2])) (by omega) o3 (by rw [o1] at l2; simp at l2; omega)
        simp only [e3, Option.bind_some]
        have := ih (done ++ bytes oldText range.start range.stop) i3 hrest (by rw [hnew]; simp)
        simpa [hbl, TextRange.len] using this
      · simp [hr] at hops


theorem sublist_sum_le {xs ys : List Token} (h : xs.Sublist ys) :
    (xs.map (·.len)).sum ≤ (ys.map (·.len)).sum := by
  induction h with
  | slnil => simp
  | cons a _ ih => simp at ih ⊢; omega
  | cons_cons a _ ih => simp at ih ⊢; omega

/-! ## Accounting of the taken over tokens, without hypotheses -/

/-- Some old tokens, found in order in the old and the new list, have total length `reused`. -/
def Ghost (oldTokens : List Token) (s : RelexState α) : Prop :=
  ∃ sub : List Token, sub.Sublist s.new ∧ (sub ++ s.old).Sublist oldTokens ∧
    s.reused = (sub.map (·.len)).sum

theorem stepNew_ghost {lexer : Lexer α} {oldTokens : List Token} {s s' : RelexState α}
    (h : Ghost oldTokens s) (e : s.stepNew lexer = some s') : Ghost oldTokens s' := by
  obtain ⟨sub, g1, g2, g3⟩ := h
  simp only [RelexState.stepNew, Option.map_eq_some_iff] at e
  obtain ⟨⟨t, txt⟩, _, rfl⟩ := e
  exact ⟨sub, g1.trans (List.sublist_append_left _ _), g2, g3⟩

theorem skipOld_ghost {oldTokens : List Token} {s s' : RelexState α}
    (h : Ghost oldTokens s) (e : s.skipOld = some s') : Ghost oldTokens s' := by
  obtain ⟨sub, g1, g2, g3⟩ := h
  unfold RelexState.skipOld at e
  split at e
  · simp at e
  · rename_i t ts hs
    cases e
    rw [hs] at g2
    exact ⟨sub, g1, ((List.Sublist.refl sub).append (List.sublist_cons_self t ts)).trans g2, g3⟩

theorem lexTo_ghost {lexer : Lexer α} {oldTokens : List Token} {ep fuel : Nat}
    {s s' : RelexState α} (h : Ghost oldTokens s) (e : lexTo lexer ep fuel s = some s') :
    Ghost oldTokens s' := by
  induction fuel generalizing s with
  | zero =>
    unfold lexTo at e
    split at e
    · simp at e
    · cases e; exact h
  | succ fuel ih =>
    unfold lexTo at e
    split at e
    · simp only [Option.bind_eq_some_iff] at e
      obtain ⟨s1, e1, e2⟩ := e
      exact ih (stepNew_ghost h e1) e2
    · cases e; exact h

theorem skipTo_ghost {oldTokens : List Token} {start fuel : Nat}
    {s s' : RelexState α} (h : Ghost oldTokens s) (e : skipTo start fuel s = some s') :
    Ghost oldTokens s' := by
  induction fuel generalizing s with
  | zero =>
    unfold skipTo at e
    split at e
    · simp at e
    · cases e; exact h
  | succ fuel ih =>
    unfold skipTo at e
    split at e
    · simp only [Option.bind_eq_some_iff] at e
      obtain ⟨s1, e1, e2⟩ := e
      exact ih (skipOld_ghost h e1) e2
    · cases e; exact h

theorem reuse_ghost {oldTokens : List Token} {stop : Nat} {old : List Token}
    {s : RelexState α} (h : Ghost oldTokens s) (hold : s.old = old) :
    Ghost oldTokens (reuse stop old s) := by
  induction old generalizing s with
  | nil =>
    obtain ⟨sub, g1, g2, g3⟩ := h
    rw [hold] at g2
    exact ⟨sub, g1, g2, g3⟩
  | cons t ts ih =>
    obtain ⟨sub, g1, g2, g3⟩ := h
    rw [hold] at g2
    unfold reuse
    simp only
    split
    · exact ⟨sub, g1, ((List.Sublist.refl sub).append (List.sublist_cons_self t ts)).trans g2, g3⟩
    · apply ih
      · exact ⟨sub ++ [t], g1.append (List.Sublist.refl _), by simpa using g2, by simp [g3]⟩
      · rfl

theorem syncLoop_ghost {lexer : Lexer α} {oldTokens : List Token} {ep fuel : Nat} {range : TextRange}
    {s s' : RelexState α} (h : Ghost oldTokens s) (e : syncLoop lexer ep range fuel s = some s') :
    Ghost oldTokens s' := by
  induction fuel generalizing s with
  | zero =>
    unfold syncLoop at e
    split at e
    · simp at e
    · simp only at e
      split at e
      · cases e; exact h
      · simp at e
  | succ fuel ih =>
    unfold syncLoop at e
    split at e
    · simp at e
    · simp only at e
      split at e
      · cases e; exact h
      · split at e
        · simp only [Option.bind_eq_some_iff] at e
          obtain ⟨s1, e1, e2⟩ := e
          exact ih (stepNew_ghost h e1) e2
        · exact ih (reuse_ghost h rfl) e
        · simp only [Option.bind_eq_some_iff] at e
          obtain ⟨s1, e1, e2⟩ := e
          exact ih (skipOld_ghost h e1) e2

theorem relexOps_ghost {lexer : Lexer α} {oldTokens : List Token} {newText : List α} {fuel : Nat}
    {ops : List (TextEditOp α)} {ep : Nat} {s s' : RelexState α} (h : Ghost oldTokens s)
    (e : relexOps lexer newText fuel ops ep s = some s') : Ghost oldTokens s' := by
  induction ops generalizing ep s with
  | nil => simp [relexOps] at e; cases e; exact h
  | cons op ops ih =>
    cases op with
    | insert i => exact ih h e
    | copy range =>
      simp only [relexOps] at e
      split at e
      · simp only [Option.bind_eq_some_iff] at e
        obtain ⟨s1, e1, s2, e2, s3, e3, e4⟩ := e
        have h0 : Ghost oldTokens { s with txt := newText.drop s.newLen } := h
        exact ih (syncLoop_ghost (skipTo_ghost (lexTo_ghost h0 e1) e2) e3) e4
      · simp at e

theorem lexLoop_prefix {lexer : Lexer α} {fuel : Nat} {text : List α} {acc ts : List Token}
    (h : lexLoop lexer fuel text acc = some ts) : acc <+: ts := by
  induction fuel generalizing text acc with
  | zero =>
    unfold lexLoop at h
    split at h
    · cases h; exact List.prefix_rfl
    · simp at h
  | succ fuel ih =>
    unfold lexLoop at h
    split at h
    · cases h; exact List.prefix_rfl
    · simp only [Option.bind_eq_some_iff] at h
      obtain ⟨⟨t, txt⟩, _, h⟩ := h
      exact (List.prefix_append acc [t]).trans (ih h)

/-- Reuse up to the end of the old text takes over everything but the last token. -/
theorem reuse_all {stop : Nat} {old : List Token} (hne : old ≠ [])
    {s : RelexState α} (hpos : ∀ t ∈ old, 0 < t.len)
    (hs : s.oldLen + (old.map (·.len)).sum = stop) :
    (reuse stop old s).reused = s.reused + (old.dropLast.map (·.len)).sum ∧
    (reuse stop old s).oldLen = stop := by
  induction old generalizing s with
  | nil => simp at hne
  | cons t ts ih =>
    unfold reuse
    simp only
    simp at hs
    cases ts with
    | nil =>
      simp at hs
      simp [hs]
    | cons u us =>
      have h1 := hpos t (by simp)
      have h2 := hpos u (by simp)
      simp at hs
      have hlt : ¬ s.oldLen + t.len ≥ stop := by omega
      rw [if_neg hlt]
      obtain ⟨i1, i2⟩ := ih (by simp) (s := { s with
        old := u :: us, oldLen := s.oldLen + t.len
        reused := s.reused + t.len
        newLen := s.newLen + t.len
        new := s.new ++ [t] }) (fun x hx => hpos x (List.mem_cons_of_mem _ hx)) (by simp; omega)
      refine ⟨?_, i2⟩
      rw [i1]
      simp [List.dropLast]
      omega

end Fall
