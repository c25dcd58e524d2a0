import Verif.Lemmas.CodegenTidy
import Verif.Spec.Generate

/-! The generated lexer and typed tree. -/

namespace Fall

open Spec AProg

/-! ## Names -/

theorem capital_iff {a b : UInt8} : Capital a b ↔ b = upperByte a := by
  unfold Capital upperByte
  have e1 : (97 ≤ a ∧ a ≤ 122) ↔ (97 ≤ a.toNat ∧ a.toNat ≤ 122) := by
    rw [UInt8.le_iff_toNat_le, UInt8.le_iff_toNat_le]
    rfl
  have e2 : 97 ≤ a.toNat → (a - 32).toNat = a.toNat - 32 := by
    intro h
    rw [UInt8.toNat_sub_of_le]
    · rfl
    · rw [UInt8.le_iff_toNat_le]
      show 32 ≤ a.toNat
      omega
  by_cases h : 97 ≤ a.toNat ∧ a.toNat ≤ 122
  · rw [if_pos (e1.2 h)]
    have := e2 h.1
    constructor
    · rintro (⟨h1, h2, h3⟩ | ⟨h1, -⟩)
      · rw [← UInt8.toNat_inj]
        omega
      · exact absurd h h1
    · rintro rfl
      exact .inl ⟨h.1, h.2, by omega⟩
  · rw [if_neg fun h' => h (e1.1 h')]
    constructor
    · rintro (⟨h1, h2, h3⟩ | ⟨-, h1⟩)
      · exact absurd ⟨h1, h2⟩ h
      · exact h1
    · exact fun e => .inr ⟨h, e⟩

theorem screaming_iff {s t : List UInt8} : Screaming s t ↔ t = scream s := by
  constructor
  · intro h
    unfold Screaming at h
    induction h with
    | nil => rfl
    | cons h _ ih =>
      rw [capital_iff.1 h, ih]
      rfl
  · rintro rfl
    induction s with
    | nil => exact .nil
    | cons a s ih => exact .cons (capital_iff.2 rfl) ih

theorem splitAtByte_ne (sep : UInt8) (s : List UInt8) : splitAtByte sep s ≠ [] := by
  cases s with
  | nil => simp [splitAtByte]
  | cons b s =>
    simp only [splitAtByte]
    split
    · simp
    · split <;> simp

theorem splitAtByte_word {sep : UInt8} {w : List UInt8} (h : sep ∉ w) : splitAtByte sep w = [w] := by
  induction w with
  | nil => rfl
  | cons b w ih =>
    simp only [List.mem_cons, not_or] at h
    simp only [splitAtByte, if_neg (Ne.symm h.1), ih h.2]

theorem splitAtByte_more {sep : UInt8} {w s : List UInt8} (h : sep ∉ w) :
    splitAtByte sep (w ++ sep :: s) = w :: splitAtByte sep s := by
  induction w with
  | nil => simp [splitAtByte]
  | cons b w ih =>
    simp only [List.mem_cons, not_or] at h
    simp only [List.cons_append, splitAtByte, if_neg (Ne.symm h.1), ih h.2]

theorem words_split (s : List UInt8) : Words s (splitAtByte 95 s) := by
  induction s with
  | nil => exact .one (by simp)
  | cons b s ih =>
    simp only [splitAtByte]
    split
    · rename_i e
      subst e
      exact Words.more (w := []) (by simp) ih
    · rename_i hb
      generalize splitAtByte 95 s = ws at ih
      cases ih with
      | one h => exact .one (by simp [h, Ne.symm hb])
      | more h h' => exact Words.more (w := b :: _) (by simp [h, Ne.symm hb]) h'

theorem words_iff {s : List UInt8} {ws : List (List UInt8)} : Words s ws ↔ ws = splitAtByte 95 s := by
  constructor
  · intro h
    induction h with
    | one h => exact (splitAtByte_word h).symm
    | more h _ ih => rw [splitAtByte_more h, ih]
  · rintro rfl
    exact words_split s

theorem capitalized_iff {w t : List UInt8} : Capitalized w t ↔ capital w = some t := by
  unfold Capitalized
  cases w with
  | nil => simp [capital]
  | cons a rest =>
    simp only [capital]
    have e : (a < 128) ↔ a.toNat < 128 := by
      rw [UInt8.lt_iff_toNat_lt]
      rfl
    constructor
    · rintro ⟨a', b, rest', h1, h2, h3, rfl⟩
      simp only [List.cons.injEq] at h1
      obtain ⟨rfl, rfl⟩ := h1
      rw [if_pos (e.2 h2), capital_iff.1 h3]
    · intro h
      split at h
      · rename_i hlt
        rw [Option.some.injEq] at h
        exact ⟨a, _, rest, rfl, e.1 hlt, capital_iff.2 rfl, h.symm⟩
      · cases h

theorem pointwise_mapM_iff {R : α → β → Prop} {g : α → Option β} (hg : ∀ x y, R x y ↔ g x = some y) {xs : List α}
    {ys : List β} : Pointwise R xs ys ↔ xs.mapM g = some ys := by
  constructor
  · intro h
    induction h with
    | nil => rfl
    | cons h _ ih => simp [List.mapM_cons, (hg _ _).1 h, ih]
  · exact fun h => pointwise_mapM h fun x _ y hy => (hg x y).2 hy

theorem camelCase_iff {s t : List UInt8} : CamelCase s t ↔ camel s = some t := by
  unfold CamelCase camel
  simp only [Option.bind_eq_bind, Option.bind_eq_some_iff, Option.pure_def, Option.some.injEq]
  constructor
  · rintro ⟨ws, ts, h1, h2, rfl⟩
    rw [words_iff.1 h1] at h2
    exact ⟨ts, (pointwise_mapM_iff fun w t => capitalized_iff (w := w) (t := t)).1 h2, rfl⟩
  · rintro ⟨ts, h, rfl⟩
    exact ⟨_, ts, words_split s, (pointwise_mapM_iff fun w t => capitalized_iff (w := w) (t := t)).2 h, rfl⟩

theorem camelCase_unique {s t t' : List UInt8} (h : CamelCase s t) (h' : CamelCase s t') : t = t' := by
  rw [camelCase_iff] at h h'
  simpa [h] using h'

theorem nameable_iff {s : List UInt8} : Nameable s ↔ ∃ t, CamelCase s t := by
  constructor
  · intro h
    have h := h _ (words_split s)
    obtain ⟨ts, hts⟩ := pointwise_total (R := Capitalized) (xs := splitAtByte 95 s) fun w hw => by
      obtain ⟨a, rest, rfl, ha⟩ := h w hw
      exact ⟨_, a, _, rest, rfl, ha, capital_iff.2 rfl, rfl⟩
    exact ⟨_, _, ts, words_split s, hts, rfl⟩
  · rintro ⟨t, ws, ts, h1, h2, -⟩ ws' h1' w hw
    rw [words_iff.1 h1', ← words_iff.1 h1] at hw
    obtain ⟨t, -, ht⟩ := pointwise_mem h2 hw
    obtain ⟨a, b, rest, h1, h2, -⟩ := ht
    exact ⟨a, rest, h1, h2⟩

/-! ## Trimming and searching -/

theorem spaceByte_iff {b : UInt8} : isSpaceByte b = true ↔ SpaceByte b := by
  unfold isSpaceByte SpaceByte
  have e : ∀ c : UInt8, b = c ↔ b.toNat = c.toNat := fun c => UInt8.toNat_inj.symm
  simp only [Bool.or_eq_true, Bool.and_eq_true, decide_eq_true_eq, beq_iff_eq, UInt8.le_iff_toNat_le, List.mem_cons,
    List.not_mem_nil, or_false, e]
  show 9 ≤ b.toNat ∧ b.toNat ≤ 13 ∨ b.toNat = 32 ↔ b.toNat = 9 ∨ b.toNat = 10 ∨ b.toNat = 11 ∨ b.toNat = 12 ∨
    b.toNat = 13 ∨ b.toNat = 32
  omega

theorem trimmed_trim (s : List UInt8) : Spec.Trimmed s (trimText s) := by
  have key : ∀ l : List UInt8, ∃ a, l = a ++ l.dropWhile isSpaceByte ∧ (∀ x ∈ a, SpaceByte x) ∧
      ∀ x, (l.dropWhile isSpaceByte).head? = some x → ¬ SpaceByte x := by
    intro l
    refine ⟨l.takeWhile isSpaceByte, List.takeWhile_append_dropWhile.symm, fun x hx => ?_, fun x hx => ?_⟩
    · rw [← spaceByte_iff]
      induction l with
      | nil => simp at hx
      | cons b l ih =>
        by_cases hb : isSpaceByte b
        · rw [List.takeWhile_cons_of_pos hb, List.mem_cons] at hx
          rcases hx with rfl | hx
          · exact hb
          · exact ih hx
        · rw [List.takeWhile_cons_of_neg hb] at hx
          simp at hx
    · rw [← spaceByte_iff]
      induction l with
      | nil => simp at hx
      | cons b l ih =>
        by_cases hb : isSpaceByte b
        · rw [List.dropWhile_cons_of_pos hb] at hx
          exact ih hx
        · rw [List.dropWhile_cons_of_neg hb] at hx
          simp only [List.head?_cons, Option.some.injEq] at hx
          exact hx ▸ hb
  obtain ⟨a, h1, h2, h3⟩ := key s
  obtain ⟨b, g1, g2, g3⟩ := key (s.dropWhile isSpaceByte).reverse
  have e : s.dropWhile isSpaceByte = trimText s ++ b.reverse := by
    have := congrArg List.reverse g1
    rw [List.reverse_reverse, List.reverse_append] at this
    exact this
  refine ⟨a, b.reverse, ?_, h2, fun x hx => g2 x (List.mem_reverse.1 hx), fun x hx => h3 x ?_, fun x hx => g3 x ?_⟩
  · rw [List.append_assoc, ← e]
    exact h1
  · rw [e]
    cases ht : trimText s with
    | nil =>
      rw [ht] at hx
      cases hx
    | cons y t =>
      rw [ht] at hx
      simpa using hx
  · unfold trimText at hx
    rw [List.getLast?_reverse] at hx
    exact hx

theorem containsText_iff {needle s : List UInt8} : containsText needle s = true ↔ needle <:+: s := by
  induction s with
  | nil => simp [containsText]
  | cons b s ih =>
    rw [containsText, Bool.or_eq_true, ih, List.isPrefixOf_iff_prefix, List.infix_cons_iff]

/-! ## Steps of the generator -/

section
variable {f : File UInt8}

/-- The generator pushes nothing, and its results have the property. -/
def Says1 (f : File UInt8) (m : Gen α) (R : α → Prop) : Prop :=
  ∀ es a es', Gives f m es a es' → R a ∧ es' = es

theorem says_bind {m : Gen α} {k : α → Gen β} {R : α → Prop} {Q : β → Prop} (h : Says1 f m R)
    (hk : ∀ a, R a → Says1 f (k a) Q) : Says1 f (m >>= k) Q := by
  intro es b es' hb
  obtain ⟨a, es1, h1, h2⟩ := gives_bind.1 hb
  obtain ⟨r, rfl⟩ := h es a es1 h1
  exact hk a r _ b es' h2

theorem says_pure {a : α} {R : α → Prop} (h : R a) : Says1 f (pure a) R := by
  intro es b es' hb
  obtain ⟨rfl, rfl⟩ := gives_pure.1 hb
  exact ⟨h, rfl⟩

theorem says_lift {x : Option α} {R : α → Prop} (h : ∀ a, x = some a → R a) : Says1 f (Gen.lift x) R := by
  intro es b es' hb
  obtain ⟨hx, rfl⟩ := gives_lift.1 hb
  exact ⟨h b hx, rfl⟩

theorem says_okOr {x : Option α} {R : α → Prop} (h : ∀ a, x = some a → R a) : Says1 f (Gen.okOr x) R := by
  intro es b es' hb
  obtain ⟨hx, rfl⟩ := gives_okOr.1 hb
  exact ⟨h b hx, rfl⟩

theorem says_get {q : Query} {R : Value q → Prop}
    (h : ∀ v ds, Eval (analysisBody f) (analysisBody f q) (some v) ds → R v) : Says1 f (Gen.get q) R := by
  intro es b es' hb
  obtain ⟨⟨ds, hx⟩, rfl⟩ := gives_get.1 hb
  exact ⟨h b ds hx, rfl⟩

theorem says_each {g : α → Gen β} {R : α → β → Prop} {xs : List α} (h : ∀ x ∈ xs, Says1 f (g x) (R x)) :
    Says1 f (Gen.each g xs) fun ys => Pointwise R xs ys := by
  induction xs with
  | nil => exact says_pure .nil
  | cons x xs ih =>
    exact says_bind (h x (by simp)) fun y hy => says_bind (ih fun z hz => h z (by simp [hz])) fun ys hys =>
      says_pure (.cons hy hys)

theorem says_imp {m : Gen α} {R Q : α → Prop} (h : Says1 f m R) (hi : ∀ a, R a → Q a) : Says1 f m Q := by
  intro es a es' ha
  obtain ⟨h1, h2⟩ := h es a es' ha
  exact ⟨hi a h1, h2⟩

end

/-- There is a result exactly if the property holds, and they are related. -/
def Kept (P : α → Prop) (R : α → β → Prop) (x : α) : Option β → Prop
  | some y => P x ∧ R x y
  | none => ¬ P x

theorem pointwise_filterMap {R : α → β → Prop} {P : α → Prop} [DecidablePred P] {xs : List α} {ys : List (Option β)}
    (h : Pointwise (Kept P R) xs ys) : Pointwise R (xs.filter fun x => decide (P x)) (ys.filterMap id) := by
  induction h with
  | nil => exact .nil
  | @cons x y xs ys h _ ih =>
    cases y with
    | some y =>
      simp only [List.filter_cons, h.1, decide_true, if_true, List.filterMap_cons, id]
      exact .cons h.2 ih
    | none =>
      rw [List.filter_cons_of_neg (by simpa using show ¬ P x from h)]
      exact ih

section
variable {f : File UInt8} (hf : ConsistentFile f)
include hf

omit hf in
theorem childrenWith_filter {n : Nat} {P Q : Nat → Prop} [DecidablePred Q] {cs : List Nat} (h : ChildrenWith f n P cs) :
    ChildrenWith f n (fun c => P c ∧ Q c) (cs.filter fun c => decide (Q c)) := by
  obtain ⟨all, h1, h2, h3⟩ := h
  refine ⟨all, h1, List.filter_sublist.trans h2, fun c hc => ?_⟩
  rw [List.mem_filter, h3 c hc, decide_eq_true_eq]

theorem childrenOfType_iff {n : Nat} (hn : IsNode f n) {ty : NodeType} {cs : List Nat} :
    f.childrenOfType n ty = some cs ↔ ChildrenWith f n (OfType f ty) cs := by
  have e : f.childrenOfType n ty = f.astChildren (· == ty) n := by
    rw [astChildren_eq hf hn, File.childrenOfType]
    simp only [children_kids hn, Option.bind_eq_bind, Option.bind_some]
    have := kids_isNode hf hn
    generalize kids f n = l at this
    induction l with
    | nil => rfl
    | cons c l ih =>
      simp only [File.filterNodes, data_dat (this c (by simp)), Option.bind_eq_bind, Option.bind_some,
        ih fun c hc => this c (by simp [hc]), Option.pure_def, List.filter_cons]
  rw [e]
  constructor
  · exact childrenWith_type hf hn
  · intro h
    have e := astChildren_eq hf hn (· == ty)
    rw [e, childrenWith_unique hf hn h (childrenWith_type hf hn e)]

theorem astChildren_iff {n : Nat} (hn : IsNode f n) {ty : NodeType} {cs : List Nat} :
    f.astChildren (· == ty) n = some cs ↔ ChildrenWith f n (OfType f ty) cs := by
  constructor
  · exact childrenWith_type hf hn
  · intro h
    have e := astChildren_eq hf hn (· == ty)
    rw [e, childrenWith_unique hf hn h (childrenWith_type hf hn e)]

/-! ## The lexer -/

omit hf in
theorem startsWith_iff {b : UInt8} {s : List UInt8} : startsWithByte b s = true ↔ ∃ q, s = b :: q := by
  cases s with
  | nil => simp [startsWithByte]
  | cons c s => simp [startsWithByte]

theorem tokenRe_iff {t : Nat} (hn : IsNode f t) {escape : List UInt8 → List UInt8} {re : List UInt8} :
    f.tokenRe escape t = some (some re) ↔ TokenPattern f escape t re := by
  unfold File.tokenRe TokenPattern
  simp only [Option.bind_eq_bind, Option.bind_eq_some_iff]
  constructor
  · rintro ⟨o, ho, h⟩
    have ho := (childOfType_some hf hn 147).1 ho
    cases o with
    | none => simp at h
    | some c =>
      simp only [Option.bind_eq_some_iff, Option.pure_def, Option.some.injEq] at h
      obtain ⟨raw, h1, body, h2, rfl⟩ := h
      refine ⟨raw, body, ⟨c, ho, h1⟩, litBody_iff.1 h2, ?_⟩
      by_cases hs : startsWithByte 114 raw = true
      · rw [if_pos hs]
        exact .inl ⟨(startsWith_iff).1 hs, rfl⟩
      · rw [if_neg hs]
        exact .inr ⟨fun q e => hs ((startsWith_iff).2 ⟨q, e⟩), rfl⟩
  · rintro ⟨lit, body, ⟨c, h1, h2⟩, h3, h4⟩
    refine ⟨some c, (childOfType_some hf hn 147).2 h1, ?_⟩
    simp only [h2, litBody_iff.2 h3, Option.bind_some, Option.pure_def, Option.some.injEq]
    rcases h4 with ⟨h4, rfl⟩ | ⟨h4, rfl⟩
    · rw [if_pos ((startsWith_iff).2 h4)]
    · rw [if_neg fun h => by
        obtain ⟨q, e⟩ := (startsWith_iff).1 h
        exact h4 q e]

theorem externFn_iff {t : Nat} (hn : IsNode f t) {o : Option (List UInt8)} :
    f.externFn t = some o ↔ TokenFunction f t o := by
  unfold File.externFn
  simp only [Option.bind_eq_bind, Option.bind_eq_some_iff]
  constructor
  · rintro ⟨ss, h1, h⟩
    have h1 := (childrenOfType_iff hf hn).1 h1
    cases hc : ss[1]? with
    | none =>
      simp only [hc, Option.pure_def, Option.some.injEq] at h
      subst h
      exact ⟨ss, h1, by simpa using hc⟩
    | some c =>
      simp only [hc, Option.bind_eq_some_iff, Option.pure_def, Option.some.injEq] at h
      obtain ⟨lit, h2, s, h3, rfl⟩ := h
      exact ⟨ss, c, lit, h1, hc, h2, litBody_iff.1 h3⟩
  · intro h
    cases o with
    | none =>
      obtain ⟨ss, h1, h2⟩ := h
      refine ⟨ss, (childrenOfType_iff hf hn).2 h1, ?_⟩
      rw [List.getElem?_eq_none (by omega)]
      rfl
    | some s =>
      obtain ⟨ss, c, lit, h1, h2, h3, h4⟩ := h
      refine ⟨ss, (childrenOfType_iff hf hn).2 h1, ?_⟩
      simp [h2, h3, litBody_iff.2 h4]

theorem says_lexRule {escape : List UInt8 → List UInt8} {t : Nat} (hn : IsNode f t) :
    Says1 f (genLexRule f escape t) (Kept (fun t => ¬ Contextual f t) (LexRuleSays f escape) t) := by
  unfold genLexRule
  refine says_bind (R := fun b => b = true ↔ Contextual f t) (says_lift fun b hb => hasAttr_eval hf hn hb) fun b hb => ?_
  cases b with
  | true =>
    simp only [if_true]
    exact says_pure fun h => h (hb.1 rfl)
  | false =>
    have hc : ¬ Contextual f t := fun h => by cases hb.2 h
    simp only [Bool.false_eq_true, if_false]
    refine says_bind (says_lift (R := fun o => f.tokenRe escape t = some o) fun _ h => h) fun o ho => ?_
    refine says_bind (says_okOr (R := fun re => TokenPattern f escape t re) fun re h => ?_) fun re hre => ?_
    · exact (tokenRe_iff hf hn).1 (h ▸ ho)
    refine says_bind (says_lift (R := fun ty => Ident f t ty) fun ty h => (ident_iff hf hn).1 h) fun ty hty => ?_
    refine says_bind (says_lift (R := fun e => TokenFunction f t e) fun ty h => (externFn_iff hf hn).1 h) fun e he => ?_
    exact says_pure ⟨hc, hty, hre, he⟩

theorem says_lexRules {escape : List UInt8 → List UInt8} :
    Says1 f (genLexRules f escape) fun rs => LexerSays f escape rs := by
  classical
  unfold genLexRules
  refine says_bind (says_lift (R := fun o => f.firstChild (· == Ty.tokenizerDef) f.root = some o) fun _ h => h)
    fun o ho => ?_
  refine says_bind (says_okOr (R := fun d => FirstChild f 0 (OfType f 141) d) fun d h => ?_) fun d hd => ?_
  · subst h
    exact (firstChild_some hf (zero_isNode hf) 141).1 ho
  refine says_bind (says_lift (R := fun ts => Tokens f ts) fun ts h => lexRules_tokens hf h) fun ts hts => ?_
  have hts : ChildrenWith f d (OfType f 142) ts := by
    rcases hts with ⟨d', h1, h2⟩ | ⟨h1, -⟩
    · cases firstChild_unique h1 hd
      exact h2
    · exact absurd hd (h1 d)
  refine says_bind (says_each fun t ht => says_lexRule hf (ofType_isNode (childrenWith_mem hts t ht).2)) fun rs hrs => ?_
  exact says_pure ⟨d, _, hd, childrenWith_filter hts, pointwise_filterMap hrs⟩

/-! ## The verbatim part -/

theorem says_verbatim : Says1 f (genVerbatim f) fun v => VerbatimSays f v.1 ∧
    (v.2 = true ↔ ∃ t, v.1 = some t ∧ ascii "whitespace_binder" <:+: t) := by
  unfold genVerbatim
  refine says_bind (says_lift (R := fun o => f.firstChild (· == Ty.verbatimDef) f.root = some o) fun _ h => h)
    fun o ho => ?_
  have ho := (firstChild_some hf (zero_isNode hf) 148).1 ho
  cases o with
  | none => exact says_pure ⟨ho, by simp⟩
  | some v =>
    refine says_bind (says_lift (R := fun t => VerbatimSays f (some t)) fun t h => ?_) fun t ht => ?_
    · simp only [File.verbatimContents, Option.bind_eq_bind, Option.bind_eq_some_iff, Option.pure_def,
        Option.some.injEq] at h
      obtain ⟨lit, h1, body, h2, rfl⟩ := h
      exact ⟨v, lit, body, ho, (childText_iff hf (first_isNode hf ho) 129).1 h1, litBody_iff.1 h2, trimmed_trim body⟩
    · exact says_pure ⟨ht, by simp [containsText_iff]⟩

/-! ## The typed tree -/

theorem says_camelName {n : Nat} (hn : IsNode f n) : Says1 f (camelName f n) fun c => CamelName f n c := by
  refine says_lift fun c h => ?_
  simp only [Option.bind_eq_bind, Option.bind_eq_some_iff] at h
  obtain ⟨s, h1, h2⟩ := h
  exact ⟨s, (ident_iff hf hn).1 h1, camelCase_iff.2 h2⟩

omit hf in
/-- The nodes that a method can select. -/
theorem methodMeans_isNode {m : Nat} {k : MethodKind} (h : MethodMeans f m (some k)) :
    match k with
    | .text t _ | .token t _ => OfType f 142 t
    | .astNode n _ => OfType f 150 n
    | .astClass n _ => OfType f 151 n := by
  have tok : ∀ {s t}, TokenTyped f s t → OfType f 142 t := by
    rintro s t ⟨d, h1, cs, h2, h3⟩
    exact (first_mem h3).2.1
  have item : ∀ {ty s t}, AstItem f ty s t → OfType f ty t := by
    rintro ty s t ⟨d, h1, cs, h2, h3⟩
    exact (first_mem h3).2.1
  cases h with
  | astNode _ _ _ h _ => exact item h
  | astClass _ _ _ _ h _ => exact item h
  | token _ _ _ _ _ _ h _ => exact tok h
  | text _ _ _ _ _ _ h _ => exact tok h

theorem says_bodyOf {m : Nat} {k : MethodKind} (h : MethodMeans f m (some k)) :
    Says1 f (genBodyOf f k) fun b => BodySays f k b := by
  have ht := methodMeans_isNode h
  cases k with
  | text t ar =>
    refine says_bind (says_lift (R := fun ty => Ident f t ty) fun ty h => (ident_iff hf (ofType_isNode ht)).1 h)
      fun ty hty => ?_
    cases ar with
    | single => exact says_pure (.text hty (screaming_iff.2 rfl))
    | optional => exact says_pure (.optionalText hty (screaming_iff.2 rfl))
    | many => exact says_lift fun _ h => by cases h
  | token t ar =>
    refine says_bind (says_lift (R := fun ty => Ident f t ty) fun ty h => (ident_iff hf (ofType_isNode ht)).1 h)
      fun ty hty => ?_
    cases ar with
    | single => exact says_pure (.token hty (screaming_iff.2 rfl))
    | optional => exact says_pure (.optionalToken hty (screaming_iff.2 rfl))
    | many => exact says_lift fun _ h => by cases h
  | astNode n ar =>
    refine says_bind (says_camelName hf (ofType_isNode ht)) fun c ⟨s, h1, h2⟩ => ?_
    exact says_pure (.node h1 h2)
  | astClass n ar =>
    refine says_bind (says_camelName hf (ofType_isNode ht)) fun c ⟨s, h1, h2⟩ => ?_
    exact says_pure (.class h1 h2)

theorem says_method {m : Nat} (hm : OfType f 153 m) : Says1 f (genMethod f m) fun g => MethodSays f m g := by
  unfold genMethod
  refine says_bind (says_get (q := .resolveMethod m) (R := fun v => MethodMeans f m v) fun v ds h =>
    (resolveMethod_eval hf (ofType_isNode hm) h).1) fun v hv => ?_
  refine says_bind (says_okOr (R := fun k => MethodMeans f m (some k)) fun k h => h ▸ hv) fun k hk => ?_
  refine says_bind (says_bodyOf hf hk) fun b hb => ?_
  refine says_bind (says_lift (R := fun s => Ident f m s) fun s h => (ident_iff hf (ofType_isNode hm)).1 h) fun s hs => ?_
  exact says_pure ⟨hs, k, hk, hb⟩

theorem says_methods {n : Nat} (hn : IsNode f n) : Says1 f (genMethods f n) fun gs => MethodsSay f n gs := by
  unfold genMethods
  refine says_bind (says_lift (R := fun ms => ChildrenWith f n (OfType f 153) ms) fun ms h => (astChildren_iff hf hn).1 h)
    fun ms hms => ?_
  exact says_imp (says_each fun m hm => says_method hf (childrenWith_mem hms m hm).2) fun gs h => ⟨ms, hms, h⟩

theorem says_node {n : Nat} (hn : IsNode f n) : Says1 f (genNode f n) fun g => NodeSays f n g := by
  unfold genNode
  refine says_bind (says_camelName hf hn) fun c hc => ?_
  refine says_bind (says_lift (R := fun s => Ident f n s) fun s h => (ident_iff hf hn).1 h) fun s hs => ?_
  refine says_bind (says_methods hf hn) fun ms hms => ?_
  exact says_pure ⟨hc, ⟨s, hs, screaming_iff.2 rfl⟩, hms⟩

theorem classVariants_iff {c : Nat} (hn : IsNode f c) (hi : ∃ s, Ident f c s) {names : List (List UInt8)} :
    f.classVariants c = some names ↔ VariantNames f c names := by
  unfold File.classVariants VariantNames
  simp only [Option.bind_eq_bind, Option.bind_eq_some_iff]
  constructor
  · rintro ⟨ids, h1, h2⟩
    have h1 := (childrenOfType_iff hf hn).1 h1
    cases ids with
    | nil =>
      obtain ⟨s, i, ⟨cs, hcs, hi⟩, -⟩ := hi
      obtain ⟨all, e, -, hall⟩ := h1
      rw [hcs, Option.some.injEq] at e
      subst e
      cases (hall i (first_mem hi).1).2 (first_mem hi).2
    | cons i is => exact ⟨i, is, h1, (pointwise_mapM_iff fun _ _ => Iff.rfl).2 h2⟩
  · rintro ⟨i, is, h1, h2⟩
    exact ⟨i :: is, (childrenOfType_iff hf hn).2 h1, (pointwise_mapM_iff fun _ _ => Iff.rfl).1 h2⟩

theorem says_class {c : Nat} (hn : IsNode f c) : Says1 f (genClass f c) fun g => ClassSays f c g := by
  unfold genClass
  refine says_bind (says_camelName hf hn) fun e he => ?_
  refine says_bind (says_lift (R := fun names => VariantNames f c names) fun names h => ?_) fun names hnames => ?_
  · obtain ⟨s, h1, -⟩ := he
    exact (classVariants_iff hf hn ⟨s, h1⟩).1 h
  refine says_bind (says_each (R := fun s v => Screaming s v.1 ∧ CamelCase s v.2) fun s _ => ?_) fun vs hvs => ?_
  · refine says_bind (says_lift (R := fun c => CamelCase s c) fun c h => camelCase_iff.2 h) fun c hc => ?_
    exact says_pure ⟨screaming_iff.2 rfl, hc⟩
  · exact says_pure ⟨he, names, hnames, hvs⟩

omit hf in
theorem traitsOf_mem {ids ts bad : List Nat} (h : TraitsOf f ids ts bad) (t : Nat) :
    t ∈ ts ↔ ∃ i ∈ ids, ∃ s, f.textOf i = some s ∧ TraitNamed f s t := by
  induction h with
  | nil => simp
  | @good i s t' is ts bad h1 h2 _ ih =>
    rw [List.mem_cons, ih]
    constructor
    · rintro (rfl | ⟨j, hj, h⟩)
      · exact ⟨i, by simp, s, h1, h2⟩
      · exact ⟨j, by simp [hj], h⟩
    · rintro ⟨j, hj, s', h3, h4⟩
      rcases List.mem_cons.1 hj with rfl | hj
      · rw [h1, Option.some.injEq] at h3
        subst h3
        exact .inl (traitNamed_unique h4 h2)
      · exact .inr ⟨j, hj, s', h3, h4⟩
  | @bad i s is ts bad h1 h2 _ ih =>
    rw [ih]
    constructor
    · rintro ⟨j, hj, h⟩
      exact ⟨j, by simp [hj], h⟩
    · rintro ⟨j, hj, s', h3, h4⟩
      rcases List.mem_cons.1 hj with rfl | hj
      · rw [h1, Option.some.injEq] at h3
        subst h3
        exact absurd h4 (h2 t)
      · exact ⟨j, hj, s', h3, h4⟩

theorem hasTrait_iff {n t : Nat} (hn : IsNode f n) {ts : List Nat} {ds : List Diagnostic}
    (h : Eval (analysisBody f) (astNodeTraits f n) (some ts) ds) : t ∈ ts ↔ HasTrait f n t := by
  obtain ⟨ids, bad, h1, h2, -⟩ := astNodeTraits_eval hf hn h
  rw [traitsOf_mem h2]
  constructor
  · rintro ⟨i, hi, s, h3, h4⟩
    exact ⟨ids, i, s, h1, hi, h3, h4⟩
  · rintro ⟨ids', i, s, h1', hi, h3, h4⟩
    exact ⟨i, (namesAfterColon_unique h1 h1' i).2 hi, s, h3, h4⟩

theorem says_impl {t n : Nat} (hn : IsNode f n) : Says1 f (genImpl f t n) (Kept (fun n => HasTrait f n t) (CamelName f) n) := by
  unfold genImpl
  refine says_bind (says_get (q := .astNodeTraits n) (R := fun ts => t ∈ (show List Nat from ts) ↔ HasTrait f n t) fun v ds h =>
    hasTrait_iff hf hn h) fun v hv => ?_
  split
  · rename_i h
    exact says_bind (says_camelName hf hn) fun c hc => says_pure ⟨hv.1 h, hc⟩
  · rename_i h
    exact says_pure fun h' => h (hv.2 h')

theorem says_trait {ast t : Nat} {ns : List Nat} (hns : ChildrenWith f ast (OfType f 150) ns) (hn : IsNode f t) :
    Says1 f (genTrait f ns t) fun g => TraitSays f ast t g := by
  classical
  unfold genTrait
  refine says_bind (says_camelName hf hn) fun c hc => ?_
  refine says_bind (says_methods hf hn) fun ms hms => ?_
  refine says_bind (says_each fun n hn => says_impl hf (ofType_isNode (childrenWith_mem hns n hn).2)) fun is his => ?_
  exact says_pure ⟨hc, hms, _, childrenWith_filter hns, pointwise_filterMap his⟩

theorem says_ast : Says1 f (genAst f) fun g => AstSays f g := by
  unfold genAst
  refine says_bind (says_lift (R := fun o => f.firstChild (· == Ty.astDef) f.root = some o) fun _ h => h)
    fun o ho => ?_
  have ho := (firstChild_some hf (zero_isNode hf) 149).1 ho
  cases o with
  | none => exact says_pure ho
  | some ast =>
    have hn := first_isNode hf ho
    refine says_bind (says_lift (R := fun ns => ChildrenWith f ast (OfType f 150) ns) fun ns h =>
      (astChildren_iff hf hn).1 h) fun ns hns => ?_
    refine says_bind (says_lift (R := fun ns => ChildrenWith f ast (OfType f 151) ns) fun ns h =>
      (astChildren_iff hf hn).1 h) fun cs hcs => ?_
    refine says_bind (says_lift (R := fun ns => ChildrenWith f ast (OfType f 152) ns) fun ns h =>
      (astChildren_iff hf hn).1 h) fun ts hts => ?_
    refine says_bind (says_each fun n hn => says_node hf (ofType_isNode (childrenWith_mem hns n hn).2)) fun gns h1 => ?_
    refine says_bind (says_each fun n hn => says_class hf (ofType_isNode (childrenWith_mem hcs n hn).2)) fun gcs h2 => ?_
    refine says_bind (says_each fun n hn => says_trait hf hns (ofType_isNode (childrenWith_mem hts n hn).2))
      fun gts h3 => ?_
    exact says_pure ⟨ast, ns, cs, ts, ho, hns, h1, hcs, h2, hts, h3⟩

theorem says_rest {escape : List UInt8 → List UInt8} : Says1 f (genRest f escape) fun g => RestSays f escape g := by
  unfold genRest
  refine says_bind (says_lexRules hf) fun rs hrs => ?_
  refine says_bind (says_verbatim hf) fun v hv => ?_
  refine says_bind (says_ast hf) fun a ha => ?_
  exact says_pure ⟨hrs, hv.1, hv.2, ha⟩

end

end Fall
