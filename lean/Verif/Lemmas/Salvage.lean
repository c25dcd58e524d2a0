import Verif.Lemmas.Cache
import Verif.Lemmas.Peg
import Verif.Lemmas.Text

/-! Salvaging fragments of an old parse. -/

namespace Fall

open Spec

namespace Salvage

variable {isWs : NodeType → Bool}

/-- The number of significant tokens. -/
def sigCount (isWs : NodeType → Bool) (ts : List Token) : Nat := (ts.filter fun t => !isWs t.ty).length

theorem sigCount_cons (t : Token) (ts : List Token) :
    sigCount isWs (t :: ts) = (if isWs t.ty then 0 else 1) + sigCount isWs ts := by
  unfold sigCount
  rw [List.filter_cons]
  cases isWs t.ty <;> simp [Nat.add_comm]

theorem sigCount_append (ts us : List Token) :
    sigCount isWs (ts ++ us) = sigCount isWs ts + sigCount isWs us := by simp [sigCount]

theorem sigCount_le (ts : List Token) : sigCount isWs ts ≤ ts.length := List.length_filter_le _ _

theorem sigCount_sig {ts : List Token} (h : ∀ t ∈ ts, isWs t.ty = false) :
    sigCount isWs ts = ts.length := by
  unfold sigCount
  rw [List.filter_eq_self.2 fun t ht => by simp [h t ht]]

/-! ## No panic -/

theorem skipWs_sig (ts : List Token) (p : Nat) :
    sigCount isWs (skipWs isWs ts p).1 = sigCount isWs ts := by
  induction ts generalizing p with
  | nil => rfl
  | cons t ts ih =>
    unfold skipWs
    split
    · rw [ih, sigCount_cons]; simp [*]
    · rfl

theorem bumpN_total (n : Nat) (ts : List Token) (p : Nat) (h : n ≤ ts.length) :
    ∃ r, bumpN n ts p = some r ∧ sigCount isWs ts ≤ n + sigCount isWs r.1 := by
  induction n generalizing ts p with
  | zero => exact ⟨_, rfl, by simp⟩
  | succ n ih =>
    cases ts with
    | nil => simp at h
    | cons t ts =>
      obtain ⟨r, h1, h2⟩ := ih ts (p + t.len) (by simpa using h)
      refine ⟨r, h1, ?_⟩
      rw [sigCount_cons]
      split <;> omega

theorem eatTokens_total (n : Nat) (ts : List Token) (p : Nat) (h : n ≤ sigCount isWs ts) :
    ∃ r, eatTokens isWs n ts p = some r ∧ sigCount isWs ts ≤ n + sigCount isWs r.1 := by
  obtain ⟨r, h1, h2⟩ := bumpN_total (isWs := isWs) n ts p (Nat.le_trans h (sigCount_le ts))
  unfold eatTokens
  rw [h1]
  refine ⟨_, rfl, ?_⟩
  simp only [skipWs_sig]
  exact h2

theorem counts_cons (e : Event) (es : List Event) : counts (e :: es) = counts [e] ++ counts es := by
  unfold counts
  rw [← List.filterMap_append]
  rfl

theorem group_total (n : Nat) (g : Group) (hn : n ≤ g.events.length)
    (h : (counts g.events).sum ≤ sigCount isWs g.tokens) :
    ∃ g', group isWs n g = some g' ∧ g'.events = g.events.drop n ∧
      (counts g'.events).sum ≤ sigCount isWs g'.tokens := by
  induction n generalizing g with
  | zero => exact ⟨g, rfl, rfl, h⟩
  | succ n ih =>
    obtain ⟨es, ts, p, k, b⟩ := g
    cases es with
    | nil => simp at hn
    | cons e es =>
      have hn' : n ≤ es.length := by simpa using hn
      cases e with
      | token ty m =>
        have h' : m + (counts es).sum ≤ sigCount isWs ts := by simpa [counts] using h
        obtain ⟨r, h1, h2⟩ := eatTokens_total (isWs := isWs) m ts p (by omega)
        obtain ⟨g', h3, h4, h5⟩ := ih ⟨es, r.1, r.2, k + m, b⟩ hn' (by simp only; omega)
        refine ⟨g', ?_, by simpa using h4, h5⟩
        simp only [group, h1, Option.bind_some]
        exact h3
      | start ty fp =>
        obtain ⟨g', h3, h4, h5⟩ := ih ⟨es, ts, p, k, b || ty == ERROR⟩ hn' (by simpa [counts] using h)
        exact ⟨g', by simpa [group] using h3, by simpa using h4, h5⟩
      | fin =>
        obtain ⟨g', h3, h4, h5⟩ := ih ⟨es, ts, p, k, b⟩ hn' (by simpa [counts] using h)
        exact ⟨g', by simpa [group] using h3, by simpa using h4, h5⟩
      | cached key m =>
        obtain ⟨g', h3, h4, h5⟩ := ih ⟨es, ts, p, k, b⟩ hn' (by simpa [counts] using h)
        exact ⟨g', by simpa [group] using h3, by simpa using h4, h5⟩

theorem _root_.Fall.Spec.MarksFit.tail {e : Event} {es : List Event} (h : MarksFit (e :: es)) :
    MarksFit es := by
  cases e <;> first | exact h | exact h.2

theorem _root_.Fall.Spec.MarksFit.drop {es : List Event} (h : MarksFit es) (n : Nat) :
    MarksFit (es.drop n) := by
  induction n generalizing es with
  | zero => exact h
  | succ n ih =>
    cases es with
    | nil => exact h
    | cons e es => exact ih h.tail

theorem _root_.Fall.Spec.MarksFit.append {a b : List Event} (ha : MarksFit a) (hb : MarksFit b) :
    MarksFit (a ++ b) := by
  induction a with
  | nil => exact hb
  | cons e a ih =>
    cases e with
    | cached key n => exact ⟨by have := ha.1; simp; omega, ih ha.2⟩
    | _ => exact ih ha

theorem encode_marks (I : Items) : MarksFit I.encode := by
  induction I with
  | nil => trivial
  | tok ty n rest ih => exact ih
  | cached key body rest ihb ih => exact ⟨by simp, ihb.append ih⟩
  | node ty body rest ihb ih => exact MarksFit.append ihb ih
  | link ty body mids rest ihb ihm ih => exact MarksFit.append ihb (MarksFit.append ihm ih)
  | loop ty body rest ihb ih => exact MarksFit.append ihb ih

theorem counts_sum (es : List Event) : (counts es).sum = tokenCount es := by
  induction es with
  | nil => rfl
  | cons e es ih => cases e <;> simp [counts, tokenCount, ← ih]

theorem loop_total (ops : List (TextEditOp Nat)) (fuel : Nat) (es : List Event) (ts : List Token)
    (p a : Nat) (c : CacheMap) (hf : es.length ≤ fuel)
    (hm : MarksFit es)
    (h : (counts es).sum ≤ sigCount isWs ts) :
    ∃ c', loop isWs ops fuel es ts p a c = some c' := by
  induction fuel generalizing es ts p a c with
  | zero =>
    cases es with
    | nil => exact ⟨c, rfl⟩
    | cons e es => simp at hf
  | succ fuel ih =>
    cases es with
    | nil => exact ⟨c, rfl⟩
    | cons e es =>
      have hf' : es.length ≤ fuel := by simpa using hf
      have hm' : MarksFit es := hm.tail
      cases e with
      | token ty m =>
        have h' : m + (counts es).sum ≤ sigCount isWs ts := by simpa [counts] using h
        obtain ⟨r, h1, h2⟩ := eatTokens_total (isWs := isWs) m ts p (by omega)
        simp only [loop, h1, Option.bind_some]
        exact ih es r.1 r.2 _ c hf' hm' (by omega)
      | start ty fp => exact ih es ts p _ c hf' hm' (by simpa [counts] using h)
      | fin => exact ih es ts p _ c hf' hm' (by simpa [counts] using h)
      | cached key m =>
        obtain ⟨g', h3, h4, h5⟩ := group_total (isWs := isWs) m ⟨es, ts, p, 0, false⟩ hm.1
          (by simpa [counts] using h)
        simp only at h4
        simp only [loop, h3, Option.bind_some]
        have hl : g'.events.length ≤ fuel := by rw [h4, List.length_drop]; omega
        have hd : MarksFit g'.events := h4 ▸ hm'.drop m
        split
        · exact ih _ _ _ _ _ hl hd h5
        · exact ih _ _ _ _ _ hl hd h5

/-! ## Where fragments are -/

theorem Fits_drop {ns : List Nat} {t : Token} {ts : List Token} (h : Fits isWs ns (t :: ts))
    (ht : isWs t.ty = true) : Fits isWs ns ts := by
  induction ns with
  | nil => exact fun x hx => h x (by simp [hx])
  | cons n ns ih =>
    obtain ⟨ws, raw, rest, h1, h2, h3, h4, h5⟩ := h
    cases ws with
    | cons w ws =>
      simp only [List.cons_append, List.cons.injEq] at h1
      exact ⟨ws, raw, rest, h1.2, fun x hx => h2 x (by simp [hx]), h3, h4, h5⟩
    | nil =>
      cases raw with
      | cons r raw =>
        simp only [List.nil_append, List.cons_append, List.cons.injEq] at h1
        have := h4 r (by simp)
        rw [← h1.1, ht] at this
        cases this
      | nil =>
        simp only [List.nil_append] at h1
        subst h1
        exact ⟨[], [], ts, rfl, by simp, h3, by simp, ih h5⟩

/-- Before significant token number `c`, with the tokens from there on and the offset. -/
structure At (isWs : NodeType → Bool) (tokens : List Token) (c : Nat) (ts : List Token) (p : Nat) :
    Prop where
  split : ∃ pre, tokens = pre ++ ts ∧ p = (pre.map (·.len)).sum ∧ sigCount isWs pre = c
  head : ∀ t, ts.head? = some t → isWs t.ty = false

theorem sigOffset_append {pre ts : List Token} (h : ∀ t, ts.head? = some t → isWs t.ty = false) :
    sigOffset isWs (pre ++ ts) (sigCount isWs pre) = (pre.map (·.len)).sum := by
  induction pre with
  | nil =>
    cases ts with
    | nil => rfl
    | cons t ts => simp [sigOffset, h t rfl, sigCount]
  | cons t pre ih =>
    simp only [List.cons_append, sigOffset, sigCount_cons, List.map_cons, List.sum_cons]
    split
    · simp [ih]
    · rw [Nat.add_comm 1, ← ih]

theorem At.offset {tokens ts : List Token} {c p : Nat} (h : At isWs tokens c ts p) :
    sigOffset isWs tokens c = p := by
  obtain ⟨pre, rfl, rfl, rfl⟩ := h.split
  exact sigOffset_append h.head

theorem skipWs_at {tokens pre ts : List Token} {p : Nat} (ht : tokens = pre ++ ts)
    (hp : p = (pre.map (·.len)).sum) {ns : List Nat} (hf : Fits isWs ns ts) :
    At isWs tokens (sigCount isWs pre) (skipWs isWs ts p).1 (skipWs isWs ts p).2 ∧
      Fits isWs ns (skipWs isWs ts p).1 := by
  induction ts generalizing pre p with
  | nil => exact ⟨⟨⟨pre, ht, hp, rfl⟩, by simp [skipWs]⟩, hf⟩
  | cons t ts ih =>
    unfold skipWs
    split
    · rename_i hw
      have := ih (pre := pre ++ [t]) (p := p + t.len) (by simp [ht]) (by simp [hp]) (Fits_drop hf hw)
      rwa [sigCount_append, sigCount_cons, if_pos hw] at this
    · rename_i hw
      exact ⟨⟨⟨pre, ht, hp, rfl⟩, by simpa using hw⟩, hf⟩

theorem bumpN_append (raw rest : List Token) (p : Nat) :
    bumpN raw.length (raw ++ rest) p = some (rest, p + (raw.map (·.len)).sum) := by
  induction raw generalizing p with
  | nil => rfl
  | cons t raw ih => simp [bumpN, ih, Nat.add_assoc]

theorem eatTokens_at {tokens ts : List Token} {c p n : Nat} {ns : List Nat} (h : At isWs tokens c ts p)
    (hf : Fits isWs (n :: ns) ts) {r : List Token × Nat} (he : eatTokens isWs n ts p = some r) :
    At isWs tokens (c + n) r.1 r.2 ∧ Fits isWs ns r.1 := by
  obtain ⟨ws, raw, rest, h1, h2, h3, h4, h5⟩ := hf
  have hws : ws = [] := by
    cases ws with
    | nil => rfl
    | cons w ws =>
      have h6 := h.head w (by rw [h1]; rfl)
      rw [h2 w (by simp)] at h6
      cases h6
  subst hws
  simp only [List.nil_append] at h1
  subst h1 h3
  unfold eatTokens at he
  rw [bumpN_append] at he
  simp only [Option.map_some, Option.some.injEq] at he
  subst he
  obtain ⟨pre, h6, h7, h8⟩ := h.split
  have := skipWs_at (isWs := isWs) (tokens := tokens) (pre := pre ++ raw) (ts := rest)
    (p := p + (raw.map (·.len)).sum) (by simp [h6]) (by simp [h7]) h5
  rwa [sigCount_append, h8, sigCount_sig h4] at this

/-- The events of a fragment without errors. -/
def NoErrors (es : List Event) : Prop := ∀ ty fp, .start ty fp ∈ es → ty ≠ ERROR

theorem group_at {tokens : List Token} (n : Nat) (g g' : Group) {c : Nat}
    (h : At isWs tokens c g.tokens g.text) (hf : Fits isWs (counts g.events) g.tokens)
    (hg : group isWs n g = some g') :
    ∃ frag, g.events = frag ++ g'.events ∧ frag.length = n ∧
      g'.nTokens = g.nTokens + (counts frag).sum ∧ (g'.hasError = false → NoErrors frag) ∧
      At isWs tokens (c + (counts frag).sum) g'.tokens g'.text ∧
      Fits isWs (counts g'.events) g'.tokens ∧ (g'.hasError = false → g.hasError = false) := by
  induction n generalizing g c with
  | zero =>
    cases hg
    exact ⟨[], rfl, rfl, by simp [counts], fun _ => by simp [NoErrors], by simpa [counts] using h, hf, id⟩
  | succ n ih =>
    obtain ⟨es, ts, p, k, b⟩ := g
    cases es with
    | nil => cases hg
    | cons e es =>
      cases e with
      | token ty m =>
        simp only [group, Option.bind_eq_some_iff] at hg
        obtain ⟨r, h1, h2⟩ := hg
        have hf' : Fits isWs (m :: counts es) ts := by simpa [counts] using hf
        obtain ⟨h3, h4⟩ := eatTokens_at h hf' h1
        obtain ⟨frag, h5, h6, h7, h8, h9, h10, h11⟩ := ih ⟨es, r.1, r.2, k + m, b⟩ h3 h4 h2
        refine ⟨.token ty m :: frag, by simpa using h5, by simp [h6], ?_, ?_, ?_, h10, h11⟩
        · simp only [h7]; simp [counts, Nat.add_assoc]
        · intro he t fp hmem
          exact h8 he t fp (by simpa using hmem)
        · have : c + m + (counts frag).sum = c + (counts (.token ty m :: frag)).sum := by
            simp [counts, Nat.add_assoc]
          rwa [this] at h9
      | start ty fp =>
        simp only [group] at hg
        obtain ⟨frag, h5, h6, h7, h8, h9, h10, h11⟩ := ih ⟨es, ts, p, k, b || ty == ERROR⟩ h
          (by simpa [counts] using hf) hg
        refine ⟨.start ty fp :: frag, by simpa using h5, by simp [h6], ?_, ?_, ?_, h10, ?_⟩
        · simp only [h7]; simp [counts]
        · intro he t fp' hmem
          rcases List.mem_cons.1 hmem with hh | hh
          · have := h11 he
            simp only [Bool.or_eq_false_iff, beq_eq_false_iff_ne] at this
            cases hh
            exact this.2
          · exact h8 he t fp' hh
        · simpa [counts] using h9
        · intro he
          have := h11 he
          simp only [Bool.or_eq_false_iff] at this
          exact this.1
      | fin =>
        simp only [group] at hg
        obtain ⟨frag, h5, h6, h7, h8, h9, h10, h11⟩ := ih ⟨es, ts, p, k, b⟩ h
          (by simpa [counts] using hf) hg
        refine ⟨.fin :: frag, by simpa using h5, by simp [h6], ?_, ?_, ?_, h10, h11⟩
        · simp only [h7]; simp [counts]
        · intro he t fp hmem
          exact h8 he t fp (by simpa using hmem)
        · simpa [counts] using h9
      | cached key m =>
        simp only [group] at hg
        obtain ⟨frag, h5, h6, h7, h8, h9, h10, h11⟩ := ih ⟨es, ts, p, k, b⟩ h
          (by simpa [counts] using hf) hg
        refine ⟨.cached key m :: frag, by simpa using h5, by simp [h6], ?_, ?_, ?_, h10, h11⟩
        · simp only [h7]; simp [counts]
        · intro he t fp hmem
          exact h8 he t fp (by simpa using hmem)
        · simpa [counts] using h9

/-! ## Where fragments go -/

/-- What the loop over the edit adds to `inserted`. -/
def passedBy (range : TextRange) : TextEditOp Nat → Nat
  | .copy r => if range.isSubrangeOf r then 0 else r.len
  | .insert i => i.length

theorem place_mem (range : TextRange) (key : Nat) (entry : Nat × Nat × Nat)
    (ops : List (TextEditOp Nat)) (ins : Nat) (c : CacheMap) {x : (Nat × Nat) × (Nat × Nat × Nat)}
    (h : x ∈ place range key entry ops ins c) :
    x ∈ c ∨ ∃ xs r ys, ops = xs ++ .copy r :: ys ∧ range.isSubrangeOf r = true ∧
      x = ((ins + (xs.map (passedBy range)).sum + (range.start - r.start), key), entry) := by
  induction ops generalizing ins c with
  | nil => exact Or.inl h
  | cons op ops ih =>
    cases op with
    | insert i =>
      rcases ih (ins + i.length) c h with h | ⟨xs, r, ys, h1, h2, h3⟩
      · exact Or.inl h
      · refine Or.inr ⟨.insert i :: xs, r, ys, by simp [h1], h2, ?_⟩
        rw [h3]
        simp [passedBy, Nat.add_assoc]
    | copy r0 =>
      unfold place at h
      split at h
      · rename_i hs
        rcases ih ins _ h with h | ⟨xs, r, ys, h1, h2, h3⟩
        · rcases List.mem_cons.1 h with h | h
          · exact Or.inr ⟨[], r0, ops, rfl, hs, by rw [h]; simp⟩
          · exact Or.inl h
        · refine Or.inr ⟨.copy r0 :: xs, r, ys, by simp [h1], h2, ?_⟩
          rw [h3]
          simp [passedBy, hs]
      · rename_i hs
        rcases ih _ _ h with h | ⟨xs, r, ys, h1, h2, h3⟩
        · exact Or.inl h
        · refine Or.inr ⟨.copy r0 :: xs, r, ys, by simp [h1], h2, ?_⟩
          rw [h3]
          simp [passedBy, hs, Nat.add_assoc]

theorem OrderedCopies_split {xs ys : List (TextEditOp Nat)} {o : Nat} {r r' : TextRange}
    (h : OrderedCopies o (xs ++ .copy r :: ys)) (hm : .copy r' ∈ xs)
    (hv : ∀ r, .copy r ∈ xs → r.start ≤ r.stop) : r'.stop ≤ r.start := by
  have low : ∀ (xs : List (TextEditOp Nat)) (o : Nat), OrderedCopies o (xs ++ .copy r :: ys) →
      (∀ r, .copy r ∈ xs → r.start ≤ r.stop) → o ≤ r.start := by
    intro xs
    induction xs with
    | nil => exact fun o h _ => h.1
    | cons x xs ih =>
      intro o h hv
      cases x with
      | copy q =>
        have h1 := ih _ h.2 fun r hr => hv r (by simp [hr])
        have h2 := hv q (by simp)
        have h3 := h.1
        omega
      | insert i => exact ih _ h fun r hr => hv r (by simp [hr])
  induction xs generalizing o with
  | nil => cases hm
  | cons x xs ih =>
    cases x with
    | copy q =>
      rcases List.mem_cons.1 hm with hq | hq
      · cases hq
        exact low xs _ h.2 fun r hr => hv r (by simp [hr])
      · exact ih h.2 hq fun r hr => hv r (by simp [hr])
    | insert i =>
      rcases List.mem_cons.1 hm with hq | hq
      · cases hq
      · exact ih h hq fun r hr => hv r (by simp [hr])

/-- The length of the output of some operations, none of which copies the range. -/
theorem applyOps_passedBy {s out : List Nat} {xs : List (TextEditOp Nat)} {range : TextRange}
    (h : applyOps s xs = some out) (hno : ∀ r, .copy r ∈ xs → range.isSubrangeOf r = false) :
    out.length = (xs.map (passedBy range)).sum ∧ ∀ r, .copy r ∈ xs → r.start ≤ r.stop := by
  induction xs generalizing out with
  | nil => cases h; simp
  | cons x xs ih =>
    simp only [applyOps, Option.bind_eq_some_iff, Option.map_eq_some_iff] at h
    obtain ⟨a, h1, b, h2, rfl⟩ := h
    obtain ⟨h3, h4⟩ := ih h2 fun r hr => hno r (by simp [hr])
    cases x with
    | insert i =>
      cases h1
      refine ⟨by simp [passedBy, h3], fun r hr => h4 r (by simpa using hr)⟩
    | copy q =>
      simp only [opBytes] at h1
      split at h1
      · rename_i hq
        cases h1
        refine ⟨?_, ?_⟩
        · simp [passedBy, hno q (by simp), h3, bytes_length _ hq.2, TextRange.len]
        · intro r hr
          rcases List.mem_cons.1 hr with hr | hr
          · cases hr; exact hq.1
          · exact h4 r hr
      · cases h1

theorem applyOps_valid {s out : List Nat} {xs : List (TextEditOp Nat)} (h : applyOps s xs = some out) :
    ∀ r, .copy r ∈ xs → r.start ≤ r.stop := by
  induction xs generalizing out with
  | nil => simp
  | cons x xs ih =>
    simp only [applyOps, Option.bind_eq_some_iff, Option.map_eq_some_iff] at h
    obtain ⟨a, h1, b, h2, rfl⟩ := h
    intro r hr
    rcases List.mem_cons.1 hr with hr | hr
    · subst hr
      simp only [opBytes] at h1
      split at h1
      · rename_i hq; exact hq.1
      · cases h1
    · exact ih h2 r hr

theorem bytes_middle (a m d : List Nat) {x y : Nat} (h : y ≤ m.length) :
    bytes (a ++ (m ++ d)) (a.length + x) (a.length + y) = bytes m x y := by
  unfold bytes
  rw [List.drop_append, List.drop_eq_nil_of_le (by omega), List.nil_append,
    show a.length + x - a.length = x by omega, show a.length + y - (a.length + x) = y - x by omega,
    List.drop_append, List.take_append, List.length_drop]
  rw [show y - x - (m.length - x) = 0 by omega]
  simp

/-- A verbatim copy. -/
theorem place_copy {oldText newText : List Nat} {ops : List (TextEditOp Nat)}
    (ha : applyOps oldText ops = some newText) (ho : OrderedCopies 0 ops) {range : TextRange}
    (hne : range.start < range.stop) {xs ys : List (TextEditOp Nat)} {r : TextRange}
    (hops : ops = xs ++ .copy r :: ys) (hr : range.isSubrangeOf r = true) :
    let off := (xs.map (passedBy range)).sum + (range.start - r.start)
    off + (range.stop - range.start) ≤ newText.length ∧
      bytes newText off (off + (range.stop - range.start)) = bytes oldText range.start range.stop := by
  simp only [TextRange.isSubrangeOf, Bool.and_eq_true, decide_eq_true_eq] at hr
  subst hops
  have hv := applyOps_valid ha
  have hno : ∀ r', .copy r' ∈ xs → range.isSubrangeOf r' = false := by
    intro r' hr'
    have h1 := OrderedCopies_split ho hr' fun q hq => hv q (by simp [hq])
    simp only [TextRange.isSubrangeOf, Bool.and_eq_false_iff, decide_eq_false_iff_not]
    omega
  rw [applyOps_append] at ha
  simp only [Option.bind_eq_some_iff, Option.map_eq_some_iff, applyOps] at ha
  obtain ⟨a, h1, b, ⟨c, h2, d, h3, rfl⟩, rfl⟩ := ha
  obtain ⟨h4, _⟩ := applyOps_passedBy h1 hno
  simp only [opBytes] at h2
  split at h2
  · rename_i hq
    cases h2
    have hl := bytes_length oldText (a := r.start) hq.2
    intro off
    refine ⟨by simp only [List.length_append]; omega, ?_⟩
    have hoff : off = a.length + (range.start - r.start) := by simp only [off]; omega
    rw [hoff, Nat.add_assoc, bytes_middle _ _ _ (by omega), bytes_bytes _ (by omega)]
    congr 1 <;> omega
  · cases h2

/-- What is recorded about a fragment. -/
structure Entry (isWs : NodeType → Bool) (oldEvents : List Event) (oldTokens : List Token)
    (ops : List (TextEditOp Nat)) (off key a nE nT : Nat) : Prop where
  frag : ∃ pre frag post, oldEvents = pre ++ .cached key nE :: (frag ++ post) ∧ pre.length + 1 = a ∧
    frag.length = nE ∧ NoErrors frag ∧ (counts frag).sum = nT ∧
    ∃ xs r ys, ops = xs ++ .copy r :: ys ∧
      TextRange.isSubrangeOf ⟨sigOffset isWs oldTokens (counts pre).sum,
        sigOffset isWs oldTokens ((counts pre).sum + nT)⟩ r = true ∧
      off = (xs.map (passedBy ⟨sigOffset isWs oldTokens (counts pre).sum,
        sigOffset isWs oldTokens ((counts pre).sum + nT)⟩)).sum +
          (sigOffset isWs oldTokens (counts pre).sum - r.start)

theorem loop_entries {oldEvents : List Event} {oldTokens : List Token} {ops : List (TextEditOp Nat)}
    (fuel : Nat) (pre es : List Event) (ts : List Token) (p : Nat) (c c' : CacheMap)
    (he : oldEvents = pre ++ es) (h : At isWs oldTokens (counts pre).sum ts p)
    (hf : Fits isWs (counts es) ts)
    (hc : ∀ off key a nE nT, ((off, key), (a, nE, nT)) ∈ c →
      Entry isWs oldEvents oldTokens ops off key a nE nT)
    (hl : loop isWs ops fuel es ts p pre.length c = some c') :
    ∀ off key a nE nT, ((off, key), (a, nE, nT)) ∈ c' →
      Entry isWs oldEvents oldTokens ops off key a nE nT := by
  induction fuel generalizing pre es ts p c with
  | zero =>
    cases es with
    | nil => cases hl; exact hc
    | cons e es => cases hl
  | succ fuel ih =>
    cases es with
    | nil => cases hl; exact hc
    | cons e es =>
      have hlen : (pre ++ [e]).length = pre.length + 1 := by simp
      cases e with
      | token ty m =>
        simp only [loop, Option.bind_eq_some_iff] at hl
        obtain ⟨r, h1, h2⟩ := hl
        obtain ⟨h3, h4⟩ := eatTokens_at h (ns := counts es) (by simpa [counts] using hf) h1
        refine ih (pre ++ [.token ty m]) es r.1 r.2 c (by simp [he]) ?_ h4 hc (by rw [hlen]; exact h2)
        simpa [counts] using h3
      | start ty fp =>
        exact ih (pre ++ [.start ty fp]) es ts p c (by simp [he]) (by simpa [counts] using h)
          (by simpa [counts] using hf) hc (by rw [hlen]; exact hl)
      | fin =>
        exact ih (pre ++ [.fin]) es ts p c (by simp [he]) (by simpa [counts] using h)
          (by simpa [counts] using hf) hc (by rw [hlen]; exact hl)
      | cached key m =>
        simp only [loop, Option.bind_eq_some_iff] at hl
        obtain ⟨g, h1, h2⟩ := hl
        have h' : At isWs oldTokens (counts (pre ++ [.cached key m])).sum ts p := by
          simpa [counts] using h
        obtain ⟨frag, h3, h4, h5, h6, h7, h8, _⟩ := group_at (isWs := isWs) (tokens := oldTokens) m
          ⟨es, ts, p, 0, false⟩ g h (by simpa [counts] using hf) h1
        simp only at h3 h5
        have hat : At isWs oldTokens (counts (pre ++ .cached key m :: frag)).sum g.tokens g.text := by
          have : (counts (pre ++ .cached key m :: frag)).sum = (counts pre).sum + (counts frag).sum := by
            simp [counts]
          rw [this]
          exact h7
        have hlen' : (pre ++ .cached key m :: frag).length = pre.length + 1 + m := by
          simp [h4]; omega
        have hsplit : oldEvents = (pre ++ .cached key m :: frag) ++ g.events := by simp [he, h3]
        split at h2
        · exact ih (pre ++ .cached key m :: frag) g.events g.tokens g.text c hsplit hat h8 hc
            (by rw [hlen']; exact h2)
        · rename_i herr
          refine ih (pre ++ .cached key m :: frag) g.events g.tokens g.text _ hsplit hat h8 ?_
            (by rw [hlen']; exact h2)
          intro off key' a nE nT hmem
          rcases place_mem _ _ _ _ _ _ hmem with hmem | ⟨xs, r, ys, h9, h10, h11⟩
          · exact hc off key' a nE nT hmem
          · simp only [Prod.mk.injEq] at h11
            obtain ⟨⟨rfl, rfl⟩, rfl, rfl, rfl⟩ := h11
            have hst := h.offset
            have hnT : g.nTokens = (counts frag).sum := by omega
            have hen := h7.offset
            refine ⟨pre, frag, g.events, by simp [he, h3], rfl, h4, h6 (by simpa using herr), hnT.symm,
              xs, r, ys, h9, ?_, ?_⟩
            · rw [hst, hnT, hen]; exact h10
            · rw [hst, hnT, hen]; simp

end Salvage

/-- Salvaging from the events of a completed parse does not panic. -/
theorem salvage_parse_total {isWs : NodeType → Bool} {g : Grammar} {text : List Nat}
    {tokens : List Token} {n ty body : Nat} {b : Bool}
    (hs : g.rules[g.startRule]? = some (.pub ty body b)) {es : List Event} {ticks : Nat}
    (h : synParse (Env.new none g isWs text tokens) n = .ok (es, ticks)) (edit : TextEdit Nat) :
    ∃ cache, salvageSegments es tokens isWs edit = some cache := by
  obtain ⟨t, I, k, rfl, _, J, hJ, hI⟩ := Parser.synParse_reads rfl hs h
  have hlen : (Env.new none g isWs text tokens).nonWs.length = Salvage.sigCount isWs tokens := by
    have := Parser.Input.length (input_start (cache := none) (g := g) (isWs := isWs) (text := text)
      (tokens := tokens))
    simpa [Env.startPos, Salvage.sigCount] using this.symm
  have hJt := hJ.expr_toks
  unfold salvageSegments
  dsimp only
  refine Salvage.loop_total _ _ _ _ _ _ _ (Nat.le_refl _) (Salvage.encode_marks _) ?_
  rw [Salvage.skipWs_sig, ← hlen, Salvage.counts_sum, Items.tokenCount_encode]
  simp only [Items.toks]
  rcases hI with ⟨hk, rfl⟩ | ⟨S, hk, hS, rfl⟩
  · omega
  · have hSt := hS.toks
    simp only [Items.toks_append, Items.toks]
    simp at hSt
    omega

end Fall
