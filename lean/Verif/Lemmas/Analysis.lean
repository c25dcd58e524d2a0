import Verif.Lemmas.Db
import Verif.Lemmas.Tree
import Verif.Lemmas.TreeWalk
import Verif.Spec.Analysis
import Verif.Props.Tree

namespace Fall

open Spec AProg

/-! ## Evaluation -/

theorem eval_bind {body : (q : Q) → Prog Q V D (V q)} {p : Prog Q V D α} {k : α → Prog Q V D β} {o : Option β}
    {ds : List D} : Eval body (p.bind k) o ds ↔
      (∃ v ds1 ds2, Eval body p (some v) ds1 ∧ Eval body (k v) o ds2 ∧ ds = ds1 ++ ds2) ∨
      (o = none ∧ Eval body p none ds) := by
  induction p generalizing ds with
  | ret v =>
    constructor
    · intro h
      exact .inl ⟨v, [], ds, .ret, h, rfl⟩
    · rintro (⟨v', ds1, ds2, h1, h2, rfl⟩ | ⟨-, h⟩)
      · cases h1; exact h2
      · cases h
  | emit d p ih =>
    constructor
    · intro h
      cases h with
      | emit h =>
        rcases ih.1 h with ⟨v, ds1, ds2, h1, h2, rfl⟩ | ⟨rfl, h'⟩
        · exact .inl ⟨v, d :: ds1, ds2, .emit h1, h2, rfl⟩
        · exact .inr ⟨rfl, .emit h'⟩
    · rintro (⟨v, ds1, ds2, h1, h2, rfl⟩ | ⟨rfl, h⟩)
      · cases h1 with
        | emit h1 => exact .emit (ih.2 (.inl ⟨v, _, _, h1, h2, rfl⟩))
      · cases h with
        | emit h => exact .emit (ih.2 (.inr ⟨rfl, h⟩))
  | ask q c ih =>
    constructor
    · intro h
      cases h with
      | ask h0 h =>
        rcases (ih _).1 h with ⟨v, ds1, ds2, h1, h2, rfl⟩ | ⟨rfl, h'⟩
        · exact .inl ⟨v, ds1, ds2, .ask h0 h1, h2, rfl⟩
        · exact .inr ⟨rfl, .ask h0 h'⟩
      | ask_panic h0 => exact .inr ⟨rfl, .ask_panic h0⟩
    · rintro (⟨v, ds1, ds2, h1, h2, rfl⟩ | ⟨rfl, h⟩)
      · cases h1 with
        | ask h0 h1 => exact .ask h0 ((ih _).2 (.inl ⟨v, _, _, h1, h2, rfl⟩))
      · cases h with
        | ask h0 h => exact .ask h0 ((ih _).2 (.inr ⟨rfl, h⟩))
        | ask_panic h0 => exact .ask_panic h0
  | panic =>
    constructor
    · intro h
      cases h
      exact .inr ⟨rfl, .panic⟩
    · rintro (⟨v, ds1, ds2, h1, h2, rfl⟩ | ⟨rfl, h⟩)
      · cases h1
      · cases h; exact Eval.panic

theorem eval_bind_some {body : (q : Q) → Prog Q V D (V q)} {p : Prog Q V D α} {k : α → Prog Q V D β} {w : β}
    {ds : List D} : Eval body (p >>= k) (some w) ds ↔
      ∃ v ds1 ds2, Eval body p (some v) ds1 ∧ Eval body (k v) (some w) ds2 ∧ ds = ds1 ++ ds2 := by
  show Eval body (p.bind k) _ _ ↔ _
  rw [eval_bind]
  simp

theorem eval_pure {body : (q : Q) → Prog Q V D (V q)} {v : α} {o : Option α} {ds : List D} :
    Eval body (pure v : Prog Q V D α) o ds ↔ o = some v ∧ ds = [] := by
  constructor
  · intro h
    cases h
    exact ⟨rfl, rfl⟩
  · rintro ⟨rfl, rfl⟩
    exact .ret

theorem eval_lift {body : (q : Query) → AProg (Value q)} {x : Option α} {o : Option α} {ds : List Diagnostic} :
    Eval body (lift x) o ds ↔ x = o ∧ ds = [] := by
  cases x with
  | none =>
    constructor
    · intro h; cases h; exact ⟨rfl, rfl⟩
    · rintro ⟨rfl, rfl⟩; exact .panic
  | some v =>
    constructor
    · intro h; cases h; exact ⟨rfl, rfl⟩
    · rintro ⟨rfl, rfl⟩; exact .ret

theorem eval_get {body : (q : Query) → AProg (Value q)} {q : Query} {o : Option (Value q)} {ds : List Diagnostic} :
    Eval body (get q) o ds ↔ (∃ ds', Eval body (body q) o ds') ∧ ds = [] := by
  constructor
  · intro h
    cases h with
    | ask h0 h => cases h; exact ⟨⟨_, h0⟩, rfl⟩
    | ask_panic h0 => exact ⟨⟨_, h0⟩, rfl⟩
  · rintro ⟨⟨ds', h⟩, rfl⟩
    cases o with
    | none => exact .ask_panic h
    | some v => exact .ask h .ret

theorem eval_error {body : (q : Query) → AProg (Value q)} {f : File UInt8} {n : NodeId} {m : String}
    {ds : List Diagnostic} {u : Unit} :
    Eval body (error f n m) (some u) ds ↔ ∃ r, f.range n = some r ∧ ds = [⟨r, true, m⟩] := by
  unfold error
  rw [eval_bind_some]
  constructor
  · rintro ⟨r, ds1, ds2, h1, h2, rfl⟩
    rw [eval_lift] at h1
    cases h2 with
    | emit h2 => cases h2; exact ⟨r, h1.1, by simp [h1.2]⟩
  · rintro ⟨r, h, rfl⟩
    exact ⟨r, [], _, eval_lift.2 ⟨h, rfl⟩, .emit .ret, rfl⟩

theorem eval_warning {body : (q : Query) → AProg (Value q)} {f : File UInt8} {n : NodeId} {m : String}
    {ds : List Diagnostic} {u : Unit} :
    Eval body (warning f n m) (some u) ds ↔ ∃ r, f.range n = some r ∧ ds = [⟨r, false, m⟩] := by
  unfold warning
  rw [eval_bind_some]
  constructor
  · rintro ⟨r, ds1, ds2, h1, h2, rfl⟩
    rw [eval_lift] at h1
    cases h2 with
    | emit h2 => cases h2; exact ⟨r, h1.1, by simp [h1.2]⟩
  · rintro ⟨r, h, rfl⟩
    exact ⟨r, [], _, eval_lift.2 ⟨h, rfl⟩, .emit .ret, rfl⟩

/-- The program comes to an end, possibly by a panic. -/
def Ends (body : (q : Q) → Prog Q V D (V q)) (p : Prog Q V D α) : Prop := ∃ o ds, Eval body p o ds

/-- The program does not panic. -/
def Safe (body : (q : Q) → Prog Q V D (V q)) (p : Prog Q V D α) : Prop := ∀ ds, ¬ Eval body p none ds

theorem ends_bind {body : (q : Q) → Prog Q V D (V q)} {p : Prog Q V D α} {k : α → Prog Q V D β}
    (h : Ends body p) (hk : ∀ v, Ends body (k v)) : Ends body (p >>= k) := by
  obtain ⟨o, ds, h⟩ := h
  cases o with
  | none => exact ⟨none, ds, eval_bind.2 (.inr ⟨rfl, h⟩)⟩
  | some v =>
    obtain ⟨o, ds', h'⟩ := hk v
    exact ⟨o, _, eval_bind.2 (.inl ⟨v, ds, ds', h, h', rfl⟩)⟩

theorem ends_pure {body : (q : Q) → Prog Q V D (V q)} (v : α) : Ends body (pure v : Prog Q V D α) := ⟨_, _, .ret⟩

theorem ends_lift {body : (q : Query) → AProg (Value q)} (x : Option α) : Ends body (lift x) :=
  ⟨x, [], eval_lift.2 ⟨rfl, rfl⟩⟩

theorem ends_get {body : (q : Query) → AProg (Value q)} {q : Query} (h : Ends body (body q)) :
    Ends body (get q) := by
  obtain ⟨o, ds, h⟩ := h
  exact ⟨o, [], eval_get.2 ⟨⟨ds, h⟩, rfl⟩⟩

theorem ends_error {body : (q : Query) → AProg (Value q)} (f : File UInt8) (n : NodeId) (m : String) :
    Ends body (error f n m) := ends_bind (ends_lift _) fun _ => ⟨_, _, .emit .ret⟩

theorem ends_warning {body : (q : Query) → AProg (Value q)} (f : File UInt8) (n : NodeId) (m : String) :
    Ends body (warning f n m) := ends_bind (ends_lift _) fun _ => ⟨_, _, .emit .ret⟩

theorem safe_bind {body : (q : Q) → Prog Q V D (V q)} {p : Prog Q V D α} {k : α → Prog Q V D β}
    (h : Safe body p) (hk : ∀ v ds, Eval body p (some v) ds → Safe body (k v)) : Safe body (p >>= k) := by
  intro ds he
  rcases eval_bind.1 he with ⟨v, ds1, ds2, h1, h2, rfl⟩ | ⟨-, h0⟩
  · exact hk v _ h1 _ h2
  · exact h _ h0

theorem safe_pure {body : (q : Q) → Prog Q V D (V q)} (v : α) : Safe body (pure v : Prog Q V D α) := by
  intro ds h
  cases h

theorem safe_lift {body : (q : Query) → AProg (Value q)} {x : Option α} (h : x ≠ none) : Safe body (lift x) := by
  intro ds he
  exact h (eval_lift.1 he).1

theorem safe_get {body : (q : Query) → AProg (Value q)} {q : Query} (h : Safe body (body q)) :
    Safe body (get q) := by
  intro ds he
  obtain ⟨⟨ds', he⟩, -⟩ := eval_get.1 he
  exact h _ he

/-! ## Accessors -/

theorem first_find {xs : List Nat} {p : Nat → Bool} {x : Nat} :
    xs.find? p = some x ↔ First xs (fun x => p x = true) x := by
  rw [List.find?_eq_some_iff_append]
  constructor
  · rintro ⟨h, pre, post, rfl, hp⟩
    exact ⟨pre, post, rfl, h, fun y hy => by simpa using hp y hy⟩
  · rintro ⟨pre, post, rfl, h, hp⟩
    exact ⟨h, pre, post, rfl, fun y hy => by simpa using hp y hy⟩

theorem first_congr {xs : List Nat} {P R : Nat → Prop} {x : Nat} (h : ∀ y ∈ xs, P y ↔ R y) :
    First xs P x ↔ First xs R x := by
  constructor
  · rintro ⟨pre, post, rfl, hx, hp⟩
    exact ⟨pre, post, rfl, (h x (by simp)).1 hx, fun y hy hr => hp y hy ((h y (by simp [hy])).2 hr)⟩
  · rintro ⟨pre, post, rfl, hx, hp⟩
    exact ⟨pre, post, rfl, (h x (by simp)).2 hx, fun y hy hr => hp y hy ((h y (by simp [hy])).1 hr)⟩

theorem first_mem {xs : List Nat} {P : Nat → Prop} {x : Nat} (h : First xs P x) : x ∈ xs ∧ P x := by
  obtain ⟨pre, post, rfl, hx, -⟩ := h
  exact ⟨by simp, hx⟩

theorem first_unique {xs : List Nat} {P : Nat → Prop} {x y : Nat} (hx : First xs P x) (hy : First xs P y) :
    x = y := by
  induction xs with
  | nil => exact absurd (first_mem hx).1 (by simp)
  | cons z xs ih =>
    obtain ⟨pre, post, e, hPx, hp⟩ := hx
    obtain ⟨pre', post', e', hPy, hp'⟩ := hy
    cases pre with
    | nil =>
      cases pre' with
      | nil =>
        simp only [List.nil_append, List.cons.injEq] at e e'
        rw [← e.1, ← e'.1]
      | cons w pre' =>
        simp only [List.nil_append, List.cons_append, List.cons.injEq] at e e'
        exact absurd hPx (hp' x (by rw [← e.1, e'.1]; simp))
    | cons w pre =>
      cases pre' with
      | nil =>
        simp only [List.nil_append, List.cons_append, List.cons.injEq] at e e'
        exact absurd hPy (hp y (by rw [← e'.1, e.1]; simp))
      | cons w' pre' =>
        simp only [List.cons_append, List.cons.injEq] at e e'
        exact ih ⟨pre, post, e.2, hPx, fun u hu => hp u (by simp [hu])⟩
          ⟨pre', post', e'.2, hPy, fun u hu => hp' u (by simp [hu])⟩

theorem first_exists {xs : List Nat} {P : Nat → Prop} (h : ∃ x ∈ xs, P x) : ∃ x, First xs P x := by
  classical
  cases hf : xs.find? (fun x => decide (P x)) with
  | none =>
    obtain ⟨x, hx, hP⟩ := h
    rw [List.find?_eq_none] at hf
    exact absurd hP (by simpa using hf x hx)
  | some x =>
    rw [first_find] at hf
    exact ⟨x, (first_congr (by simp)).1 hf⟩

section
variable {f : File UInt8} (hf : ConsistentFile f)
include hf

theorem textOf_some {n : Nat} (hn : IsNode f n) : ∃ s, f.textOf n = some s := ⟨_, textOf_eq hf hn⟩

theorem child_isNode {n c : Nat} (h : Child f n c) : IsNode f c := (child_spec hf.nodes h).2.2.1

theorem kids_isNode {n : Nat} (hn : IsNode f n) : ∀ c ∈ kids f n, IsNode f c :=
  fun _ h => (kids_spec hf.nodes hn h).2.1

theorem first_isNode {n c : Nat} {P : Nat → Prop} (h : FirstChild f n P c) : IsNode f c := by
  obtain ⟨cs, h1, h2⟩ := h
  exact child_isNode hf ⟨cs, h1, (first_mem h2).1⟩

omit hf in
theorem ty_dat {n : Nat} (hn : IsNode f n) : f.ty n = some (dat f n).ty := by
  simp [File.ty, data_dat hn]

omit hf in
theorem firstChild_iff {n c : Nat} {P : Nat → Prop} (hn : IsNode f n) :
    FirstChild f n P c ↔ First (kids f n) P c := by
  simp [FirstChild, children_kids hn]

theorem firstChild_find {n c : Nat} (hn : IsNode f n) (p : NodeType → Bool) :
    FirstChild f n (fun c => ∃ ty, f.ty c = some ty ∧ p ty = true) c ↔
      (kids f n).find? (fun c => p (dat f c).ty) = some c := by
  rw [firstChild_iff hn, first_find]
  apply first_congr
  intro y hy
  simp [ty_dat (kids_isNode hf hn y hy)]

theorem astChildren_eq {n : Nat} (hn : IsNode f n) (p : NodeType → Bool) :
    f.astChildren p n = some ((kids f n).filter fun c => p (dat f c).ty) := by
  simp [File.astChildren, children_kids hn, filterNodes_eq _ (kids_isNode hf hn)]

theorem firstChild_eq {n : Nat} (hn : IsNode f n) (p : NodeType → Bool) :
    f.firstChild p n = some ((kids f n).find? fun c => p (dat f c).ty) := by
  simp [File.firstChild, astChildren_eq hf hn, List.head?_filter]

theorem childOfType_eq {n : Nat} (hn : IsNode f n) (ty : NodeType) :
    f.childOfType n ty = some ((kids f n).find? fun c => (dat f c).ty == ty) := by
  simp [File.childOfType, children_kids hn, findNode_eq _ (kids_isNode hf hn)]

theorem ofType_find {n c : Nat} (hn : IsNode f n) (ty : NodeType) :
    FirstChild f n (OfType f ty) c ↔ (kids f n).find? (fun c => (dat f c).ty == ty) = some c := by
  rw [firstChild_iff hn, first_find]
  apply first_congr
  intro y hy
  simp [OfType, ty_dat (kids_isNode hf hn y hy)]

theorem firstChild_some {n : Nat} (hn : IsNode f n) (ty : NodeType) {o : Option Nat} :
    f.firstChild (· == ty) n = some o ↔
      match o with
      | some c => FirstChild f n (OfType f ty) c
      | none => ∀ c, ¬ FirstChild f n (OfType f ty) c := by
  rw [firstChild_eq hf hn, Option.some.injEq]
  cases o with
  | some c => exact (ofType_find hf hn ty).symm
  | none =>
    simp only [ofType_find hf hn]
    constructor
    · intro h c; rw [h]; simp
    · intro h
      cases hc : (kids f n).find? (fun c => (dat f c).ty == ty) with
      | none => rfl
      | some c => exact absurd hc (h c)

theorem childOfType_some {n : Nat} (hn : IsNode f n) (ty : NodeType) {o : Option Nat} :
    f.childOfType n ty = some o ↔
      match o with
      | some c => FirstChild f n (OfType f ty) c
      | none => ∀ c, ¬ FirstChild f n (OfType f ty) c := by
  rw [childOfType_eq hf hn, Option.some.injEq]
  cases o with
  | some c => exact (ofType_find hf hn ty).symm
  | none =>
    simp only [ofType_find hf hn]
    constructor
    · intro h c; rw [h]; simp
    · intro h
      cases hc : (kids f n).find? (fun c => (dat f c).ty == ty) with
      | none => rfl
      | some c => exact absurd hc (h c)

theorem childText_iff {n : Nat} (hn : IsNode f n) (ty : NodeType) {s : List UInt8} :
    f.childText n ty = some s ↔ Labelled f n ty s := by
  simp only [File.childText, File.childOfTypeExn, childOfType_eq hf hn, Labelled, ofType_find hf hn,
    Option.bind_eq_bind, Option.bind_some, Option.bind_eq_some_iff]

theorem labelled_first {n c : Nat} {ty : NodeType} (h : FirstChild f n (OfType f ty) c) :
    ∃ s, Labelled f n ty s ∧ f.textOf c = some s := by
  obtain ⟨s, hs⟩ := textOf_some hf (first_isNode hf h)
  exact ⟨s, ⟨c, h, hs⟩, hs⟩

omit hf in
theorem firstChild_unique {n c d : Nat} {P : Nat → Prop} (h1 : FirstChild f n P c) (h2 : FirstChild f n P d) :
    c = d := by
  obtain ⟨cs, e, h1⟩ := h1
  obtain ⟨cs', e', h2⟩ := h2
  rw [e] at e'
  cases e'
  exact first_unique h1 h2

omit hf in
theorem labelled_unique {n : Nat} {ty : NodeType} {s t : List UInt8} (h1 : Labelled f n ty s)
    (h2 : Labelled f n ty t) : s = t := by
  obtain ⟨c, h1, e1⟩ := h1
  obtain ⟨d, h2, e2⟩ := h2
  cases firstChild_unique h1 h2
  rw [e1] at e2
  simpa using e2

theorem referenceName_iff {n : Nat} (hn : IsNode f n) {s : List UInt8} :
    f.referenceName n = some s ↔ RefName f n s := by
  unfold File.referenceName RefName
  cases hc : (kids f n).find? (fun c => (dat f c).ty == Ty.ident) with
  | some c =>
    have h := (ofType_find hf hn _).2 hc
    simp only [childOfType_eq hf hn, hc, Option.bind_eq_bind, Option.bind_some]
    constructor
    · intro ht; exact .inl ⟨c, h, ht⟩
    · rintro (⟨d, hd, ht⟩ | ⟨hno, -⟩)
      · cases firstChild_unique hd h; exact ht
      · obtain ⟨s', hs', -⟩ := labelled_first hf h
        exact absurd hs' (hno s')
  | none =>
    simp only [childOfType_eq hf hn, hc, Option.bind_eq_bind, Option.bind_some, childText_iff hf hn]
    have hno : ∀ s', ¬ Ident f n s' := by
      rintro s' ⟨c, h, -⟩
      have := (ofType_find hf hn _).1 h
      simp only [Ty.ident] at hc
      rw [hc] at this
      cases this
    constructor
    · intro h; exact .inr ⟨hno, h⟩
    · rintro (h | ⟨-, h⟩)
      · exact absurd h (hno s)
      · exact h

theorem tokenName_iff {n : Nat} (hn : IsNode f n) {s : List UInt8} :
    f.tokenName n = some s ↔ TokenName f n s := by
  unfold File.tokenName TokenName File.lexNodeType
  cases hc : (kids f n).find? (fun c => (dat f c).ty == Ty.string) with
  | some c =>
    have h := (ofType_find hf hn _).2 hc
    obtain ⟨r, hr, ht⟩ := labelled_first hf h
    simp only [childOfType_eq hf hn, hc, Option.bind_eq_bind, Option.bind_some, ht]
    by_cases hq : startsWithByte 39 r = true
    · rw [if_pos hq]
      obtain ⟨q, rfl⟩ : ∃ q, r = 39 :: q := by
        cases r with
        | nil => simp [startsWithByte] at hq
        | cons b q => simp [startsWithByte] at hq; exact ⟨q, by rw [hq]⟩
      simp only [Option.pure_def, Option.some.injEq]
      constructor
      · rintro rfl; exact .inl ⟨hr, q, rfl⟩
      · rintro (⟨h1, -⟩ | ⟨h1, -⟩)
        · exact labelled_unique hr h1
        · exact absurd hr (h1 q)
    · rw [if_neg hq, childText_iff hf hn]
      have hno : ∀ q, ¬ Labelled f n 147 (39 :: q) := by
        intro q h1
        cases labelled_unique hr h1
        simp [startsWithByte] at hq
      constructor
      · intro h1; exact .inr ⟨hno, h1⟩
      · rintro (⟨h1, q, rfl⟩ | ⟨-, h1⟩)
        · exact absurd h1 (hno q)
        · exact h1
  | none =>
    simp only [childOfType_eq hf hn, hc, Option.bind_eq_bind, Option.bind_some, childText_iff hf hn]
    have hno : ∀ s', ¬ Labelled f n 147 s' := by
      rintro s' ⟨c, h, -⟩
      have := (ofType_find hf hn _).1 h
      simp only [Ty.string] at hc
      rw [hc] at this
      cases this
    constructor
    · intro h; exact .inr ⟨fun q => hno _, h⟩
    · rintro (⟨h, -⟩ | ⟨-, h⟩)
      · exact absurd h (hno s)
      · exact h

/-! ## Lists -/

omit hf in
theorem first_filter {xs : List Nat} {p : Nat → Bool} {P : Nat → Prop} {x : Nat} :
    First (xs.filter p) P x ↔ First xs (fun y => p y = true ∧ P y) x := by
  classical
  have e1 : First (xs.filter p) P x ↔ (xs.filter p).find? (fun y => decide (P y)) = some x := by
    rw [first_find]; exact first_congr (by simp)
  have e2 : First xs (fun y => p y = true ∧ P y) x ↔ xs.find? (fun y => p y && decide (P y)) = some x := by
    rw [first_find]; exact first_congr (by simp)
  rw [e1, e2, List.find?_filter]
  simp [Bool.decide_and]

omit hf in
theorem last_reverse {xs : List Nat} {P : Nat → Prop} {x : Nat} : Last xs P x ↔ First xs.reverse P x := by
  constructor
  · rintro ⟨pre, post, rfl, h1, h2⟩
    exact ⟨post.reverse, pre.reverse, by simp, h1, by simpa using h2⟩
  · rintro ⟨pre, post, e, h1, h2⟩
    refine ⟨post.reverse, pre.reverse, ?_, h1, by simpa using h2⟩
    have := congrArg List.reverse e
    simpa using this

omit hf in
theorem last_filter {xs : List Nat} {p : Nat → Bool} {P : Nat → Prop} {x : Nat} :
    Last (xs.filter p) P x ↔ Last xs (fun y => p y = true ∧ P y) x := by
  rw [last_reverse, last_reverse, ← List.filter_reverse, first_filter]

omit hf in
theorem last_congr {xs : List Nat} {P R : Nat → Prop} {x : Nat} (h : ∀ y ∈ xs, P y ↔ R y) :
    Last xs P x ↔ Last xs R x := by
  rw [last_reverse, last_reverse]
  exact first_congr (by simpa using h)

omit hf in
theorem first_cons {z : Nat} {xs : List Nat} {P : Nat → Prop} {x : Nat} :
    First (z :: xs) P x ↔ (P z ∧ x = z) ∨ (¬ P z ∧ First xs P x) := by
  constructor
  · rintro ⟨pre, post, e, h1, h2⟩
    cases pre with
    | nil =>
      simp only [List.nil_append, List.cons.injEq] at e
      obtain ⟨rfl, rfl⟩ := e
      exact .inl ⟨h1, rfl⟩
    | cons w pre =>
      simp only [List.cons_append, List.cons.injEq] at e
      obtain ⟨rfl, rfl⟩ := e
      exact .inr ⟨h2 _ (by simp), pre, post, rfl, h1, fun y hy => h2 y (by simp [hy])⟩
  · rintro (⟨h, rfl⟩ | ⟨h, pre, post, rfl, h1, h2⟩)
    · exact ⟨[], xs, rfl, h, by simp⟩
    · exact ⟨z :: pre, post, rfl, h1, by simpa [h] using h2⟩

omit hf in
theorem last_cons {z : Nat} {xs : List Nat} {P : Nat → Prop} {x : Nat} :
    Last (z :: xs) P x ↔ Last xs P x ∨ ((∀ y ∈ xs, ¬ P y) ∧ P z ∧ x = z) := by
  constructor
  · rintro ⟨pre, post, e, h1, h2⟩
    cases pre with
    | nil =>
      simp only [List.nil_append, List.cons.injEq] at e
      obtain ⟨rfl, rfl⟩ := e
      exact .inr ⟨h2, h1, rfl⟩
    | cons w pre =>
      simp only [List.cons_append, List.cons.injEq] at e
      obtain ⟨rfl, rfl⟩ := e
      exact .inl ⟨pre, post, rfl, h1, h2⟩
  · rintro (⟨pre, post, rfl, h1, h2⟩ | ⟨h1, h2, rfl⟩)
    · exact ⟨z :: pre, post, rfl, h1, h2⟩
    · exact ⟨[], xs, rfl, h2, h1⟩

omit hf in
theorem last_exists {xs : List Nat} {P : Nat → Prop} (h : ∃ x ∈ xs, P x) : ∃ x, Last xs P x := by
  obtain ⟨x, hx⟩ := first_exists (xs := xs.reverse) (P := P) (by simpa using h)
  exact ⟨x, last_reverse.2 hx⟩

omit hf in
theorem findNamed_some {get : Nat → Option (List UInt8)} {name : List UInt8} {xs : List Nat} {o : Option Nat}
    (h : File.findNamed get (some name) xs = some o) :
    (∀ x, o = some x ↔ First xs (fun x => get x = some name) x) := by
  induction xs with
  | nil =>
    simp only [File.findNamed, Option.some.injEq] at h
    subst h
    intro x
    constructor
    · intro h; cases h
    · intro h; exact absurd (first_mem h).1 (by simp)
  | cons n ns ih =>
    simp only [File.findNamed, Option.bind_eq_bind, Option.bind_some, Option.bind_eq_some_iff] at h
    obtain ⟨s, hs, h⟩ := h
    intro x
    rw [first_cons, hs]
    by_cases he : s = name
    · subst he
      simp only [beq_self_eq_true, if_true, Option.pure_def, Option.some.injEq] at h
      subst h
      simp [eq_comm]
    · have : (s == name) = false := by simpa using he
      rw [this] at h
      simp only [Bool.false_eq_true, if_false] at h
      simp [he, ih h x]

omit hf in
theorem sublist_pairwise {xs ys : List Nat} (h : xs.Sublist ys) : xs.Pairwise (fun a b => [a, b].Sublist ys) := by
  induction xs generalizing ys with
  | nil => exact .nil
  | cons x xs ih =>
    rw [List.pairwise_cons]
    refine ⟨fun y hy => ?_, ih (List.Sublist.trans (List.sublist_cons_self x xs) h)⟩
    refine List.Sublist.trans ?_ h
    exact (List.singleton_sublist.2 hy).cons_cons x

/-! ## Rules and tokens by name -/

omit hf in
theorem reports_nil {e : Bool} {m : String} : Reports f e m [] [] := ⟨[], by simp, rfl⟩

omit hf in
theorem reports_cons {e : Bool} {m : String} {n : Nat} {ns : List Nat} {ds : List Diagnostic} {r : TextRange}
    (hr : f.range n = some r) (h : Reports f e m ns ds) : Reports f e m (n :: ns) (⟨r, e, m⟩ :: ds) := by
  obtain ⟨rs, h1, rfl⟩ := h
  exact ⟨r :: rs, by simp [hr, h1], rfl⟩

omit hf in
theorem first_snoc {z : Nat} {xs : List Nat} {P : Nat → Prop} {x : Nat} :
    First (xs ++ [z]) P x ↔ First xs P x ∨ ((∀ y ∈ xs, ¬ P y) ∧ P z ∧ x = z) := by
  have e : ∀ ys, First ys P x ↔ Last ys.reverse P x := by
    intro ys; rw [last_reverse, List.reverse_reverse]
  rw [e, e, List.reverse_append, List.reverse_singleton, List.singleton_append, last_cons]
  simp

omit hf in
theorem first_none {xs : List Nat} {P : Nat → Prop} (h : ∀ x, ¬ First xs P x) : ∀ x ∈ xs, ¬ P x := by
  intro x hx hP
  obtain ⟨y, hy⟩ := first_exists ⟨x, hx, hP⟩
  exact h y hy

/-- The reported names of the rules after `pre`. -/
def dupSyn (f : File UInt8) (pre rules : List Nat) (i : Nat) : Prop :=
  ∃ mid r post s, rules = mid ++ r :: post ∧ FirstChild f r (OfType f 130) i ∧ Ident f r s ∧
    ∃ r' ∈ pre ++ mid, Ident f r' s

omit hf in
theorem dupSyn_cons {pre rules : List Nat} {rule i : Nat} :
    dupSyn f pre (rule :: rules) i ↔ (FirstChild f rule (OfType f 130) i ∧ ∃ s, Ident f rule s ∧
      ∃ r' ∈ pre, Ident f r' s) ∨ dupSyn f (pre ++ [rule]) rules i := by
  constructor
  · rintro ⟨mid, r, post, s, e, h1, h2, h3⟩
    cases mid with
    | nil =>
      simp only [List.nil_append, List.cons.injEq] at e
      obtain ⟨rfl, rfl⟩ := e
      exact .inl ⟨h1, s, h2, by simpa using h3⟩
    | cons w mid =>
      simp only [List.cons_append, List.cons.injEq] at e
      obtain ⟨rfl, rfl⟩ := e
      exact .inr ⟨mid, r, post, s, rfl, h1, h2, by simpa using h3⟩
  · rintro (⟨h1, s, h2, h3⟩ | ⟨mid, r, post, s, rfl, h1, h2, h3⟩)
    · exact ⟨[], rule, rules, s, rfl, h1, h2, by simpa using h3⟩
    · exact ⟨rule :: mid, r, post, s, rfl, h1, h2, by simpa using h3⟩

/-- The nodes are below different rules, in this order. -/
def InOrder (f : File UInt8) (rules : List Nat) (i j : Nat) : Prop :=
  ∃ r r', [r, r'].Sublist rules ∧ Desc f r i ∧ Desc f r' j

omit hf in
theorem InOrder.cons {rules : List Nat} {i j : Nat} (h : InOrder f rules i j) (r : Nat) :
    InOrder f (r :: rules) i j := by
  obtain ⟨a, b, h1, h2, h3⟩ := h
  exact ⟨a, b, h1.cons r, h2, h3⟩

omit hf in
theorem pairwise_inOrder {rules is : List Nat} {rule i : Nat} (h : is.Pairwise (InOrder f rules))
    (hd : Desc f rule i) (hm : ∀ j ∈ is, ∃ r ∈ rules, Desc f r j) :
    (i :: is).Pairwise (InOrder f (rule :: rules)) := by
  rw [List.pairwise_cons]
  refine ⟨fun j hj => ?_, h.imp fun h => h.cons rule⟩
  obtain ⟨r, hr, hj⟩ := hm j hj
  exact ⟨rule, r, (List.singleton_sublist.2 hr).cons_cons rule, hd, hj⟩

omit hf in
theorem firstChild_desc {n c : Nat} {P : Nat → Prop} (h : FirstChild f n P c) : Desc f n c := by
  obtain ⟨cs, h1, h2⟩ := h
  exact .step ⟨cs, h1, (first_mem h2).1⟩ (.refl c)

theorem allSynRulesGo_eval {body : (q : Query) → AProg (Value q)} {pre rules : List Nat}
    (hr : ∀ r ∈ rules, IsNode f r) {result all : List (List UInt8 × Nat)} {ds : List Diagnostic}
    (h : Eval body (allSynRulesGo f rules result) (some all) ds)
    (hres : ∀ s r, result.lookup s = some r ↔ First pre (fun r => Ident f r s) r) :
    (∀ s r, all.lookup s = some r ↔ First (pre ++ rules) (fun r => Ident f r s) r) ∧
    ∃ is, (∀ i, i ∈ is ↔ dupSyn f pre rules i) ∧ is.Pairwise (InOrder f rules) ∧
      Reports f true "Duplicate rule" is ds := by
  induction rules generalizing pre result ds with
  | nil =>
    simp only [allSynRulesGo] at h
    obtain ⟨h, rfl⟩ := eval_pure.1 h
    cases h
    refine ⟨by simpa using hres, [], ?_, .nil, reports_nil⟩
    simp [dupSyn]
  | cons rule rules ih =>
    have hn := hr rule (by simp)
    have hr' : ∀ r ∈ rules, IsNode f r := fun r h => hr r (by simp [h])
    simp only [allSynRulesGo, eval_bind_some, eval_lift] at h
    obtain ⟨o, _, _, ⟨ho, rfl⟩, h, rfl⟩ := h
    simp only [File.ruleIdent, childOfType_some hf hn, Ty.ident] at ho
    cases o with
    | none =>
      simp only at ho h
      have hno : ∀ s, ¬ Ident f rule s := fun s ⟨c, hc, _⟩ => ho c hc
      have hres' : ∀ s r, result.lookup s = some r ↔ First (pre ++ [rule]) (fun r => Ident f r s) r := by
        intro s r
        rw [hres, first_snoc]
        simp [hno]
      obtain ⟨h1, is, h2, h3, h4⟩ := ih hr' h hres'
      refine ⟨by simpa using h1, is, fun i => ?_, h3.imp fun h => h.cons rule, h4⟩
      rw [h2, dupSyn_cons]
      constructor
      · exact .inr
      · rintro (⟨hc, -⟩ | h)
        · exact absurd hc (ho i)
        · exact h
    | some ident =>
      simp only at ho h
      rw [eval_bind_some] at h
      obtain ⟨name, _, _, hname, h, rfl⟩ := h
      obtain ⟨ht, rfl⟩ := eval_lift.1 hname
      have hid : Ident f rule name := ⟨ident, ho, ht⟩
      have hid' : ∀ s, Ident f rule s ↔ s = name :=
        fun s => ⟨fun h => labelled_unique h hid, fun h => h ▸ hid⟩
      cases hl : result.lookup name with
      | some r0 =>
        simp only [hl, Option.isSome_some, if_true] at h
        rw [eval_bind_some] at h
        obtain ⟨_, _, _, he, h, rfl⟩ := h
        obtain ⟨rr, hrr, rfl⟩ := eval_error.1 he
        have hf0 := (hres name r0).1 hl
        have hres' : ∀ s r, result.lookup s = some r ↔ First (pre ++ [rule]) (fun r => Ident f r s) r := by
          intro s r
          rw [hres, first_snoc]
          constructor
          · exact .inl
          · rintro (h | ⟨h1, h2, rfl⟩)
            · exact h
            · obtain rfl := (hid' s).1 h2
              exact absurd (first_mem hf0).2 (h1 r0 (first_mem hf0).1)
        obtain ⟨h1, is, h2, h3, h4⟩ := ih hr' h hres'
        refine ⟨by simpa using h1, ident :: is, fun i => ?_, ?_, ?_⟩
        · rw [dupSyn_cons, List.mem_cons, h2]
          constructor
          · rintro (rfl | h)
            · exact .inl ⟨ho, name, hid, r0, (first_mem hf0).1, (first_mem hf0).2⟩
            · exact .inr h
          · rintro (⟨h, -⟩ | h)
            · exact .inl (firstChild_unique h ho)
            · exact .inr h
        · apply pairwise_inOrder h3 (firstChild_desc ho)
          intro j hj
          obtain ⟨mid, r, post, s, rfl, hc, -⟩ := (h2 j).1 hj
          exact ⟨r, by simp, firstChild_desc hc⟩
        · simpa using reports_cons hrr h4
      | none =>
        simp only [hl, Option.isSome_none, Bool.false_eq_true, if_false] at h
        have hno : ∀ r ∈ pre, ¬ Ident f r name := by
          apply first_none (P := fun r => Ident f r name)
          intro x hx
          rw [(hres name x).2 hx] at hl
          cases hl
        have hres' : ∀ s r, ((name, rule) :: result).lookup s = some r ↔
            First (pre ++ [rule]) (fun r => Ident f r s) r := by
          intro s r
          rw [first_snoc, List.lookup_cons]
          by_cases hs : s = name
          · subst hs
            simp only [beq_self_eq_true, Option.some.injEq]
            constructor
            · rintro rfl; exact .inr ⟨hno, hid, rfl⟩
            · rintro (h | ⟨-, -, rfl⟩)
              · exact absurd (first_mem h).2 (hno r (first_mem h).1)
              · rfl
          · have : (s == name) = false := by simpa using hs
            simp only [this, hres]
            constructor
            · exact .inl
            · rintro (h | ⟨-, h, -⟩)
              · exact h
              · exact absurd ((hid' s).1 h) hs
        obtain ⟨h1, is, h2, h3, h4⟩ := ih hr' h hres'
        refine ⟨by simpa using h1, is, fun i => ?_, h3.imp fun h => h.cons rule, by simpa using h4⟩
        rw [h2, dupSyn_cons]
        constructor
        · exact .inr
        · rintro (⟨-, s, hs, r', hr', h'⟩ | h)
          · obtain rfl := (hid' s).1 hs
            exact absurd h' (hno r' hr')
          · exact h

omit hf in
theorem last_snoc {z : Nat} {xs : List Nat} {P : Nat → Prop} {x : Nat} :
    Last (xs ++ [z]) P x ↔ (P z ∧ x = z) ∨ (¬ P z ∧ Last xs P x) := by
  rw [last_reverse, last_reverse, List.reverse_append, List.reverse_singleton, List.singleton_append, first_cons]

omit hf in
theorem tokenName_unique {t : Nat} {s s' : List UInt8} (h : TokenName f t s) (h' : TokenName f t s') : s = s' := by
  rcases h with ⟨h, q, rfl⟩ | ⟨h1, h2⟩
  · rcases h' with ⟨h', -⟩ | ⟨h', -⟩
    · exact labelled_unique h h'
    · exact absurd h (h' q)
  · rcases h' with ⟨h', q, rfl⟩ | ⟨-, h'⟩
    · exact absurd h' (h1 q)
    · exact labelled_unique h2 h'

/-- The reported tokens after `pre`. -/
def dupLex (f : File UInt8) (pre rules : List Nat) (t : Nat) : Prop :=
  ∃ mid post s, rules = mid ++ t :: post ∧ Ident f t s ∧ ∃ t' ∈ pre ++ mid, Ident f t' s

omit hf in
theorem dupLex_cons {pre rules : List Nat} {rule i : Nat} :
    dupLex f pre (rule :: rules) i ↔ (i = rule ∧ ∃ s, Ident f rule s ∧ ∃ r' ∈ pre, Ident f r' s) ∨
      dupLex f (pre ++ [rule]) rules i := by
  constructor
  · rintro ⟨mid, post, s, e, h2, h3⟩
    cases mid with
    | nil =>
      simp only [List.nil_append, List.cons.injEq] at e
      obtain ⟨rfl, rfl⟩ := e
      exact .inl ⟨rfl, s, h2, by simpa using h3⟩
    | cons w mid =>
      simp only [List.cons_append, List.cons.injEq] at e
      obtain ⟨rfl, rfl⟩ := e
      exact .inr ⟨mid, post, s, rfl, h2, by simpa using h3⟩
  · rintro (⟨rfl, s, h2, h3⟩ | ⟨mid, post, s, rfl, h2, h3⟩)
    · exact ⟨[], rules, s, rfl, h2, by simpa using h3⟩
    · exact ⟨rule :: mid, post, s, rfl, h2, by simpa using h3⟩

theorem allLexRulesGo_eval {body : (q : Query) → AProg (Value q)} {pre rules : List Nat}
    (hr : ∀ r ∈ rules, IsNode f r) {result all : List (List UInt8 × Nat)} {tys : List (List UInt8)}
    {ds : List Diagnostic} (h : Eval body (allLexRulesGo f rules result tys) (some all) ds)
    (hres : ∀ s r, result.lookup s = some r ↔ Last pre (fun r => TokenName f r s) r)
    (htys : ∀ s, s ∈ tys ↔ ∃ r ∈ pre, Ident f r s) :
    (∀ s r, all.lookup s = some r ↔ Last (pre ++ rules) (fun r => TokenName f r s) r) ∧
    ∃ is, (∀ i, i ∈ is ↔ dupLex f pre rules i) ∧ is.Pairwise (InOrder f rules) ∧
      Reports f true "Duplicate token" is ds := by
  induction rules generalizing pre result tys ds with
  | nil =>
    simp only [allLexRulesGo] at h
    obtain ⟨h, rfl⟩ := eval_pure.1 h
    cases h
    refine ⟨by simpa using hres, [], ?_, .nil, reports_nil⟩
    simp [dupLex]
  | cons rule rules ih =>
    have hn := hr rule (by simp)
    have hr' : ∀ r ∈ rules, IsNode f r := fun r h => hr r (by simp [h])
    simp only [allLexRulesGo] at h
    rw [eval_bind_some] at h
    obtain ⟨name, _, _, h1, h, rfl⟩ := h
    obtain ⟨hname, rfl⟩ := eval_lift.1 h1
    rw [eval_bind_some] at h
    obtain ⟨ty, _, _, h1, h, rfl⟩ := h
    obtain ⟨hty, rfl⟩ := eval_lift.1 h1
    rw [tokenName_iff hf hn] at hname
    simp only [File.lexNodeType, childText_iff hf hn, Ty.ident] at hty
    have hid' : ∀ s, Ident f rule s ↔ s = ty :=
      fun s => ⟨fun h => labelled_unique h hty, fun h => h ▸ hty⟩
    have hres' : ∀ s r, ((name, rule) :: result).lookup s = some r ↔
        Last (pre ++ [rule]) (fun r => TokenName f r s) r := by
      intro s r
      rw [last_snoc, List.lookup_cons]
      by_cases hs : s = name
      · subst hs
        simp [hname, eq_comm]
      · have : (s == name) = false := by simpa using hs
        simp only [this, hres]
        have hno : ¬ TokenName f rule s := fun h => hs (tokenName_unique h hname)
        simp [hno]
    by_cases hc : tys.contains ty = true
    · rw [if_pos hc, eval_bind_some] at h
      obtain ⟨_, _, _, he, h, rfl⟩ := h
      obtain ⟨rr, hrr, rfl⟩ := eval_error.1 he
      have hmem := (htys ty).1 (by simpa using hc)
      have htys' : ∀ s, s ∈ tys ↔ ∃ r ∈ pre ++ [rule], Ident f r s := by
        intro s
        rw [htys]
        constructor
        · rintro ⟨r, hr, h⟩; exact ⟨r, by simp [hr], h⟩
        · rintro ⟨r, hr, hi⟩
          rw [List.mem_append, List.mem_singleton] at hr
          rcases hr with hr | rfl
          · exact ⟨r, hr, hi⟩
          · obtain rfl := (hid' s).1 hi; exact hmem
      obtain ⟨h1, is, h2, h3, h4⟩ := ih hr' h hres' htys'
      refine ⟨by simpa using h1, rule :: is, fun i => ?_, ?_, by simpa using reports_cons hrr h4⟩
      · rw [dupLex_cons, List.mem_cons, h2]
        constructor
        · rintro (rfl | h)
          · exact .inl ⟨rfl, ty, hty, hmem⟩
          · exact .inr h
        · rintro (⟨h, -⟩ | h)
          · exact .inl h
          · exact .inr h
      · apply pairwise_inOrder h3 (.refl rule)
        intro j hj
        obtain ⟨mid, post, s, rfl, -⟩ := (h2 j).1 hj
        exact ⟨j, by simp, .refl j⟩
    · rw [if_neg hc] at h
      have hno : ¬ ∃ r ∈ pre, Ident f r ty := by
        rw [← htys]; simpa using hc
      have htys' : ∀ s, s ∈ ty :: tys ↔ ∃ r ∈ pre ++ [rule], Ident f r s := by
        intro s
        rw [List.mem_cons, htys]
        constructor
        · rintro (rfl | ⟨r, hr, h⟩)
          · exact ⟨rule, by simp, hty⟩
          · exact ⟨r, by simp [hr], h⟩
        · rintro ⟨r, hr, hi⟩
          rw [List.mem_append, List.mem_singleton] at hr
          rcases hr with hr | rfl
          · exact .inr ⟨r, hr, hi⟩
          · exact .inl ((hid' s).1 hi)
      obtain ⟨h1, is, h2, h3, h4⟩ := ih hr' h hres' htys'
      refine ⟨by simpa using h1, is, fun i => ?_, h3.imp fun h => h.cons rule, by simpa using h4⟩
      rw [h2, dupLex_cons]
      constructor
      · exact .inr
      · rintro (⟨-, s, hs, h'⟩ | h)
        · obtain rfl := (hid' s).1 hs
          exact absurd h' hno
        · exact h

/-! ## Queries for all rules and tokens -/

theorem zero_isNode : IsNode f 0 := root_isNode hf.nodes

/-- The typed children as a list. -/
theorem mem_astChildren {n : Nat} (hn : IsNode f n) (ty : NodeType) {c : Nat} :
    c ∈ (kids f n).filter (fun c => (dat f c).ty == ty) ↔ Child f n c ∧ OfType f ty c := by
  rw [List.mem_filter, child_iff]
  constructor
  · rintro ⟨h1, h2⟩
    exact ⟨⟨hn, h1⟩, by simpa [OfType, ty_dat (kids_isNode hf hn c h1)] using h2⟩
  · rintro ⟨⟨-, h1⟩, h2⟩
    exact ⟨h1, by simpa [OfType, ty_dat (kids_isNode hf hn c h1)] using h2⟩

theorem first_typed {n : Nat} (hn : IsNode f n) (ty : NodeType) {P : Nat → Prop} {x : Nat} :
    First ((kids f n).filter fun c => (dat f c).ty == ty) P x ↔ FirstChild f n (fun c => OfType f ty c ∧ P c) x := by
  rw [first_filter, firstChild_iff hn]
  apply first_congr
  intro y hy
  simp [OfType, ty_dat (kids_isNode hf hn y hy)]

theorem last_typed {n : Nat} (hn : IsNode f n) (ty : NodeType) {P : Nat → Prop} {x : Nat} :
    Last ((kids f n).filter fun c => (dat f c).ty == ty) P x ↔ LastChild f n (fun c => OfType f ty c ∧ P c) x := by
  rw [last_filter]
  simp only [LastChild, children_kids hn, Option.some.injEq, exists_eq_left']
  apply last_congr
  intro y hy
  simp [OfType, ty_dat (kids_isNode hf hn y hy)]

omit hf in
theorem sublist_filter {xs ys : List Nat} {p : Nat → Bool} (h : xs.Sublist ys) (hp : ∀ x ∈ xs, p x = true) :
    xs.Sublist (ys.filter p) := by
  have := h.filter p
  rwa [List.filter_eq_self.2 hp] at this

omit hf in
theorem pair_split {xs : List Nat} {a b : Nat} : [a, b].Sublist xs ↔ ∃ mid post, xs = mid ++ b :: post ∧ a ∈ mid := by
  constructor
  · intro h
    induction xs with
    | nil => cases h
    | cons x xs ih =>
      cases h with
      | cons _ h =>
        obtain ⟨mid, post, rfl, hm⟩ := ih h
        exact ⟨x :: mid, post, rfl, by simp [hm]⟩
      | cons_cons _ h =>
        rw [List.singleton_sublist] at h
        obtain ⟨s, t, rfl⟩ := List.append_of_mem h
        exact ⟨a :: s, t, rfl, by simp⟩
  · rintro ⟨mid, post, rfl, hm⟩
    exact (List.singleton_sublist.2 hm).append ((List.nil_sublist post).cons_cons b)

theorem siblings_iff {n : Nat} (hn : IsNode f n) (ty : NodeType) {P : Nat → Prop} {a b : Nat} :
    Siblings f n (fun c => OfType f ty c ∧ P c) a b ↔
      [a, b].Sublist ((kids f n).filter fun c => (dat f c).ty == ty) ∧ P a ∧ P b := by
  simp only [Siblings, children_kids hn, Option.some.injEq, exists_eq_left']
  constructor
  · rintro ⟨h, ⟨h1, h2⟩, h3, h4⟩
    refine ⟨sublist_filter h ?_, h2, h4⟩
    intro x hx
    have hx' := h.subset hx
    have : OfType f ty x := by
      simp only [List.mem_cons, List.not_mem_nil, or_false] at hx
      rcases hx with rfl | rfl
      · exact h1
      · exact h3
    simpa [OfType, ty_dat (kids_isNode hf hn x hx')] using this
  · rintro ⟨h, h2, h4⟩
    have ha := (mem_astChildren hf hn ty).1 (h.subset (List.mem_cons_self ..))
    have hb := (mem_astChildren hf hn ty).1 (h.subset (show b ∈ [a, b] by simp))
    exact ⟨h.trans List.filter_sublist, ⟨ha.2, h2⟩, hb.2, h4⟩

theorem inOrder_before {n : Nat} (hn : IsNode f n) {p : Nat → Bool} {is : List Nat}
    (h : is.Pairwise (InOrder f ((kids f n).filter p))) : is.Pairwise (Before f) := by
  refine h.imp ?_
  rintro i j ⟨r, r', h1, h2, h3⟩
  exact ⟨n, kids f n, r, r', children_kids hn, h1.trans List.filter_sublist, h2, h3⟩

theorem allSynRules_eval {body : (q : Query) → AProg (Value q)} {all : List (List UInt8 × Nat)}
    {ds : List Diagnostic} (h : Eval body (allSynRules f) (some all) ds) :
    (∀ s r, all.lookup s = some r ↔ RuleNamed f s r) ∧
    ∃ is, (∀ i, i ∈ is ↔ DuplicateRule f i) ∧ is.Pairwise (Before f) ∧ Reports f true "Duplicate rule" is ds := by
  have h0 := zero_isNode hf
  unfold allSynRules at h
  rw [eval_bind_some] at h
  obtain ⟨rules, _, _, h1, h, rfl⟩ := h
  obtain ⟨hr, rfl⟩ := eval_lift.1 h1
  simp only [File.synRules, File.root, astChildren_eq hf h0, Option.some.injEq, Ty.synRule] at hr
  subst hr
  obtain ⟨h2, is, h3, h4, h5⟩ := allSynRulesGo_eval hf (pre := []) (fun r hr => kids_isNode hf h0 r
    (List.mem_filter.1 hr).1) h (fun s r => ⟨fun h => by simp at h, fun h => absurd (first_mem h).1 (by simp)⟩)
  refine ⟨fun s r => ?_, is, fun i => ?_, inOrder_before hf h0 h4, h5⟩
  · rw [h2, List.nil_append, first_typed hf h0]; rfl
  · rw [h3]
    unfold DuplicateRule
    simp only [siblings_iff hf h0, pair_split]
    constructor
    · rintro ⟨mid, r, post, s, e, h6, h7, r', h8, h9⟩
      exact ⟨r', r, s, ⟨⟨mid, post, e, by simpa using h8⟩, h9, h7⟩, h6⟩
    · rintro ⟨r', r, s, ⟨⟨mid, post, e, h8⟩, h9, h7⟩, h6⟩
      exact ⟨mid, r, post, s, e, h6, h7, r', by simpa using h8, h9⟩

theorem allLexRules_eval {body : (q : Query) → AProg (Value q)} {all : List (List UInt8 × Nat)}
    {ds : List Diagnostic} (h : Eval body (allLexRules f) (some all) ds) :
    (∀ s r, all.lookup s = some r ↔ TokenNamed f s r) ∧
    ∃ is, (∀ i, i ∈ is ↔ DuplicateToken f i) ∧ is.Pairwise (Before f) ∧
      Reports f true "Duplicate token" is ds := by
  have h0 := zero_isNode hf
  unfold allLexRules at h
  rw [eval_bind_some] at h
  obtain ⟨rules, _, _, h1, h, rfl⟩ := h
  obtain ⟨hr, rfl⟩ := eval_lift.1 h1
  simp only [File.lexRules, File.root, Option.bind_eq_bind, Option.bind_eq_some_iff] at hr
  obtain ⟨o, ho, hr⟩ := hr
  rw [firstChild_some hf h0] at ho
  cases o with
  | none =>
    simp only [Option.pure_def, Option.some.injEq] at hr ho
    subst hr
    simp only [allLexRulesGo] at h
    obtain ⟨h, rfl⟩ := eval_pure.1 h
    cases h
    refine ⟨fun s r => ⟨fun h => by simp at h, ?_⟩, [], fun i => ⟨fun h => by simp at h, ?_⟩, .nil, reports_nil⟩
    · rintro ⟨d, hd, -⟩; exact absurd hd (ho d)
    · rintro ⟨d, -, -, hd, -⟩; exact absurd hd (ho d)
  | some d =>
    simp only [Ty.tokenizerDef] at hr ho
    have hd := first_isNode hf ho
    simp only [astChildren_eq hf hd, Option.some.injEq, Ty.lexRule] at hr
    subst hr
    obtain ⟨h2, is, h3, h4, h5⟩ := allLexRulesGo_eval hf (pre := []) (fun r hr => kids_isNode hf hd r
      (List.mem_filter.1 hr).1) h (fun s r => ⟨fun h => by simp at h, fun ⟨a, b, e, _⟩ => by simp at e⟩)
      (fun s => by simp)
    refine ⟨fun s r => ?_, is, fun i => ?_, inOrder_before hf hd h4, h5⟩
    · rw [h2, List.nil_append, last_typed hf hd]
      constructor
      · intro h; exact ⟨d, ho, h⟩
      · rintro ⟨d', hd', h⟩
        cases firstChild_unique hd' ho
        exact h
    · rw [h3]
      constructor
      · rintro ⟨mid, post, s, e, h7, r', h8, h9⟩
        exact ⟨d, r', s, ho, (siblings_iff hf hd _).2 ⟨pair_split.2 ⟨mid, post, e, by simpa using h8⟩, h9, h7⟩⟩
      · rintro ⟨d', r', s, hd', h⟩
        cases firstChild_unique hd' ho
        obtain ⟨h6, h9, h7⟩ := (siblings_iff hf hd _).1 h
        obtain ⟨mid, post, e, h8⟩ := pair_split.1 h6
        exact ⟨mid, post, s, e, h7, r', by simpa using h8, h9⟩

/-! ## Contexts -/

omit hf in
theorem fallExpr_eq (ty : NodeType) : isFallExpr ty = FallExpr ty := by
  have : ∀ n : Nat, (n = 135 ∨ n = 140 ∨ n = 137 ∨ n = 138 ∨ n = 139 ∨ n = 136) ↔ 135 ≤ n ∧ n ≤ 140 := by omega
  rw [Bool.eq_iff_iff]
  simp only [FallExpr, isFallExpr, List.contains_iff_mem, List.mem_cons, List.not_mem_nil, or_false,
    decide_eq_true_eq]
  exact this ty

omit hf in
theorem split_first {xs : List UInt8} {q : UInt8} {s : Nat} :
    xs.findIdx? (· == q) = some s ↔ ∃ a b, xs = a ++ q :: b ∧ q ∉ a ∧ a.length = s := by
  constructor
  · intro h
    rw [List.findIdx?_eq_some_iff_getElem] at h
    obtain ⟨hs, h1, h2⟩ := h
    refine ⟨xs.take s, xs.drop (s + 1), ?_, ?_, by simp; omega⟩
    · have : xs[s] = q := by simpa using h1
      rw [← this, List.getElem_cons_drop, List.take_append_drop]
    · intro hm
      obtain ⟨j, hj, e⟩ := List.getElem_of_mem hm
      have hj' : j < s := by simp at hj; omega
      have := h2 j hj'
      rw [List.getElem_take] at e
      simp [e] at this
  · rintro ⟨a, b, rfl, h1, rfl⟩
    rw [List.findIdx?_eq_some_iff_getElem]
    refine ⟨by simp, by simp, fun j hj => ?_⟩
    rw [List.getElem_append_left hj]
    intro he
    apply h1
    have : a[j] = q := by simpa using he
    exact this ▸ List.getElem_mem hj

omit hf in
theorem litBody_iff {lit s : List UInt8} : litBody lit = some s ↔ Quoted lit s := by
  have hq : ∃ q : UInt8, (if startsWithByte 39 lit then 39 else 34) = q ∧
      ∀ q', ((∃ rest, lit = 39 :: rest) ∧ q' = 39 ∨ (∀ rest, lit ≠ 39 :: rest) ∧ q' = (34 : UInt8)) ↔ q' = q := by
    cases lit with
    | nil => exact ⟨34, by simp [startsWithByte], by simp⟩
    | cons b rest =>
      by_cases hb : b = 39
      · exact ⟨39, by simp [startsWithByte, hb], by simp [hb]⟩
      · exact ⟨34, by simp [startsWithByte, hb], by simp [hb]⟩
  obtain ⟨q, h1, h2⟩ := hq
  unfold litBody Quoted
  simp only [h1, h2, Option.bind_eq_bind, Option.bind_eq_some_iff, split_first, Option.pure_def, Option.some.injEq]
  constructor
  · rintro ⟨_, ⟨a, b, e1, ha, rfl⟩, _, ⟨c, d, e2, hc, rfl⟩, r, hr, rfl⟩
    have e3 : lit = d.reverse ++ q :: c.reverse := by
      have := congrArg List.reverse e2
      simpa using this
    simp only [TextRange.fromTo] at hr
    by_cases hle : a.length + 1 ≤ lit.length - 1 - c.length
    · rw [if_pos hle, Option.some.injEq] at hr
      subst hr
      have hl : lit.length = d.length + 1 + c.length := by rw [e3]; simp; omega
      have hd : lit.length - 1 - c.length = d.length := by omega
      rw [hd] at hle
      refine ⟨a, c.reverse, q, ?_, ha, by simpa using hc, rfl⟩
      simp only [hd]
      have h3 : lit.take d.length = d.reverse := by rw [e3]; simp
      have h4 : lit.drop d.length = q :: c.reverse := by rw [e3]; simp
      have h5 : lit.take (a.length + 1) = a ++ [q] := by rw [e1]; simp [List.take_append, List.take_of_length_le]
      rw [List.extract_eq_take_drop]
      rw [← h4]
      have h6 : a ++ q :: (lit.drop (a.length + 1)).take (d.length - (a.length + 1)) = lit.take d.length := by
        have : lit.take d.length = lit.take (a.length + 1) ++
            (lit.drop (a.length + 1)).take (d.length - (a.length + 1)) := by
          rw [← List.take_add]
          congr 1
          omega
        rw [this, h5]; simp
      rw [h6, List.take_append_drop]
    · rw [if_neg hle] at hr; cases hr
  · rintro ⟨a, b, q', e, ha, hb, rfl⟩
    refine ⟨a.length, ⟨a, s ++ q' :: b, by simpa using e, ha, rfl⟩, b.length,
      ⟨b.reverse, (a ++ q' :: s).reverse, by rw [e]; simp, by simpa using hb, by simp⟩,
      ⟨a.length + 1, a.length + 1 + s.length⟩, ?_, ?_⟩
    · have : lit.length - 1 - b.length = a.length + 1 + s.length := by rw [e]; simp; omega
      rw [this]
      simp [TextRange.fromTo]
    · rw [e, List.extract_eq_take_drop]
      have h1 : a ++ q' :: s ++ q' :: b = (a ++ [q']) ++ (s ++ q' :: b) := by simp
      rw [h1, List.drop_append_of_le_length (by simp)]
      simp

theorem callArgs_head {call : Nat} (hn : IsNode f call) {args : List Nat} (h : f.callArgs call = some args) (a : Nat) :
    args.head? = some a ↔ FirstChild f call (IsExpr f) a := by
  simp only [File.callArgs, astChildren_eq hf hn, Option.some.injEq] at h
  subst h
  rw [List.head?_filter, ← firstChild_find hf hn isFallExpr]
  simp only [fallExpr_eq]
  rfl

theorem contextName_some {call : Nat} (hn : IsNode f call) {o : Option (List UInt8)}
    (h : f.contextName call = some o) (s : List UInt8) : o = some s ↔ ContextName f call s := by
  unfold File.contextName at h
  simp only [Option.bind_eq_bind, Option.bind_eq_some_iff] at h
  obtain ⟨name, hname, h⟩ := h
  simp only [File.fnName, childText_iff hf hn, Ty.ident] at hname
  have hmem : (name == ascii "is_in" || name == ascii "enter" || name == ascii "exit") = true ↔
      name ∈ [ascii "is_in", ascii "enter", ascii "exit"] := by
    simp [or_assoc]
  by_cases hc : (name == ascii "is_in" || name == ascii "enter" || name == ascii "exit") = true
  · rw [hc] at h
    simp only [Bool.not_true, Bool.false_eq_true, if_false] at h
    rw [Option.bind_eq_some_iff] at h
    obtain ⟨args, hargs, h⟩ := h
    have hhead := callArgs_head hf hn hargs
    cases ha : args.head? with
    | none =>
      rw [ha] at h
      simp only [Option.pure_def, Option.some.injEq] at h
      subst h
      constructor
      · intro h; cases h
      · rintro ⟨_, arg, _, _, _, h1, _⟩
        have := (hhead arg).2 h1
        rw [ha] at this
        cases this
    | some arg =>
      have h1 := (hhead arg).1 ha
      have hna := first_isNode hf h1
      rw [ha] at h
      simp only [Option.bind_eq_some_iff] at h
      obtain ⟨c, hcc, h⟩ := h
      rw [childOfType_some hf hna] at hcc
      cases c with
      | none =>
        simp only [Option.pure_def, Option.some.injEq] at h hcc
        subst h
        constructor
        · intro h; cases h
        · rintro ⟨_, arg', _, _, _, h1', ⟨c, h2, _⟩, _⟩
          cases firstChild_unique h1 h1'
          exact absurd h2 (hcc c)
      | some c =>
        simp only at h hcc
        obtain ⟨lit, hl1, hl2⟩ := labelled_first hf hcc
        rw [hl2] at h
        simp only [Option.bind_some, Option.map_eq_map, Option.map_eq_some_iff] at h
        obtain ⟨b, hb, rfl⟩ := h
        rw [litBody_iff] at hb
        rw [Option.some.injEq]
        constructor
        · rintro rfl
          exact ⟨name, arg, lit, hname, hmem.1 hc, h1, hl1, hb⟩
        · rintro ⟨_, arg', lit', _, _, h1', hl1', hb'⟩
          cases firstChild_unique h1 h1'
          cases labelled_unique hl1 hl1'
          rw [← litBody_iff] at hb hb'
          rw [hb] at hb'
          simpa using hb'
  · have : (name == ascii "is_in" || name == ascii "enter" || name == ascii "exit") = false := by simpa using hc
    rw [this] at h
    simp only [Bool.not_false, if_true, Option.pure_def, Option.some.injEq] at h
    subst h
    constructor
    · intro h; cases h
    · rintro ⟨name', _, _, h1, h2, _⟩
      cases labelled_unique hname h1
      exact absurd (hmem.2 h2) hc

/-! ## References -/

theorem findSynRule_eval {name : List UInt8} {o : Option Nat} {ds : List Diagnostic}
    (h : Eval (analysisBody f) (findSynRule name) (some o) ds) :
    (∀ r, o = some r ↔ RuleNamed f name r) ∧ ds = [] := by
  unfold findSynRule at h
  rw [eval_bind_some] at h
  obtain ⟨all, _, _, h1, h, rfl⟩ := h
  obtain ⟨⟨ds', h1'⟩, rfl⟩ := eval_get.1 h1
  obtain ⟨h2, rfl⟩ := eval_pure.1 h
  cases h2
  exact ⟨(allSynRules_eval hf h1').1 name, rfl⟩

theorem findLexRule_eval {name : List UInt8} {o : Option Nat} {ds : List Diagnostic}
    (h : Eval (analysisBody f) (findLexRule name) (some o) ds) :
    (∀ r, o = some r ↔ TokenNamed f name r) ∧ ds = [] := by
  unfold findLexRule at h
  rw [eval_bind_some] at h
  obtain ⟨all, _, _, h1, h, rfl⟩ := h
  obtain ⟨⟨ds', h1'⟩, rfl⟩ := eval_get.1 h1
  obtain ⟨h2, rfl⟩ := eval_pure.1 h
  cases h2
  exact ⟨(allLexRules_eval hf h1').1 name, rfl⟩

theorem ruleParams_some {rule : Nat} (hn : IsNode f rule) {o : Option (List Nat)}
    (h : f.ruleParams rule = some o) :
    match o with
    | none => ∀ ps, ¬ FirstChild f rule (OfType f 133) ps
    | some l => ∃ ps, FirstChild f rule (OfType f 133) ps ∧ IsNode f ps ∧
        l = (kids f ps).filter fun c => (dat f c).ty == 134 := by
  unfold File.ruleParams at h
  simp only [Option.bind_eq_bind, Option.bind_eq_some_iff] at h
  obtain ⟨c, hc, h⟩ := h
  rw [firstChild_some hf hn] at hc
  cases c with
  | none =>
    simp only [Option.pure_def, Option.some.injEq] at h hc
    subst h
    exact hc
  | some ps =>
    simp only [Ty.parameters] at h hc
    have hp := first_isNode hf hc
    simp only [astChildren_eq hf hp, Option.map_eq_map, Option.map_some, Option.some.injEq, Ty.parameter] at h
    subst h
    exact ⟨ps, hc, hp, rfl⟩

theorem findParam {rule : Nat} (hn : IsNode f rule) {o : Option (List Nat)} (h : f.ruleParams rule = some o)
    {name : List UInt8} {p : Option Nat} (hp : File.findNamed f.paramName (some name) (o.getD []) = some p) (x : Nat) :
    p = some x ↔ ParamNamed f rule name x := by
  have h1 := ruleParams_some hf hn h
  rw [findNamed_some hp x]
  cases o with
  | none =>
    simp only at h1
    constructor
    · intro h; exact absurd (first_mem h).1 (by simp)
    · rintro ⟨ps, h, -⟩; exact absurd h (h1 ps)
  | some l =>
    obtain ⟨ps, h2, h3, rfl⟩ := h1
    simp only [Option.getD_some]
    have : First ((kids f ps).filter fun c => (dat f c).ty == 134) (fun x => f.paramName x = some name) x ↔
        First ((kids f ps).filter fun c => (dat f c).ty == 134) (fun x => Ident f x name) x := by
      apply first_congr
      intro y hy
      exact childText_iff hf (kids_isNode hf h3 y (List.mem_filter.1 hy).1) _
    rw [this, first_typed hf h3]
    constructor
    · intro h; exact ⟨ps, h2, h⟩
    · rintro ⟨ps', h2', h⟩
      cases firstChild_unique h2 h2'
      exact h

theorem enclosing_eval {n : Nat} (hn : IsNode f n) {o : Option Nat}
    (h : f.astAncestor (· == Ty.synRule) n = some o) :
    match o with
    | some r => EnclosingRule f n r ∧ IsNode f r
    | none => ∀ r, ¬ EnclosingRule f n r := by
  obtain ⟨res, h1, h2, h3⟩ := astAncestor_spec hf.nodes hn (· == Ty.synRule)
  rw [h] at h1
  cases h1
  cases o with
  | some r =>
    obtain ⟨h4, ⟨t, h5, h6⟩, h7⟩ := h2 r rfl
    have ht : t = 132 := by simpa [Ty.synRule] using h6
    subst ht
    refine ⟨⟨h4, h5, fun q hq ho => h7 q 132 hq ho (by simp [Ty.synRule])⟩, ?_⟩
    simp only [File.ty, File.data, Option.map_eq_some_iff] at h5
    obtain ⟨d, hd, -⟩ := h5
    exact isNode_of_getElem hd
  | none =>
    rintro r ⟨h4, h5, -⟩
    have := h3 rfl r 132 h4 h5
    simp [Ty.synRule] at this

theorem enclosing_unique {n r r' : Nat} (h : EnclosingRule f n r) (h' : EnclosingRule f n r') : r = r' := by
  have h1 := desc_le hf.nodes (h'.2.2 r h.1 h.2.1)
  have h2 := desc_le hf.nodes (h.2.2 r' h'.1 h'.2.1)
  omega

theorem parent_isNode {n p : Nat} (h : f.parent n = some (some p)) : IsNode f p := by
  simp only [File.parent, File.data, Option.map_eq_some_iff] at h
  obtain ⟨d, hd, hp⟩ := h
  have hn := isNode_of_getElem hd
  rw [← dat_of_getElem hd] at hp
  exact (parent_spec hf.nodes hn hp).1

theorem isContextArg_iff {ref : Nat} {b : Bool} (h : f.isContextArg ref = some b) :
    b = true ↔ NamesContext f ref := by
  unfold File.isContextArg at h
  simp only [Option.bind_eq_bind, Option.bind_eq_some_iff] at h
  obtain ⟨p, hp, h⟩ := h
  cases p with
  | none => cases h
  | some call =>
    have hc := parent_isNode hf hp
    simp only [Option.bind_eq_some_iff] at h
    obtain ⟨ty, hty, h⟩ := h
    by_cases ht : ty = 140
    · subst ht
      simp only [Ty.callExpr, beq_self_eq_true, if_true, Option.bind_eq_some_iff] at h
      obtain ⟨o, ho, h⟩ := h
      have hctx := contextName_some hf hc ho
      cases o with
      | some s =>
        simp only [Option.isSome_some, if_true, Option.bind_eq_some_iff, Option.pure_def, Option.some.injEq] at h
        obtain ⟨args, ha, rfl⟩ := h
        have hhead := callArgs_head hf hc ha ref
        simp only [beq_iff_eq, hhead]
        constructor
        · intro h; exact ⟨call, s, hp, hty, (hctx s).1 rfl, h⟩
        · rintro ⟨call', s', hp', -, -, h⟩
          rw [hp] at hp'
          cases hp'
          exact h
      | none =>
        simp only [Option.isSome_none, Bool.false_eq_true, if_false, Option.pure_def, Option.some.injEq] at h
        subst h
        constructor
        · intro h; cases h
        · rintro ⟨call', s', hp', -, h, -⟩
          rw [hp] at hp'
          cases hp'
          have := (hctx s').2 h
          cases this
    · have : (ty == Ty.callExpr) = false := by simpa [Ty.callExpr] using ht
      simp only [this, Bool.false_eq_true, if_false, Option.pure_def, Option.some.injEq] at h
      subst h
      constructor
      · intro h; cases h
      · rintro ⟨call', s', hp', h, -⟩
        rw [hp] at hp'
        cases hp'
        rw [OfType, hty] at h
        exact absurd (by simpa using h) ht

theorem resolveRef_eval {ref : Nat} (hn : IsNode f ref) {k : Option RefKind} {ds : List Diagnostic}
    (h : Eval (analysisBody f) (resolveRef f ref) (some k) ds) :
    ∃ s rule, RefName f ref s ∧ EnclosingRule f ref rule ∧ Means f rule s k ∧
      ((k = none ∧ ¬ NamesContext f ref ∧ Reports f true "Unresolved reference" [ref] ds) ∨
       ((k ≠ none ∨ NamesContext f ref) ∧ ds = [])) := by
  unfold resolveRef at h
  rw [eval_bind_some] at h
  obtain ⟨s, _, _, h1, h, rfl⟩ := h
  obtain ⟨hs, rfl⟩ := eval_lift.1 h1
  rw [referenceName_iff hf hn] at hs
  rw [eval_bind_some] at h
  obtain ⟨o, _, _, h1, h, rfl⟩ := h
  obtain ⟨hanc, rfl⟩ := eval_lift.1 h1
  rw [eval_bind_some] at h
  obtain ⟨rule, _, _, h1, h, rfl⟩ := h
  obtain ⟨rfl, rfl⟩ := eval_lift.1 h1
  obtain ⟨henc, hrn⟩ := enclosing_eval hf hn hanc
  rw [eval_bind_some] at h
  obtain ⟨ps, _, _, h1, h, rfl⟩ := h
  obtain ⟨hps, rfl⟩ := eval_lift.1 h1
  rw [eval_bind_some] at h
  obtain ⟨p, _, _, h1, h, rfl⟩ := h
  obtain ⟨hp, rfl⟩ := eval_lift.1 h1
  have hparam := findParam hf hrn hps hp
  refine ⟨s, rule, hs, henc, ?_⟩
  cases p with
  | some p =>
    obtain ⟨h2, rfl⟩ := eval_pure.1 h
    cases h2
    exact ⟨(hparam p).1 rfl, .inr ⟨.inl (by simp), rfl⟩⟩
  | none =>
    have hnp : ∀ p, ¬ ParamNamed f rule s p := fun p hp => by
      have := (hparam p).2 hp; cases this
    simp only at h
    rw [eval_bind_some] at h
    obtain ⟨r, _, _, h1, h, rfl⟩ := h
    obtain ⟨hrule, rfl⟩ := findSynRule_eval hf h1
    cases r with
    | some r =>
      obtain ⟨h2, rfl⟩ := eval_pure.1 h
      cases h2
      exact ⟨⟨hnp, (hrule r).1 rfl⟩, .inr ⟨.inl (by simp), rfl⟩⟩
    | none =>
      have hnr : ∀ r, ¬ RuleNamed f s r := fun r hr => by
        have := (hrule r).2 hr; cases this
      simp only at h
      rw [eval_bind_some] at h
      obtain ⟨t, _, _, h1, h, rfl⟩ := h
      obtain ⟨htok, rfl⟩ := findLexRule_eval hf h1
      cases t with
      | some t =>
        obtain ⟨h2, rfl⟩ := eval_pure.1 h
        cases h2
        exact ⟨⟨hnp, hnr, (htok t).1 rfl⟩, .inr ⟨.inl (by simp), rfl⟩⟩
      | none =>
        have hnt : ∀ t, ¬ TokenNamed f s t := fun t ht => by
          have := (htok t).2 ht; cases this
        simp only at h
        rw [eval_bind_some] at h
        obtain ⟨ctx, _, _, h1, h, rfl⟩ := h
        obtain ⟨hctx, rfl⟩ := eval_lift.1 h1
        have hctx' := isContextArg_iff hf hctx
        cases ctx with
        | true =>
          simp only [if_true] at h
          obtain ⟨h2, rfl⟩ := eval_pure.1 h
          cases h2
          exact ⟨⟨hnp, hnr, hnt⟩, .inr ⟨.inr (hctx'.1 rfl), rfl⟩⟩
        | false =>
          simp only [Bool.false_eq_true, if_false] at h
          rw [eval_bind_some] at h
          obtain ⟨_, _, _, h1, h, rfl⟩ := h
          obtain ⟨r, hr, rfl⟩ := eval_error.1 h1
          obtain ⟨h2, rfl⟩ := eval_pure.1 h
          cases h2
          refine ⟨⟨hnp, hnr, hnt⟩, .inl ⟨rfl, fun h => ?_, ?_⟩⟩
          · have := hctx'.2 h; cases this
          · simpa using reports_cons (f := f) (e := true) (m := "Unresolved reference") hr reports_nil

end

/-! ## Queries come to an end -/

section
variable {f : File UInt8} {body : (q : Query) → AProg (Value q)}

theorem ends_allLexRulesGo (rules : List Nat) (result : List (List UInt8 × Nat)) (tys : List (List UInt8)) :
    Ends body (allLexRulesGo f rules result tys) := by
  induction rules generalizing result tys with
  | nil => exact ends_pure _
  | cons rule rules ih =>
    refine ends_bind (ends_lift _) fun name => ends_bind (ends_lift _) fun ty => ?_
    split
    · exact ends_bind (ends_error ..) fun _ => ih _ _
    · exact ih _ _

theorem ends_allSynRulesGo (rules : List Nat) (result : List (List UInt8 × Nat)) :
    Ends body (allSynRulesGo f rules result) := by
  induction rules generalizing result with
  | nil => exact ends_pure _
  | cons rule rules ih =>
    refine ends_bind (ends_lift _) fun o => ?_
    split
    · exact ih _
    · refine ends_bind (ends_lift _) fun name => ?_
      split
      · exact ends_bind (ends_error ..) fun _ => ih _
      · exact ih _

theorem ends_contextWarnings (l : List (List UInt8 × Option Nat)) : Ends body (contextWarnings f l) := by
  induction l with
  | nil => exact ends_pure _
  | cons e l ih =>
    obtain ⟨k, o⟩ := e
    cases o with
    | none => exact ih
    | some c => exact ends_bind (ends_warning ..) fun _ => ih

theorem ends_expectArgs (call e g : Nat) : Ends body (expectArgs f call e g) := by
  unfold expectArgs
  split
  · exact ends_error ..
  · exact ends_pure _

theorem ends_traitRefs (ts : List (List UInt8 × Nat)) (l : List Nat) : Ends body (traitRefs f ts l) := by
  induction l with
  | nil => exact ends_pure _
  | cons r l ih =>
    refine ends_bind (ends_lift _) fun name => ?_
    split
    · exact ends_bind ih fun _ => ends_pure _
    · exact ends_bind (ends_error ..) fun _ => ih

theorem ends_prattOperator (rule ident : Nat) (kind : String) (prio : Option Nat) (parts : List Nat) :
    Ends body (prattOperator f rule ident kind prio parts) := by
  have he : ∀ (n : Nat) (m : String), Ends body (do error f n m; return (none : Option PrattVariant)) :=
    fun n m => ends_bind (ends_error ..) fun _ => ends_pure _
  refine ends_bind (ends_lift _) fun b => ?_
  split
  · split
    · exact ends_pure _
    · exact he ..
  · split
    · split
      · exact ends_pure _
      · exact he ..
    · split
      · exact ends_pure _
      · exact he ..
      · exact he ..

theorem ends_prattVariant (rule : Nat) : Ends body (prattVariant f rule) := by
  refine ends_bind (ends_lift _) fun o => ?_
  split
  · exact ends_pure _
  refine ends_bind (ends_lift _) fun o => ?_
  split
  · exact ends_pure _
  refine ends_bind (ends_lift _) fun o => ?_
  split
  · exact ends_pure _
  split
  · split
    · exact ends_bind (ends_error ..) fun _ => ends_bind (ends_lift _) fun _ => ends_pure _
    · exact ends_bind (ends_lift _) fun _ => ends_pure _
  · refine ends_bind (ends_lift _) fun b => ends_bind (ends_lift _) fun ty => ?_
    split
    · refine ends_bind (ends_lift _) fun alts => ?_
      split
      · refine ends_bind (ends_lift _) fun ty => ?_
        split
        · exact ends_bind (ends_lift _) fun _ => ends_prattOperator ..
        · exact ends_pure _
      · exact ends_bind (ends_error ..) fun _ => ends_pure _
    · exact ends_pure _

theorem ends_resolveMethod (m : Nat) : Ends body (resolveMethod f m) := by
  refine ends_bind (ends_lift _) fun s => ends_bind (ends_lift _) fun s => ends_bind (ends_lift _) fun a =>
    ends_bind (ends_lift _) fun b => ends_bind (ends_lift _) fun o => ?_
  split
  · exact ends_pure _
  · refine ends_bind (ends_lift _) fun d => ?_
    split
    · split
      · exact ends_pure _
      · exact ends_pure _
    · exact ends_pure _

end

section
variable {f : File UInt8}

theorem ends_findSynRule (s : List UInt8) : Ends (analysisBody f) (findSynRule s) :=
  ends_bind (ends_get (ends_bind (ends_lift _) fun _ => ends_allSynRulesGo ..)) fun _ => ends_pure _

theorem ends_findLexRule (s : List UInt8) : Ends (analysisBody f) (findLexRule s) :=
  ends_bind (ends_get (ends_bind (ends_lift _) fun _ => ends_allLexRulesGo ..)) fun _ => ends_pure _

theorem ends_resolveRef (n : Nat) : Ends (analysisBody f) (resolveRef f n) := by
  refine ends_bind (ends_lift _) fun s => ends_bind (ends_lift _) fun r => ends_bind (ends_lift _) fun r =>
    ends_bind (ends_lift _) fun ps => ends_bind (ends_lift _) fun p => ?_
  split
  · exact ends_pure _
  refine ends_bind (ends_findSynRule _) fun o => ?_
  split
  · exact ends_pure _
  refine ends_bind (ends_findLexRule _) fun o => ?_
  split
  · exact ends_pure _
  refine ends_bind (ends_lift _) fun b => ?_
  split
  · exact ends_pure _
  · exact ends_bind (ends_error ..) fun _ => ends_pure _

theorem ends_resolveContext (call : Nat) : Ends (analysisBody f) (resolveContext f call) := by
  refine ends_bind (ends_lift _) fun o => ?_
  split
  · exact ends_bind (ends_get (ends_bind (ends_lift _) fun _ => ends_bind (ends_contextWarnings _) fun _ =>
      ends_pure _)) fun _ => ends_pure _
  · exact ends_bind (ends_lift _) fun _ => ends_bind (ends_lift _) fun _ => ends_bind (ends_error ..) fun _ =>
      ends_pure _

theorem ends_prevIsArgs (call : Nat) (args : List Nat) : Ends (analysisBody f) (prevIsArgs f call args) := by
  induction args with
  | nil => exact ends_pure _
  | cons a args ih =>
    have : Ends (analysisBody f) (prevIsRule f a) := by
      refine ends_bind (ends_lift _) fun ty => ?_
      split
      · refine ends_bind (ends_get (ends_resolveRef _)) fun k => ?_
        split
        · exact ends_bind (ends_lift _) fun _ => ends_pure _
        · exact ends_pure _
      · exact ends_pure _
    refine ends_bind this fun o => ?_
    split
    · exact ends_bind ih fun _ => ends_pure _
    · exact ends_bind (ends_error ..) fun _ => ih

theorem ends_builtIn (call : Nat) (args : List Nat) (b : String × AProg (Option CallKind))
    (h : b ∈ builtIn f call args) : Ends (analysisBody f) b.2 := by
  have h0 : ∀ k : CallKind, Ends (analysisBody f) (do expectArgs f call 0 args.length; return some k) :=
    fun k => ends_bind (ends_expectArgs ..) fun _ => ends_pure _
  have h1 : ∀ k : Nat → AProg (Option CallKind), (∀ a, Ends (analysisBody f) (k a)) →
      Ends (analysisBody f) (do
        expectArgs f call 1 args.length
        match args with
        | arg :: _ => k arg
        | [] => return none) := by
    intro k hk
    refine ends_bind (ends_expectArgs ..) fun _ => ?_
    cases args with
    | nil => exact ends_pure _
    | cons a as => exact hk a
  have h2 : ∀ k : Nat → Nat → AProg (Option CallKind), (∀ a b, Ends (analysisBody f) (k a b)) →
      Ends (analysisBody f) (do
        expectArgs f call 2 args.length
        match args with
        | arg1 :: arg2 :: _ => k arg1 arg2
        | _ => return none) := by
    intro k hk
    refine ends_bind (ends_expectArgs ..) fun _ => ?_
    split
    · exact hk ..
    · exact ends_pure _
  simp only [builtIn, List.mem_cons, List.not_mem_nil, or_false] at h
  rcases h with rfl | rfl | rfl | rfl | rfl | rfl | rfl | rfl | rfl | rfl | rfl
  · exact h0 _
  · exact h0 _
  · exact h0 _
  · exact h1 _ fun a => ends_pure _
  · exact h1 _ fun a => ends_bind (ends_resolveContext _) fun _ => ends_pure _
  · exact h2 _ fun a b => ends_pure _
  · exact h2 _ fun a b => ends_pure _
  · exact h2 _ fun a b => ends_pure _
  · exact h2 _ fun a b => ends_bind (ends_resolveContext _) fun _ => ends_pure _
  · exact h2 _ fun a b => ends_bind (ends_resolveContext _) fun _ => ends_pure _
  · exact ends_bind (ends_prevIsArgs ..) fun _ => ends_pure _

theorem ends_resolveCall (call : Nat) : Ends (analysisBody f) (resolveCall f call) := by
  refine ends_bind (ends_lift _) fun args => ends_bind (ends_lift _) fun name => ?_
  have hu : Ends (analysisBody f) (do
      let ident ← lift (f.childOfTypeExn call Ty.ident)
      error f ident "Unresolved reference"
      return (none : Option CallKind)) :=
    ends_bind (ends_lift _) fun _ => ends_bind (ends_error ..) fun _ => ends_pure _
  split
  · rename_i b hb
    exact ends_builtIn call args b (List.mem_of_find?_eq_some hb)
  · refine ends_bind (ends_findSynRule _) fun o => ?_
    split
    · exact hu
    · refine ends_bind (ends_lift _) fun ps => ?_
      split
      · exact hu
      · split
        · exact ends_bind (ends_error ..) fun _ => ends_pure _
        · exact ends_pure _

theorem ends_usedByRefs (l : List Nat) : Ends (analysisBody f) (usedByRefs l) := by
  induction l with
  | nil => exact ends_pure _
  | cons r l ih =>
    refine ends_bind (ends_get (ends_resolveRef _)) fun k => ends_bind ih fun _ => ?_
    split <;> exact ends_pure _

theorem ends_usedByCalls (l : List Nat) : Ends (analysisBody f) (usedByCalls l) := by
  induction l with
  | nil => exact ends_pure _
  | cons r l ih =>
    refine ends_bind (ends_get (ends_resolveCall _)) fun k => ends_bind ih fun _ => ?_
    split <;> exact ends_pure _

theorem ends_warnUnused (used l : List Nat) : Ends (analysisBody f) (warnUnused f used l) := by
  induction l with
  | nil => exact ends_pure _
  | cons r l ih =>
    unfold warnUnused
    split
    · exact ih
    · refine ends_bind (ends_lift _) fun o => ?_
      split
      · exact ih
      · exact ends_bind (ends_warning ..) fun _ => ih

theorem ends_query (q : Query) : Ends (analysisBody f) (analysisBody f q) := by
  cases q with
  | allLexRules => exact ends_bind (ends_lift _) fun _ => ends_allLexRulesGo ..
  | allSynRules => exact ends_bind (ends_lift _) fun _ => ends_allSynRulesGo ..
  | allContexts => exact ends_bind (ends_lift _) fun _ => ends_bind (ends_contextWarnings _) fun _ => ends_pure _
  | resolveRef n => exact ends_resolveRef n
  | resolveCall n => exact ends_resolveCall n
  | unusedRules =>
    exact ends_bind (ends_lift _) fun _ => ends_bind (ends_usedByRefs _) fun _ => ends_bind (ends_lift _) fun _ =>
      ends_bind (ends_usedByCalls _) fun _ => ends_bind (ends_lift _) fun _ => ends_warnUnused ..
  | prattVariant n => exact ends_prattVariant n
  | resolveMethod n => exact ends_resolveMethod n
  | astNodeTraits n => exact ends_bind (ends_lift _) fun _ => ends_bind (ends_lift _) fun _ => ends_traitRefs ..

theorem ends_all (p : AProg α) : Ends (analysisBody f) p := by
  induction p with
  | ret v => exact ⟨_, _, .ret⟩
  | emit d p ih =>
    obtain ⟨o, ds, h⟩ := ih
    exact ⟨o, _, .emit h⟩
  | ask q k ih =>
    obtain ⟨o, ds, h⟩ := ends_query (f := f) q
    cases o with
    | none => exact ⟨none, _, .ask_panic h⟩
    | some v =>
      obtain ⟨o, ds', h'⟩ := ih v
      exact ⟨o, _, .ask h h'⟩
  | panic => exact ⟨_, _, .panic⟩

end

end Fall
