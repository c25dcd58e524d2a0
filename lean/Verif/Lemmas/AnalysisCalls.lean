import Verif.Lemmas.Analysis

namespace Fall

open Spec AProg

section
variable {f : File UInt8} (hf : ConsistentFile f)
include hf

theorem childrenWith_of {n : Nat} (hn : IsNode f n) {p : NodeType → Bool} {cs : List Nat}
    (h : f.astChildren p n = some cs) :
    ChildrenWith f n (fun c => ∃ ty, f.ty c = some ty ∧ p ty = true) cs := by
  rw [astChildren_eq hf hn, Option.some.injEq] at h
  subst h
  refine ⟨_, children_kids hn, List.filter_sublist, fun c hc => ?_⟩
  simp only [List.mem_filter, ty_dat (kids_isNode hf hn c hc)]
  simp [hc]

theorem childrenWith_type {n : Nat} (hn : IsNode f n) {ty : NodeType} {cs : List Nat}
    (h : f.astChildren (· == ty) n = some cs) : ChildrenWith f n (OfType f ty) cs := by
  obtain ⟨all, h1, h2, h3⟩ := childrenWith_of hf hn h
  refine ⟨all, h1, h2, fun c hc => (h3 c hc).trans ?_⟩
  constructor
  · rintro ⟨t, ht, e⟩
    have : t = ty := by simpa using e
    exact this ▸ ht
  · intro h
    exact ⟨ty, h, by simp⟩

theorem childrenWith_expr {n : Nat} (hn : IsNode f n) {cs : List Nat}
    (h : f.astChildren isFallExpr n = some cs) : ChildrenWith f n (IsExpr f) cs := by
  obtain ⟨all, h1, h2, h3⟩ := childrenWith_of hf hn h
  exact ⟨all, h1, h2, fun c hc => (h3 c hc).trans (by simp only [IsExpr, fallExpr_eq])⟩

/-! ## Contexts -/

omit hf in
theorem contextEntry_keys (ctx : List UInt8) (call : Nat) (m : List (List UInt8 × Option Nat)) (k : List UInt8) :
    k ∈ (contextEntry ctx call m).map (·.1) ↔ k = ctx ∨ k ∈ m.map (·.1) := by
  induction m with
  | nil => simp [contextEntry]
  | cons e m ih =>
    obtain ⟨k', v⟩ := e
    simp only [contextEntry]
    split
    · simp
    · split
      · subst ‹ctx = k'›
        simp
      · rw [List.map_cons, List.mem_cons, ih]
        simp only [List.map_cons, List.mem_cons]
        constructor
        · rintro (h | h | h) <;> simp [h]
        · rintro (h | h | h) <;> simp [h]

omit hf in
theorem contextEntry_sorted (ctx : List UInt8) (call : Nat) (m : List (List UInt8 × Option Nat))
    (h : (m.map (·.1)).Pairwise (· < ·)) : ((contextEntry ctx call m).map (·.1)).Pairwise (· < ·) := by
  induction m with
  | nil => simp [contextEntry]
  | cons e m ih =>
    obtain ⟨k', v⟩ := e
    rw [List.map_cons, List.pairwise_cons] at h
    simp only [contextEntry]
    split
    · rename_i hlt
      rw [List.map_cons, List.pairwise_cons]
      refine ⟨?_, by rw [List.map_cons, List.pairwise_cons]; exact h⟩
      intro k hk
      rw [List.map_cons, List.mem_cons] at hk
      rcases hk with rfl | hk
      · exact hlt
      · exact List.lt_trans hlt (h.1 k hk)
    · split
      · rw [List.map_cons, List.pairwise_cons]
        exact h
      · rename_i h1 h2
        rw [List.map_cons, List.pairwise_cons]
        refine ⟨fun k hk => ?_, ih h.2⟩
        rw [contextEntry_keys] at hk
        rcases hk with rfl | hk
        · rcases Std.lt_trichotomy k k' with h | h | h
          · exact absurd h h1
          · exact absurd h h2
          · exact h
        · exact h.1 k hk

omit hf in
theorem contextEntry_mem (ctx : List UInt8) (call : Nat) (m : List (List UInt8 × Option Nat))
    (h : (m.map (·.1)).Pairwise (· < ·)) (k : List UInt8) (v : Option Nat) :
    (k, v) ∈ contextEntry ctx call m ↔ (k ≠ ctx ∧ (k, v) ∈ m) ∨
      (k = ctx ∧ ((ctx ∈ m.map (·.1) ∧ v = none) ∨ (ctx ∉ m.map (·.1) ∧ v = some call))) := by
  induction m with
  | nil => simp [contextEntry]
  | cons e m ih =>
    obtain ⟨k', v'⟩ := e
    rw [List.map_cons, List.pairwise_cons] at h
    simp only [contextEntry]
    split
    · rename_i hlt
      have hne : ctx ∉ (k', v').1 :: m.map (·.1) := by
        intro hm
        rw [List.mem_cons] at hm
        rcases hm with rfl | hm
        · exact List.lt_irrefl _ hlt
        · exact List.lt_irrefl _ (List.lt_trans hlt (h.1 _ hm))
      simp only [List.mem_cons, Prod.mk.injEq, List.map_cons]
      rw [List.mem_cons] at hne
      simp only [hne, false_and, not_false_eq_true, true_and, false_or]
      have hne2 : ∀ v, (ctx, v) ∉ m := fun v hv => hne (.inr (List.mem_map_of_mem (f := (·.1)) hv))
      constructor
      · rintro (⟨rfl, rfl⟩ | ⟨rfl, rfl⟩ | hm)
        · exact .inr ⟨rfl, rfl⟩
        · refine .inl ⟨?_, .inl ⟨rfl, rfl⟩⟩
          rintro rfl
          exact hne (.inl rfl)
        · refine .inl ⟨?_, .inr hm⟩
          rintro rfl
          exact hne2 _ hm
      · rintro (⟨-, h | h⟩ | ⟨rfl, rfl⟩)
        · exact .inr (.inl h)
        · exact .inr (.inr h)
        · exact .inl ⟨rfl, rfl⟩
    · split
      · rename_i h1 h2
        subst h2
        simp only [List.mem_cons, Prod.mk.injEq, List.map_cons, true_or, not_true_eq_false, false_and, or_false,
          true_and]
        constructor
        · rintro (⟨rfl, rfl⟩ | hm)
          · exact .inr ⟨rfl, rfl⟩
          · refine .inl ⟨?_, .inr hm⟩
            rintro rfl
            exact List.lt_irrefl _ (h.1 _ (List.mem_map_of_mem (f := (·.1)) hm))
        · rintro (⟨hne, ⟨rfl, -⟩ | hm⟩ | ⟨rfl, rfl⟩)
          · exact absurd rfl hne
          · exact .inr hm
          · exact .inl ⟨rfl, rfl⟩
      · rename_i h1 h2
        simp only [List.mem_cons, Prod.mk.injEq, List.map_cons, h2, false_or]
        rw [ih h.2]
        constructor
        · rintro (⟨rfl, rfl⟩ | ⟨hne, hm⟩ | hm)
          · exact .inl ⟨fun e => h2 e.symm, .inl ⟨rfl, rfl⟩⟩
          · exact .inl ⟨hne, .inr hm⟩
          · exact .inr hm
        · rintro (⟨hne, hm | hm⟩ | hm)
          · exact .inl hm
          · exact .inr (.inl ⟨hne, hm⟩)
          · exact .inr (.inr hm)

/-- The calls of a list that use a context. -/
noncomputable def usesOf (f : File UInt8) (l : List Nat) (k : List UInt8) : List Nat :=
  open Classical in l.filter fun n => decide (OfType f 140 n ∧ ContextName f n k)

/-- The entries of the map after a list of nodes. -/
def CtxInv (f : File UInt8) (l : List Nat) (m : List (List UInt8 × Option Nat)) : Prop :=
  (m.map (·.1)).Pairwise (· < ·) ∧ ∀ k v, (k, v) ∈ m ↔
    (∃ c, usesOf f l k = [c] ∧ v = some c) ∨ (2 ≤ (usesOf f l k).length ∧ v = none)

omit hf in
theorem ctxInv_key {l : List Nat} {m : List (List UInt8 × Option Nat)} (h : CtxInv f l m) (k : List UInt8) :
    k ∈ m.map (·.1) ↔ usesOf f l k ≠ [] := by
  rw [List.mem_map]
  constructor
  · rintro ⟨⟨k', v⟩, hm, rfl⟩ e
    rcases (h.2 _ _).1 hm with ⟨c, hc, -⟩ | ⟨h2, -⟩
    · simp only at e; rw [e] at hc; cases hc
    · simp only at e; rw [e] at h2; simp at h2
  · intro hne
    cases hu : usesOf f l k with
    | nil => exact absurd hu hne
    | cons c cs =>
      cases cs with
      | nil => exact ⟨(k, some c), (h.2 _ _).2 (.inl ⟨c, hu, rfl⟩), rfl⟩
      | cons d cs => exact ⟨(k, none), (h.2 _ _).2 (.inr ⟨by rw [hu]; simp, rfl⟩), rfl⟩

omit hf in
theorem ctxInv_skip {l : List Nat} {m : List (List UInt8 × Option Nat)} (h : CtxInv f l m) {n : Nat}
    (hn : ∀ k, ¬ (OfType f 140 n ∧ ContextName f n k)) : CtxInv f (l ++ [n]) m := by
  have : ∀ k, usesOf f (l ++ [n]) k = usesOf f l k := by
    intro k
    simp [usesOf, List.filter_append, hn k]
  exact ⟨h.1, fun k v => by rw [this]; exact h.2 k v⟩

omit hf in
theorem ctxInv_add {l : List Nat} {m : List (List UInt8 × Option Nat)} (h : CtxInv f l m) {n : Nat}
    {ctx : List UInt8} (hn : ∀ k, (OfType f 140 n ∧ ContextName f n k) ↔ ctx = k) :
    CtxInv f (l ++ [n]) (contextEntry ctx n m) := by
  refine ⟨contextEntry_sorted _ _ _ h.1, fun k v => ?_⟩
  rw [contextEntry_mem _ _ _ h.1, ctxInv_key h]
  by_cases hk : k = ctx
  · subst hk
    have : usesOf f (l ++ [n]) k = usesOf f l k ++ [n] := by
      simp [usesOf, List.filter_append, hn k]
    rw [this]
    simp only [ne_eq, not_true_eq_false, false_and, true_and, false_or, List.length_append, List.length_cons,
      List.length_nil, Decidable.not_not]
    cases hu : usesOf f l k with
    | nil => simp
    | cons c cs => simp
  · have : usesOf f (l ++ [n]) k = usesOf f l k := by
      simp [usesOf, List.filter_append, hn k, Ne.symm hk]
    rw [this]
    simp only [ne_eq, hk, not_false_eq_true, true_and, false_and, or_false]
    exact h.2 k v

theorem contextMap_inv {m : List (List UInt8 × Option Nat)} (h : contextMap f = some m) :
    ∃ all, f.subtree 0 = some all ∧ (∀ n, n ∈ all ↔ Desc f 0 n) ∧ all.Nodup ∧ CtxInv f all m := by
  obtain ⟨all, h1, h2, h3, -, -, h4⟩ := C21_subtree f hf.nodes 0 (zero_isNode hf)
  refine ⟨all, h1, h2, h3, ?_⟩
  unfold contextMap at h
  rw [File.root, h4] at h
  have hall : ∀ n ∈ all, IsNode f n := fun n hn => desc_isNode hf.nodes ((h2 n).1 hn) (zero_isNode hf)
  clear h1 h2 h3 h4
  suffices ∀ (rest done : List Nat) (m0 : List (List UInt8 × Option Nat)), CtxInv f done m0 →
      (∀ n ∈ rest, IsNode f n) → rest.foldlM (fun contexts n => do
        if (← f.ty n) == Ty.callExpr then
          match ← f.contextName n with
          | none => return contexts
          | some ctx => return contextEntry ctx n contexts
        else return contexts) m0 = some m → CtxInv f (done ++ rest) m by
    simpa using this all [] [] ⟨by simp, by simp [usesOf]⟩ hall h
  intro rest
  induction rest with
  | nil =>
    intro done m0 hi _ h
    simp only [List.foldlM_nil, Option.pure_def, Option.some.injEq] at h
    subst h
    simpa using hi
  | cons n rest ih =>
    intro done m0 hi hr h
    rw [List.foldlM_cons, Option.bind_eq_bind, Option.bind_eq_some_iff] at h
    obtain ⟨m1, h1, h⟩ := h
    have hn := hr n (by simp)
    rw [ty_dat hn] at h1
    have : CtxInv f (done ++ [n]) m1 := by
      simp only [Option.bind_eq_bind, Option.bind_some] at h1
      by_cases hty : (dat f n).ty = 140
      · have ht : OfType f 140 n := by rw [OfType, ty_dat hn, hty]
        rw [if_pos (by rw [hty]; rfl)] at h1
        rw [Option.bind_eq_some_iff] at h1
        obtain ⟨c, hc, h1⟩ := h1
        have hcn := contextName_some hf hn hc
        cases c with
        | none =>
          simp only [Option.pure_def, Option.some.injEq] at h1
          subst h1
          exact ctxInv_skip hi fun k hk => by have := (hcn k).2 hk.2; cases this
        | some ctx =>
          simp only [Option.pure_def, Option.some.injEq] at h1
          subst h1
          refine ctxInv_add hi fun k => ?_
          rw [← hcn k]
          simp [ht]
      · rw [if_neg (by rw [beq_iff_eq]; exact hty)] at h1
        simp only [Option.pure_def, Option.some.injEq] at h1
        subst h1
        refine ctxInv_skip hi fun k hk => hty ?_
        have := hk.1
        rw [OfType, ty_dat hn, Option.some.injEq] at this
        exact this
    have := ih (done ++ [n]) m1 this (fun x hx => hr x (by simp [hx])) h
    simpa using this

omit hf in
theorem ofType_isNode {ty : NodeType} {n : Nat} (h : OfType f ty n) : IsNode f n := by
  simp only [OfType, File.ty, File.data, Option.map_eq_some_iff] at h
  obtain ⟨d, h, -⟩ := h
  exact isNode_of_getElem h

theorem contextMap_spec {m : List (List UInt8 × Option Nat)} (h : contextMap f = some m) :
    Contexts f (m.map (·.1)) ∧ ∀ s c, (s, some c) ∈ m ↔ OnlyUse f s c := by
  obtain ⟨all, -, h2, h3, hi⟩ := contextMap_inv hf h
  have hmem : ∀ n k, n ∈ usesOf f all k ↔ OfType f 140 n ∧ ContextName f n k := by
    intro n k
    simp only [usesOf, List.mem_filter, decide_eq_true_eq, and_iff_right_iff_imp]
    intro hk
    exact (h2 n).2 (root_desc hf.nodes (ofType_isNode hk.1))
  refine ⟨⟨hi.1, fun s => ?_⟩, fun s c => ?_⟩
  · rw [ctxInv_key hi]
    constructor
    · intro hne
      obtain ⟨c, hc⟩ := List.exists_mem_of_ne_nil _ hne
      exact ⟨c, (hmem c s).1 hc⟩
    · rintro ⟨c, hc⟩ e
      have := (hmem c s).2 hc
      rw [e] at this
      cases this
  · rw [hi.2]
    simp only [Option.some.injEq, reduceCtorEq, and_false, or_false, OnlyUse]
    constructor
    · rintro ⟨c', hu, rfl⟩
      have hc := (hmem c s).1 (by rw [hu]; simp)
      refine ⟨hc.1, hc.2, fun c' h1 h2 => ?_⟩
      have := (hmem c' s).2 ⟨h1, h2⟩
      rw [hu] at this
      simpa using this
    · rintro ⟨g1, g2, g3⟩
      refine ⟨c, ?_, rfl⟩
      have hnd : (usesOf f all s).Nodup := h3.sublist List.filter_sublist
      have hc := (hmem c s).2 ⟨g1, g2⟩
      have hall : ∀ x ∈ usesOf f all s, x = c := fun x hx => g3 x ((hmem x s).1 hx).1 ((hmem x s).1 hx).2
      cases hu : usesOf f all s with
      | nil => rw [hu] at hc; cases hc
      | cons a l =>
        rw [hu] at hnd hall
        have ha := hall a (by simp)
        subst ha
        cases l with
        | nil => rfl
        | cons b l =>
          have hb := hall b (by simp)
          subst hb
          simp at hnd

omit hf in
theorem contextWarnings_eval {body : (q : Query) → AProg (Value q)} {m : List (List UInt8 × Option Nat)} {u : Unit}
    {ds : List Diagnostic} (h : Eval body (contextWarnings f m) (some u) ds) :
    ds.map some = (m.filterMap fun e => e.2.map fun c => (e.1, c)).map fun u =>
      (f.range u.2).map fun r => ⟨r, false, s!"Context `{showBytes u.1}` is used only once"⟩ := by
  induction m generalizing ds with
  | nil =>
    obtain ⟨-, rfl⟩ := eval_pure.1 h
    rfl
  | cons e m ih =>
    obtain ⟨k, o⟩ := e
    cases o with
    | none => simpa using ih h
    | some c =>
      simp only [contextWarnings] at h
      rw [eval_bind_some] at h
      obtain ⟨_, d1, d2, h1, h, rfl⟩ := h
      obtain ⟨r, hr, rfl⟩ := eval_warning.1 h1
      simpa [hr] using ih h

/-- The contexts, and the reports of those that are used once. -/
theorem allContexts_eval {body : (q : Query) → AProg (Value q)} {ctxs : List (List UInt8)} {ds : List Diagnostic}
    (h : Eval body (allContexts f) (some ctxs) ds) :
    Contexts f ctxs ∧ ∃ uses : List (List UInt8 × NodeId), (uses.map (·.1)).Pairwise (· < ·) ∧
      (∀ s c, (s, c) ∈ uses ↔ OnlyUse f s c) ∧
      ds.map some = uses.map fun u =>
        (f.range u.2).map fun r => ⟨r, false, s!"Context `{showBytes u.1}` is used only once"⟩ := by
  unfold allContexts at h
  rw [eval_bind_some] at h
  obtain ⟨m, _, _, h1, h, rfl⟩ := h
  obtain ⟨hm, rfl⟩ := eval_lift.1 h1
  rw [eval_bind_some] at h
  obtain ⟨_, d1, d2, h1', h, rfl⟩ := h
  obtain ⟨h2, rfl⟩ := eval_pure.1 h
  cases h2
  obtain ⟨g1, g2⟩ := contextMap_spec hf hm
  refine ⟨g1, _, ?_, fun s c => ?_, by simpa using contextWarnings_eval h1'⟩
  · have : ((m.filterMap fun e => e.2.map fun c => (e.1, c)).map (·.1)).Sublist (m.map (·.1)) := by
      clear h1' g1 g2 hm h h1
      induction m with
      | nil => simp
      | cons e m ih =>
        obtain ⟨k, o⟩ := e
        cases o with
        | none => simpa using ih.cons _
        | some c => simpa using ih
    exact g1.1.sublist this
  · rw [← g2, List.mem_filterMap]
    constructor
    · rintro ⟨⟨k, o⟩, hm, e⟩
      simp only [Option.map_eq_some_iff, Prod.mk.injEq] at e
      obtain ⟨c', rfl, rfl, rfl⟩ := e
      exact hm
    · intro hm
      exact ⟨_, hm, rfl⟩

theorem resolveContext_eval {call : Nat} (hc : OfType f 140 call) {o : Option Nat} {ds : List Diagnostic}
    (h : Eval (analysisBody f) (resolveContext f call) (some o) ds) :
    (∃ s i, ContextName f call s ∧ ContextNumber f s i ∧ o = some i ∧ ds = []) ∨
    ((∀ s, ¬ ContextName f call s) ∧ o = none ∧ ∃ args a, f.callArgs call = some args ∧ args.head? = some a ∧
      Reports f true "Context should be a single quoted string" [a] ds) := by
  have hn := ofType_isNode hc
  unfold resolveContext at h
  rw [eval_bind_some] at h
  obtain ⟨c, _, _, h1, h, rfl⟩ := h
  obtain ⟨hcn, rfl⟩ := eval_lift.1 h1
  have hcn := contextName_some hf hn hcn
  cases c with
  | some s =>
    left
    simp only at h
    rw [eval_bind_some] at h
    obtain ⟨all, _, _, h1', h, rfl⟩ := h
    obtain ⟨⟨ds', h1''⟩, rfl⟩ := eval_get.1 h1'
    obtain ⟨h2, rfl⟩ := eval_pure.1 h
    change List (List UInt8) at all
    have hs := (hcn s).1 rfl
    obtain ⟨hctx, -⟩ := allContexts_eval hf h1''
    have hmem := (hctx.2 s).2 ⟨call, hc, hs⟩
    cases o with
    | none =>
      have h2 := h2.symm
      rw [Option.some.injEq, List.findIdx?_eq_none_iff] at h2
      exact absurd (h2 s hmem) (by simp)
    | some i =>
      have h2 := h2.symm
      rw [Option.some.injEq, List.findIdx?_eq_some_iff_getElem] at h2
      obtain ⟨hi, he, -⟩ := h2
      have he : (all : List (List UInt8))[i] = s := by simpa using he
      exact ⟨s, i, hs, ⟨all, hctx, by rw [List.getElem?_eq_getElem hi, he]⟩, rfl, rfl⟩
  | none =>
    right
    simp only at h
    rw [eval_bind_some] at h
    obtain ⟨args, _, _, h1', h, rfl⟩ := h
    obtain ⟨ha, rfl⟩ := eval_lift.1 h1'
    rw [eval_bind_some] at h
    obtain ⟨a, _, _, h1', h, rfl⟩ := h
    obtain ⟨ha', rfl⟩ := eval_lift.1 h1'
    rw [eval_bind_some] at h
    obtain ⟨_, _, _, h1', h, rfl⟩ := h
    obtain ⟨r, hr, rfl⟩ := eval_error.1 h1'
    obtain ⟨h2, rfl⟩ := eval_pure.1 h
    cases h2
    refine ⟨fun s hs => ?_, rfl, args, a, ha, ha', ?_⟩
    · have := (hcn s).2 hs; cases this
    · simpa using reports_cons (f := f) (e := true) (m := "Context should be a single quoted string") hr reports_nil

/-! ## Attributes -/

theorem ident_iff {n : Nat} (hn : IsNode f n) {s : List UInt8} : f.childText n Ty.ident = some s ↔ Ident f n s :=
  childText_iff hf hn 130

theorem findAttr_eval {as : List Nat} (hn : ∀ a ∈ as, IsNode f a) {name : List UInt8} {o : Option Nat}
    (h : f.findAttr name as = some o) (a : Nat) : o = some a ↔ First as (fun a => Ident f a name) a := by
  induction as with
  | nil =>
    simp only [File.findAttr, Option.some.injEq] at h
    subst h
    simp only [reduceCtorEq, false_iff]
    exact fun h => absurd (first_mem h).1 (by simp)
  | cons b as ih =>
    simp only [File.findAttr, Option.bind_eq_bind, Option.bind_eq_some_iff] at h
    obtain ⟨s, hs, h⟩ := h
    rw [ident_iff hf (hn b (by simp))] at hs
    rw [first_cons]
    by_cases e : s = name
    · subst e
      rw [if_pos (by simp)] at h
      simp only [Option.pure_def, Option.some.injEq] at h
      subst h
      simp [hs, eq_comm]
    · rw [if_neg (by simpa using e)] at h
      have : ¬ Ident f b name := fun h => e (labelled_unique hs h)
      rw [ih (fun a ha => hn a (by simp [ha])) h]
      simp [this]

theorem attributesOf_eval {rule : Nat} (hn : IsNode f rule) {o : Option (List Nat)} (h : f.attributesOf rule = some o) :
    match o with
    | none => ∀ as, ¬ FirstChild f rule (OfType f 144) as
    | some l => ∃ as, FirstChild f rule (OfType f 144) as ∧ f.astChildren (· == Ty.attr) as = some l := by
  simp only [File.attributesOf, Option.bind_eq_bind, Option.bind_eq_some_iff] at h
  obtain ⟨c, hc, h⟩ := h
  have hc := (firstChild_some hf hn 144).1 hc
  cases c with
  | none =>
    simp only [Option.pure_def, Option.some.injEq] at h
    subst h
    exact hc
  | some as =>
    simp only [Option.map_eq_map, Option.map_eq_some_iff] at h
    obtain ⟨l, hl, rfl⟩ := h
    exact ⟨as, hc, hl⟩

/-- The attributes with a name. -/
theorem attribute_eval {rule : Nat} (hn : IsNode f rule) {l : Option (List Nat)} (h : f.attributesOf rule = some l)
    {name : String} {o : Option Nat} (h2 : f.findAttr (ascii name) (l.getD []) = some o) (a : Nat) :
    o = some a ↔ Attribute f rule name a := by
  have ha := attributesOf_eval hf hn h
  cases l with
  | none =>
    simp only [Option.getD_none, File.findAttr, Option.some.injEq] at h2
    subst h2
    simp only [reduceCtorEq, false_iff]
    rintro ⟨as, h1, -⟩
    exact ha as h1
  | some l =>
    obtain ⟨as, h1, hl⟩ := ha
    have hasn := first_isNode hf h1
    have hl' := hl
    rw [astChildren_eq hf hasn, Option.some.injEq] at hl'
    have hnodes : ∀ a ∈ l, IsNode f a := by
      intro a ha
      subst hl'
      exact kids_isNode hf hasn a (List.mem_filter.1 ha).1
    rw [findAttr_eval hf hnodes h2]
    unfold Attribute
    have key : FirstChild f as (fun a => OfType f 145 a ∧ Ident f a (ascii name)) a ↔
        First l (fun a => Ident f a (ascii name)) a := by
      rw [← hl']
      exact (first_typed hf hasn 145).symm
    constructor
    · intro h
      exact ⟨as, h1, key.2 h⟩
    · rintro ⟨as', h1', h⟩
      rw [firstChild_unique h1' h1] at h
      exact key.1 h

theorem hasAttr_eval {rule : Nat} (hn : IsNode f rule) {name : String} {b : Bool}
    (h : f.hasAttr rule (ascii name) = some b) : b = true ↔ ∃ a, Attribute f rule name a := by
  simp only [File.hasAttr, Option.bind_eq_bind, Option.bind_eq_some_iff] at h
  obtain ⟨l, hl, h⟩ := h
  cases l with
  | none =>
    simp only [Option.pure_def, Option.some.injEq] at h
    subst h
    have := attribute_eval hf hn hl (name := name) (o := none) (by simp [File.findAttr])
    simp only [Bool.false_eq_true, false_iff, not_exists]
    intro a ha
    have := (this a).2 ha
    cases this
  | some l =>
    simp only [Option.bind_eq_some_iff, Option.pure_def, Option.some.injEq] at h
    obtain ⟨o, ho, rfl⟩ := h
    have := attribute_eval hf hn hl (name := name) (o := o) (by simpa using ho)
    rw [Option.isSome_iff_exists]
    exact exists_congr this

theorem typeAttr_eval {rule : Nat} (hn : IsNode f rule) {o : Option Nat}
    (h : f.typeAttr rule = some o) (a : Nat) : o = some a ↔ Attribute f rule "type" a := by
  simp only [File.typeAttr, Option.bind_eq_bind, Option.bind_eq_some_iff] at h
  obtain ⟨l, hl, h⟩ := h
  cases l with
  | none =>
    simp only [Option.pure_def, Option.some.injEq] at h
    subst h
    exact attribute_eval hf hn hl (by simp [File.findAttr]) a
  | some l => exact attribute_eval hf hn hl (by simpa using h) a

theorem attrText_eval {a : Nat} (hn : IsNode f a) {o : Option (List UInt8)} (h : f.attrText a = some o)
    (s : List UInt8) : o = some s ↔ Labelled f a 146 s := by
  simp only [File.attrText, Option.bind_eq_bind, Option.bind_eq_some_iff] at h
  obtain ⟨c, hc, h⟩ := h
  have hc := (firstChild_some hf hn 146).1 hc
  cases c with
  | none =>
    simp only [Option.pure_def, Option.some.injEq] at h
    subst h
    simp only [reduceCtorEq, false_iff]
    rintro ⟨c, h1, -⟩
    exact hc c h1
  | some c =>
    simp only [Option.map_eq_map, Option.map_eq_some_iff] at h
    obtain ⟨t, ht, rfl⟩ := h
    simp only [Option.some.injEq]
    constructor
    · rintro rfl
      exact ⟨c, hc, ht⟩
    · rintro ⟨c', h1, h2⟩
      rw [firstChild_unique h1 hc, ht] at h2
      exact Option.some.inj h2

theorem attribute_isNode {rule a : Nat} {name : String} (h : Attribute f rule name a) : IsNode f a := by
  obtain ⟨as, -, h⟩ := h
  exact first_isNode hf h

theorem attribute_unique {rule a b : Nat} {name : String} (h : Attribute f rule name a)
    (h' : Attribute f rule name b) : a = b := by
  obtain ⟨as, h1, h⟩ := h
  obtain ⟨as', h1', h'⟩ := h'
  rw [firstChild_unique h1' h1] at h'
  exact firstChild_unique h h'

theorem ruleName_eval {rule : Nat} (hn : IsNode f rule) {o : Option (List UInt8)} (h : f.ruleName rule = some o)
    (s : List UInt8) : o = some s ↔ Ident f rule s := by
  simp only [File.ruleName, Option.bind_eq_bind, Option.bind_eq_some_iff] at h
  obtain ⟨c, hc, h⟩ := h
  have hc := (childOfType_some hf hn 130).1 hc
  cases c with
  | none =>
    simp only [Option.pure_def, Option.some.injEq] at h
    subst h
    simp only [reduceCtorEq, false_iff]
    rintro ⟨c, h1, -⟩
    exact hc c h1
  | some c =>
    simp only [Option.map_eq_map, Option.map_eq_some_iff] at h
    obtain ⟨t, ht, rfl⟩ := h
    simp only [Option.some.injEq]
    constructor
    · rintro rfl
      exact ⟨c, hc, ht⟩
    · rintro ⟨c', h1, h2⟩
      rw [firstChild_unique h1 hc, ht] at h2
      exact Option.some.inj h2

theorem tyName_eval {rule : Nat} (hn : IsNode f rule) {o : Option (List UInt8)} (h : f.tyName rule = some o)
    (s : List UInt8) : o = some s ↔ MakesNodes f rule s := by
  simp only [File.tyName, Option.bind_eq_bind, Option.bind_eq_some_iff] at h
  obtain ⟨p, hp, h⟩ := h
  have hp := (childOfType_some hf hn 109).1 hp
  cases p with
  | none =>
    simp only [Option.isNone_none, if_true, Option.pure_def, Option.some.injEq] at h
    subst h
    simp only [reduceCtorEq, false_iff]
    rintro ⟨⟨p, h⟩, -⟩
    exact hp p h
  | some p =>
    simp only [Option.isNone_some, Bool.false_eq_true, if_false, Option.bind_eq_some_iff] at h
    obtain ⟨b, hb, h⟩ := h
    have hb := hasAttr_eval hf hn hb
    cases b with
    | true =>
      simp only [if_true, Option.pure_def, Option.some.injEq] at h
      subst h
      simp only [reduceCtorEq, false_iff]
      rintro ⟨-, h, -⟩
      obtain ⟨a, ha⟩ := hb.1 rfl
      exact h a ha
    | false =>
      have hnp : ∀ a, ¬ Attribute f rule "pratt" a := fun a ha => by
        have := hb.2 ⟨a, ha⟩; cases this
      simp only [Bool.false_eq_true, if_false, Option.bind_eq_some_iff] at h
      obtain ⟨t, ht, h⟩ := h
      have ht := typeAttr_eval hf hn ht
      cases t with
      | some a =>
        have ha := (ht a).1 rfl
        rw [attrText_eval hf (attribute_isNode hf ha) h]
        constructor
        · intro hl
          exact ⟨⟨p, hp⟩, hnp, .inl ⟨a, ha, hl⟩⟩
        · rintro ⟨-, -, ⟨a', ha', hl⟩ | ⟨hno, -⟩⟩
          · rwa [attribute_unique hf ha ha']
          · exact absurd ha (hno a)
      | none =>
        rw [ruleName_eval hf hn h]
        have hno : ∀ a, ¬ Attribute f rule "type" a := fun a ha => by
          have := (ht a).2 ha; cases this
        constructor
        · intro hl
          exact ⟨⟨p, hp⟩, hnp, .inr ⟨hno, hl⟩⟩
        · rintro ⟨-, -, ⟨a', ha', hl⟩ | ⟨-, h⟩⟩
          · exact absurd ha' (hno a')
          · exact h

/-! ## Calls -/

theorem means_unique {rule : Nat} {s : List UInt8} {k k' : Option RefKind} (h : Means f rule s k)
    (h' : Means f rule s k') : k = k' := by
  have hp : ∀ p p', ParamNamed f rule s p → ParamNamed f rule s p' → p = p' := by
    rintro p p' ⟨ps, h1, h2⟩ ⟨ps', h1', h2'⟩
    rw [firstChild_unique h1' h1] at h2'
    exact firstChild_unique h2 h2'
  have ht : ∀ t t', TokenNamed f s t → TokenNamed f s t' → t = t' := by
    rintro p p' ⟨ps, h1, cs, h2, h3⟩ ⟨ps', h1', cs', h2', h3'⟩
    rw [firstChild_unique h1' h1, h2] at h2'
    cases h2'
    rw [last_reverse] at h3 h3'
    exact first_unique h3 h3'
  rcases k with _ | (t | r | p) <;> rcases k' with _ | (t' | r' | p') <;> simp only [Means] at h h'
  · rfl
  · exact absurd h'.2.2 (h.2.2 _)
  · exact absurd h'.2 (h.2.1 _)
  · exact absurd h' (h.1 _)
  · exact absurd h.2.2 (h'.2.2 _)
  · rw [ht _ _ h.2.2 h'.2.2]
  · exact absurd h'.2 (h.2.1 _)
  · exact absurd h' (h.1 _)
  · exact absurd h.2 (h'.2.1 _)
  · exact absurd h.2 (h'.2.1 _)
  · rw [firstChild_unique h.2 h'.2]
  · exact absurd h' (h.1 _)
  · exact absurd h (h'.1 _)
  · exact absurd h (h'.1 _)
  · exact absurd h (h'.1 _)
  · rw [hp _ _ h h']

theorem refName_unique {ref : Nat} {s s' : List UInt8} (h : RefName f ref s) (h' : RefName f ref s') : s = s' := by
  rcases h with h | ⟨h1, h2⟩ <;> rcases h' with h' | ⟨h1', h2'⟩
  · exact labelled_unique h h'
  · exact absurd h (h1' _)
  · exact absurd h' (h1 _)
  · exact labelled_unique h2 h2'

theorem refersTo_unique {ref : Nat} {k k' : Option RefKind} (h : RefersTo f ref k) (h' : RefersTo f ref k') :
    k = k' := by
  obtain ⟨s, rule, h1, h2, h3⟩ := h
  obtain ⟨s', rule', h1', h2', h3'⟩ := h'
  rw [refName_unique hf h1' h1, enclosing_unique hf h2' h2] at h3'
  exact means_unique hf h3 h3'

theorem prevIsRule_eval {arg : Nat} {o : Option Nat} {ds : List Diagnostic}
    (h : Eval (analysisBody f) (prevIsRule f arg) (some o) ds) :
    (∀ r, o = some r ↔ PublicRef f arg r) ∧ ds = [] := by
  unfold prevIsRule at h
  rw [eval_bind_some] at h
  obtain ⟨ty, _, _, h1, h, rfl⟩ := h
  obtain ⟨hty, rfl⟩ := eval_lift.1 h1
  by_cases e : ty = 135
  · subst e
    rw [if_pos (by simp [Ty.refExpr])] at h
    have harg : OfType f 135 arg := hty
    rw [eval_bind_some] at h
    obtain ⟨k, _, _, h1', h, rfl⟩ := h
    obtain ⟨⟨ds', hk⟩, rfl⟩ := eval_get.1 h1'
    change Option RefKind at k
    obtain ⟨s, rule, g1, g2, g3, -⟩ := resolveRef_eval hf (ofType_isNode harg) hk
    have hr : RefersTo f arg k := ⟨s, rule, g1, g2, g3⟩
    have other : (∀ r, k ≠ some (.rule r)) → ∀ r, (none : Option Nat) = some r ↔ PublicRef f arg r := by
      intro hne r
      simp only [reduceCtorEq, false_iff]
      rintro ⟨-, h, -⟩
      exact hne r (refersTo_unique hf hr h)
    rcases k with _ | (t | r | p)
    · obtain ⟨h2, rfl⟩ := eval_pure.1 h
      cases h2
      exact ⟨other (by simp), rfl⟩
    · obtain ⟨h2, rfl⟩ := eval_pure.1 h
      cases h2
      exact ⟨other (by simp), rfl⟩
    · simp only at h
      rw [eval_bind_some] at h
      obtain ⟨n, _, _, h1'', h, rfl⟩ := h
      obtain ⟨hn, rfl⟩ := eval_lift.1 h1''
      obtain ⟨h2, rfl⟩ := eval_pure.1 h
      cases h2
      refine ⟨fun r' => ?_, rfl⟩
      have hrn : IsNode f r := first_isNode hf g3.2
      have hty := tyName_eval hf hrn hn
      constructor
      · intro h
        cases n with
        | none => cases h
        | some s =>
          cases h
          exact ⟨harg, hr, s, (hty s).1 rfl⟩
      · rintro ⟨-, h1, s, hs⟩
        cases refersTo_unique hf hr h1
        rw [(hty s).2 hs]
        rfl
    · obtain ⟨h2, rfl⟩ := eval_pure.1 h
      cases h2
      exact ⟨other (by simp), rfl⟩
  · rw [if_neg (by rw [beq_iff_eq]; exact e)] at h
    obtain ⟨h2, rfl⟩ := eval_pure.1 h
    cases h2
    refine ⟨fun r => ?_, rfl⟩
    simp only [reduceCtorEq, false_iff]
    rintro ⟨h1, -⟩
    rw [OfType, hty, Option.some.injEq] at h1
    exact e h1

theorem prevIsArgs_eval {call : Nat} {args rules : List Nat} {ds : List Diagnostic}
    (h : Eval (analysisBody f) (prevIsArgs f call args) (some rules) ds) :
    ∃ bad, PublicRefs f args rules bad ∧
      Reports f true "<prev_is> arguments must be public rules" (List.replicate bad call) ds := by
  induction args generalizing rules ds with
  | nil =>
    obtain ⟨h2, rfl⟩ := eval_pure.1 h
    cases h2
    exact ⟨0, .nil, reports_nil⟩
  | cons a args ih =>
    unfold prevIsArgs at h
    rw [eval_bind_some] at h
    obtain ⟨o, _, _, h1, h, rfl⟩ := h
    obtain ⟨ho, rfl⟩ := prevIsRule_eval hf h1
    cases o with
    | some r =>
      simp only at h
      rw [eval_bind_some] at h
      obtain ⟨rest, _, _, h1', h, rfl⟩ := h
      obtain ⟨h2, rfl⟩ := eval_pure.1 h
      cases h2
      obtain ⟨bad, g1, g2⟩ := ih h1'
      exact ⟨bad, .good ((ho r).1 rfl) g1, by simpa using g2⟩
    | none =>
      simp only at h
      rw [eval_bind_some] at h
      obtain ⟨_, _, _, h1', h, rfl⟩ := h
      obtain ⟨r, hr, rfl⟩ := eval_error.1 h1'
      obtain ⟨bad, g1, g2⟩ := ih h
      refine ⟨bad + 1, .bad (fun r hr => ?_) g1, ?_⟩
      · have := (ho r).2 hr; cases this
      · rw [List.replicate_succ]
        exact reports_cons hr g2

omit hf in
theorem expectArgs_eval {body : (q : Query) → AProg (Value q)} {call n : Nat} {args : List Nat} {u : Unit}
    {ds : List Diagnostic} (h : Eval body (expectArgs f call n args.length) (some u) ds) :
    CountReport f call n args ds := by
  unfold expectArgs at h
  split at h
  · rename_i hne
    obtain ⟨r, hr, rfl⟩ := eval_error.1 h
    exact .inr ⟨Ne.symm hne, reports_cons hr reports_nil⟩
  · rename_i he
    obtain ⟨-, rfl⟩ := eval_pure.1 h
    exact .inl ⟨by simpa using Eq.symm (Decidable.not_not.1 he), rfl⟩

theorem builtIn_eval {call : Nat} (hc : OfType f 140 call) {args : List Nat} (ha : f.callArgs call = some args)
    {b : String × AProg (Option CallKind)} (hb : b ∈ builtIn f call args) {k : Option CallKind}
    {ds : List Diagnostic} (h : Eval (analysisBody f) b.2 (some k) ds) : CallMeans f call args (ascii b.1) k ds := by
  have z0 : ∀ {kind : CallKind} {ds : List Diagnostic}, Eval (analysisBody f) (do expectArgs f call 0 args.length; return some kind)
      (some k) ds → CountReport f call 0 args ds ∧ k = some kind := by
    intro kind ds h
    rw [eval_bind_some] at h
    obtain ⟨_, _, _, h1, h, rfl⟩ := h
    obtain ⟨h2, rfl⟩ := eval_pure.1 h
    cases h2
    exact ⟨by simpa using expectArgs_eval h1, rfl⟩
  have z1 : ∀ {kind : Nat → AProg (Option CallKind)} {ds : List Diagnostic}, Eval (analysisBody f) (do
        expectArgs f call 1 args.length
        match args with
        | arg :: _ => kind arg
        | [] => return none) (some k) ds →
      ∃ ds1 ds2, CountReport f call 1 args ds1 ∧ ds = ds1 ++ ds2 ∧
        ((args = [] ∧ k = none ∧ ds2 = []) ∨
         ∃ e rest, args = e :: rest ∧ Eval (analysisBody f) (kind e) (some k) ds2) := by
    intro kind ds h
    rw [eval_bind_some] at h
    obtain ⟨_, _, _, h1, h, rfl⟩ := h
    refine ⟨_, _, expectArgs_eval h1, rfl, ?_⟩
    cases args with
    | nil =>
      obtain ⟨h2, rfl⟩ := eval_pure.1 h
      cases h2
      exact .inl ⟨rfl, rfl, rfl⟩
    | cons e rest => exact .inr ⟨e, rest, rfl, h⟩
  have z2 : ∀ {kind : Nat → Nat → AProg (Option CallKind)} {ds : List Diagnostic}, Eval (analysisBody f) (do
        expectArgs f call 2 args.length
        match args with
        | arg1 :: arg2 :: _ => kind arg1 arg2
        | _ => return none) (some k) ds →
      ∃ ds1 ds2, CountReport f call 2 args ds1 ∧ ds = ds1 ++ ds2 ∧
        ((args.length < 2 ∧ k = none ∧ ds2 = []) ∨
         ∃ e1 e2 rest, args = e1 :: e2 :: rest ∧ Eval (analysisBody f) (kind e1 e2) (some k) ds2) := by
    intro kind ds h
    rw [eval_bind_some] at h
    obtain ⟨_, _, _, h1, h, rfl⟩ := h
    refine ⟨_, _, expectArgs_eval h1, rfl, ?_⟩
    rcases args with _ | ⟨e1, _ | ⟨e2, rest⟩⟩
    · obtain ⟨h2, rfl⟩ := eval_pure.1 h
      cases h2
      exact .inl ⟨by simp, rfl, rfl⟩
    · obtain ⟨h2, rfl⟩ := eval_pure.1 h
      cases h2
      exact .inl ⟨by simp, rfl, rfl⟩
    · exact .inr ⟨e1, e2, rest, rfl, h⟩
  have hctx : ∀ {ds2 : List Diagnostic} {e : Nat} {rest : List Nat} {g : Nat → CallKind}, args = e :: rest →
      Eval (analysisBody f) (do return (← resolveContext f call).map g) (some k) ds2 →
      (∃ s i, ContextName f call s ∧ ContextNumber f s i ∧ k = some (g i) ∧ ds2 = []) ∨
      ((∀ s, ¬ ContextName f call s) ∧ k = none ∧
        Reports f true "Context should be a single quoted string" [e] ds2) := by
    intro ds2 e rest g he h
    rw [eval_bind_some] at h
    obtain ⟨o, _, _, h1, h, rfl⟩ := h
    obtain ⟨h2, rfl⟩ := eval_pure.1 h
    rcases resolveContext_eval hf hc h1 with ⟨s, i, g1, g2, rfl, rfl⟩ | ⟨g1, rfl, args', a, g2, g3, g4⟩
    · cases h2
      exact .inl ⟨s, i, g1, g2, rfl, rfl⟩
    · cases h2
      rw [ha] at g2
      cases g2
      subst he
      cases g3
      exact .inr ⟨g1, rfl, by simpa using g4⟩
  simp only [builtIn, List.mem_cons, List.not_mem_nil, or_false] at hb
  rcases hb with rfl | rfl | rfl | rfl | rfl | rfl | rfl | rfl | rfl | rfl | rfl
  · obtain ⟨g, rfl⟩ := z0 h
    exact .any g
  · obtain ⟨g, rfl⟩ := z0 h
    exact .commit g
  · obtain ⟨g, rfl⟩ := z0 h
    exact .eof g
  · obtain ⟨d1, d2, g, rfl, ⟨rfl, rfl, rfl⟩ | ⟨e, rest, he, h⟩⟩ := z1 h
    · exact .noArgument (by simp) rfl (by simpa using g)
    · obtain ⟨h2, rfl⟩ := eval_pure.1 h
      cases h2
      exact .not he (by simpa using g)
  · obtain ⟨d1, d2, g, rfl, ⟨rfl, rfl, rfl⟩ | ⟨e, rest, he, h⟩⟩ := z1 h
    · exact .noArgument (by simp) rfl (by simpa using g)
    · rcases hctx he h with ⟨s, i, g1, g2, rfl, rfl⟩ | ⟨g1, rfl, g2⟩
      · exact .isIn he (by simpa using g) g1 g2
      · exact .noContext (n := 1) (.inl ⟨rfl, rfl⟩) (by simp [he]) g1 g he g2
  · obtain ⟨d1, d2, g, rfl, ⟨hl, rfl, rfl⟩ | ⟨e1, e2, rest, he, h⟩⟩ := z2 h
    · exact .tooFew (by simp) hl (by simpa using g)
    · obtain ⟨h2, rfl⟩ := eval_pure.1 h
      cases h2
      exact .layer he (by simpa using g)
  · obtain ⟨d1, d2, g, rfl, ⟨hl, rfl, rfl⟩ | ⟨e1, e2, rest, he, h⟩⟩ := z2 h
    · exact .tooFew (by simp) hl (by simpa using g)
    · obtain ⟨h2, rfl⟩ := eval_pure.1 h
      cases h2
      exact .withSkip he (by simpa using g)
  · obtain ⟨d1, d2, g, rfl, ⟨hl, rfl, rfl⟩ | ⟨e1, e2, rest, he, h⟩⟩ := z2 h
    · exact .tooFew (by simp) hl (by simpa using g)
    · obtain ⟨h2, rfl⟩ := eval_pure.1 h
      cases h2
      exact .inject he (by simpa using g)
  · obtain ⟨d1, d2, g, rfl, ⟨hl, rfl, rfl⟩ | ⟨e1, e2, rest, he, h⟩⟩ := z2 h
    · exact .tooFew (by simp) hl (by simpa using g)
    · rcases hctx he h with ⟨s, i, g1, g2, rfl, rfl⟩ | ⟨g1, rfl, g2⟩
      · exact .enter he (by simpa using g) g1 g2
      · exact .noContext (n := 2) (.inr ⟨by simp, rfl⟩) (by simp [he]) g1 g he g2
  · obtain ⟨d1, d2, g, rfl, ⟨hl, rfl, rfl⟩ | ⟨e1, e2, rest, he, h⟩⟩ := z2 h
    · exact .tooFew (by simp) hl (by simpa using g)
    · rcases hctx he h with ⟨s, i, g1, g2, rfl, rfl⟩ | ⟨g1, rfl, g2⟩
      · exact .exit he (by simpa using g) g1 g2
      · exact .noContext (n := 2) (.inr ⟨by simp, rfl⟩) (by simp [he]) g1 g he g2
  · simp only at h
    rw [eval_bind_some] at h
    obtain ⟨rules, _, _, h1, h, rfl⟩ := h
    obtain ⟨h2, rfl⟩ := eval_pure.1 h
    cases h2
    obtain ⟨bad, g1, g2⟩ := prevIsArgs_eval hf h1
    exact .prevIs g1 (by simpa using g2)

theorem resolveCall_eval {call : Nat} (hc : OfType f 140 call) {k : Option CallKind} {ds : List Diagnostic}
    (h : Eval (analysisBody f) (resolveCall f call) (some k) ds) :
    ∃ name args, Ident f call name ∧ ChildrenWith f call (IsExpr f) args ∧ CallMeans f call args name k ds := by
  have hn := ofType_isNode hc
  unfold resolveCall at h
  rw [eval_bind_some] at h
  obtain ⟨args, _, _, h1, h, rfl⟩ := h
  obtain ⟨ha, rfl⟩ := eval_lift.1 h1
  rw [eval_bind_some] at h
  obtain ⟨name, _, _, h1', h, rfl⟩ := h
  obtain ⟨hname, rfl⟩ := eval_lift.1 h1'
  refine ⟨name, args, (ident_iff hf hn).1 hname, childrenWith_expr hf hn ha, ?_⟩
  simp only [List.nil_append]
  split at h
  · rename_i b hb
    have hb1 := List.mem_of_find?_eq_some hb
    have hb2 := List.find?_some hb
    simp only [beq_iff_eq] at hb2
    exact hb2 ▸ builtIn_eval hf hc ha hb1 h
  · rename_i hb
    have hnb : name ∉ builtInNames := by
      rw [List.find?_eq_none] at hb
      simp only [builtIn, List.mem_cons, List.not_mem_nil, or_false, forall_eq_or_imp, forall_eq, beq_iff_eq] at hb
      simp only [builtInNames, List.map_cons, List.map_nil, List.mem_cons, List.not_mem_nil, or_false]
      rintro (e | e | e | e | e | e | e | e | e | e | e) <;> simp [e] at hb
    have hun : (∀ r pl, RuleNamed f name r → ¬ FirstChild f r (OfType f 133) pl) → ∀ ds,
        Eval (analysisBody f) (do
          let ident ← lift (f.childOfTypeExn call Ty.ident)
          error f ident "Unresolved reference"
          return (none : Option CallKind)) (some k) ds → CallMeans f call args name k ds := by
      intro hno ds h
      rw [eval_bind_some] at h
      obtain ⟨i, _, _, h1, h, rfl⟩ := h
      obtain ⟨hi, rfl⟩ := eval_lift.1 h1
      simp only [File.childOfTypeExn, Option.bind_eq_bind, Option.bind_eq_some_iff] at hi
      obtain ⟨o, ho, rfl⟩ := hi
      have hi := (childOfType_some hf hn 130).1 ho
      rw [eval_bind_some] at h
      obtain ⟨_, _, _, h1', h, rfl⟩ := h
      obtain ⟨r, hr, rfl⟩ := eval_error.1 h1'
      obtain ⟨h2, rfl⟩ := eval_pure.1 h
      cases h2
      exact .unresolved hnb hno hi (by simpa using reports_cons hr reports_nil)
    rw [eval_bind_some] at h
    obtain ⟨o, _, _, h1'', h, rfl⟩ := h
    obtain ⟨ho, rfl⟩ := findSynRule_eval hf h1''
    cases o with
    | none =>
      refine hun (fun r pl hr => ?_) _ h
      have := (ho r).2 hr; cases this
    | some rule =>
      have hrule := (ho rule).1 rfl
      simp only at h
      rw [eval_bind_some] at h
      obtain ⟨ps, _, _, h1'', h, rfl⟩ := h
      obtain ⟨hps, rfl⟩ := eval_lift.1 h1''
      have hps := ruleParams_some hf (first_isNode hf hrule) hps
      cases ps with
      | none =>
        refine hun (fun r pl hr => ?_) _ h
        rw [firstChild_unique hr hrule]
        exact hps pl
      | some ps =>
        obtain ⟨pl, hpl, hpn, hps⟩ := hps
        have hcw : ChildrenWith f pl (OfType f 134) ps :=
          childrenWith_type hf hpn (by rw [astChildren_eq hf hpn, hps])
        simp only at h
        split at h
        · rename_i hne
          rw [eval_bind_some] at h
          obtain ⟨_, _, _, h1', h, rfl⟩ := h
          obtain ⟨r, hr, rfl⟩ := eval_error.1 h1'
          obtain ⟨h2, rfl⟩ := eval_pure.1 h
          cases h2
          exact .rule hnb hrule hpl hcw (.inr ⟨hne, by simpa using reports_cons hr reports_nil⟩)
        · rename_i he
          obtain ⟨h2, rfl⟩ := eval_pure.1 h
          cases h2
          exact .rule hnb hrule hpl hcw (.inl ⟨Decidable.not_not.1 he, rfl⟩)

/-! ## Unused rules -/

theorem usedByRefs_eval {refs used : List Nat} {ds : List Diagnostic} (hr : ∀ r ∈ refs, IsNode f r)
    (h : Eval (analysisBody f) (usedByRefs refs) (some used) ds) :
    (∀ r, r ∈ used ↔ ∃ ref ∈ refs, RefersTo f ref (some (.rule r))) ∧ ds = [] := by
  induction refs generalizing used ds with
  | nil =>
    obtain ⟨h2, rfl⟩ := eval_pure.1 h
    cases h2
    simp
  | cons ref refs ih =>
    unfold usedByRefs at h
    rw [eval_bind_some] at h
    obtain ⟨k, _, _, h1, h, rfl⟩ := h
    obtain ⟨⟨ds', hk⟩, rfl⟩ := eval_get.1 h1
    change Option RefKind at k
    obtain ⟨s, rule, g1, g2, g3, -⟩ := resolveRef_eval hf (hr ref (by simp)) hk
    have hk : RefersTo f ref k := ⟨s, rule, g1, g2, g3⟩
    rw [eval_bind_some] at h
    obtain ⟨rest, _, _, h1', h, rfl⟩ := h
    obtain ⟨hrest, rfl⟩ := ih (fun r hr' => hr r (by simp [hr'])) h1'
    have hother : (∀ r, k ≠ some (.rule r)) → ∀ r, r ∈ rest ↔
        ∃ ref' ∈ ref :: refs, RefersTo f ref' (some (.rule r)) := by
      intro hne r
      rw [hrest r]
      constructor
      · rintro ⟨ref', h1, h2⟩
        exact ⟨ref', by simp [h1], h2⟩
      · rintro ⟨ref', h1, h2⟩
        rw [List.mem_cons] at h1
        rcases h1 with rfl | h1
        · exact absurd (refersTo_unique hf hk h2) (hne r)
        · exact ⟨ref', h1, h2⟩
    rcases k with _ | (t | r | p)
    · obtain ⟨h2, rfl⟩ := eval_pure.1 h
      cases h2
      exact ⟨hother (by simp), rfl⟩
    · obtain ⟨h2, rfl⟩ := eval_pure.1 h
      cases h2
      exact ⟨hother (by simp), rfl⟩
    · obtain ⟨h2, rfl⟩ := eval_pure.1 h
      cases h2
      refine ⟨fun r' => ?_, rfl⟩
      rw [List.mem_cons, hrest]
      constructor
      · rintro (rfl | ⟨ref', h1, h2⟩)
        · exact ⟨ref, by simp, hk⟩
        · exact ⟨ref', by simp [h1], h2⟩
      · rintro ⟨ref', h1, h2⟩
        rw [List.mem_cons] at h1
        rcases h1 with rfl | h1
        · cases refersTo_unique hf hk h2
          exact .inl rfl
        · exact .inr ⟨ref', h1, h2⟩
    · obtain ⟨h2, rfl⟩ := eval_pure.1 h
      cases h2
      exact ⟨hother (by simp), rfl⟩

/-- The call is a call of a rule. -/
def CallsRule (f : File UInt8) (call r : Nat) : Prop :=
  ∃ name pl, Ident f call name ∧ name ∉ builtInNames ∧ RuleNamed f name r ∧ FirstChild f r (OfType f 133) pl

omit hf in
theorem callMeans_rule {call : Nat} {args : List Nat} {name : List UInt8} {k : Option CallKind}
    {ds : List Diagnostic} (hname : Ident f call name) (h : CallMeans f call args name k ds) (r : Nat) :
    (∃ as, k = some (.ruleCall r as)) ↔ CallsRule f call r := by
  have hno : name ∈ builtInNames → ¬ CallsRule f call r := by
    rintro h ⟨name', pl, h1, h2, -⟩
    rw [labelled_unique h1 hname] at h2
    exact h2 h
  cases h with
  | rule hnb hr hpl hps hd =>
    constructor
    · rintro ⟨as, e⟩
      cases e
      exact ⟨name, _, hname, hnb, hr, hpl⟩
    · rintro ⟨name', pl, h1, h2, h3, h4⟩
      rw [labelled_unique h1 hname] at h3
      rw [firstChild_unique h3 hr]
      exact ⟨_, rfl⟩
  | unresolved hnb hno' hi hd =>
    simp only [reduceCtorEq, exists_false, false_iff]
    rintro ⟨name', pl, h1, h2, h3, h4⟩
    rw [labelled_unique h1 hname] at h3
    exact hno' r pl h3 h4
  | any | commit | eof | not | layer | withSkip | inject | isIn | enter | exit | prevIs =>
    simp only [reduceCtorEq, exists_false, false_iff, Option.some.injEq]
    exact hno (by simp [builtInNames])
  | noArgument h1 =>
    simp only [reduceCtorEq, exists_false, false_iff]
    apply hno
    simp only [List.map_cons, List.map_nil, List.mem_cons, List.not_mem_nil, or_false] at h1
    rcases h1 with rfl | rfl <;> simp [builtInNames]
  | tooFew h1 =>
    simp only [reduceCtorEq, exists_false, false_iff]
    apply hno
    simp only [List.map_cons, List.map_nil, List.mem_cons, List.not_mem_nil, or_false] at h1
    rcases h1 with rfl | rfl | rfl | rfl | rfl <;> simp [builtInNames]
  | noContext h1 =>
    simp only [reduceCtorEq, exists_false, false_iff]
    apply hno
    simp only [List.map_cons, List.map_nil, List.mem_cons, List.not_mem_nil, or_false] at h1
    rcases h1 with ⟨rfl, -⟩ | ⟨rfl | rfl, -⟩ <;> simp [builtInNames]

theorem usedByCalls_eval {calls used : List Nat} {ds : List Diagnostic} (hr : ∀ r ∈ calls, OfType f 140 r)
    (h : Eval (analysisBody f) (usedByCalls calls) (some used) ds) :
    (∀ r, r ∈ used ↔ ∃ call ∈ calls, CallsRule f call r) ∧ ds = [] := by
  induction calls generalizing used ds with
  | nil =>
    obtain ⟨h2, rfl⟩ := eval_pure.1 h
    cases h2
    simp
  | cons call calls ih =>
    unfold usedByCalls at h
    rw [eval_bind_some] at h
    obtain ⟨k, _, _, h1, h, rfl⟩ := h
    obtain ⟨⟨ds', hk⟩, rfl⟩ := eval_get.1 h1
    change Option CallKind at k
    obtain ⟨name, args, g1, g2, g3⟩ := resolveCall_eval hf (hr call (by simp)) hk
    have hk := callMeans_rule g1 g3
    rw [eval_bind_some] at h
    obtain ⟨rest, _, d2, h1', h, rfl⟩ := h
    obtain ⟨hrest, rfl⟩ := ih (fun r hr' => hr r (by simp [hr'])) h1'
    have hother : (∀ r as, k ≠ some (.ruleCall r as)) → ∀ r, r ∈ rest ↔
        ∃ call' ∈ call :: calls, CallsRule f call' r := by
      intro hne r
      rw [hrest r]
      constructor
      · rintro ⟨ref', h1, h2⟩
        exact ⟨ref', by simp [h1], h2⟩
      · rintro ⟨ref', h1, h2⟩
        rw [List.mem_cons] at h1
        rcases h1 with rfl | h1
        · obtain ⟨as, e⟩ := (hk r).2 h2
          exact absurd e (hne r as)
        · exact ⟨ref', h1, h2⟩
    by_cases hr' : ∃ r as, k = some (.ruleCall r as)
    · obtain ⟨r, as, rfl⟩ := hr'
      obtain ⟨h2, rfl⟩ := eval_pure.1 h
      cases h2
      refine ⟨fun r' => ?_, rfl⟩
      rw [List.mem_cons, hrest]
      constructor
      · rintro (rfl | ⟨ref', h1, h2⟩)
        · exact ⟨call, by simp, (hk _).1 ⟨_, rfl⟩⟩
        · exact ⟨ref', by simp [h1], h2⟩
      · rintro ⟨ref', h1, h2⟩
        rw [List.mem_cons] at h1
        rcases h1 with rfl | h1
        · obtain ⟨as, e⟩ := (hk r').2 h2
          cases e
          exact .inl rfl
        · exact .inr ⟨ref', h1, h2⟩
    · have hp : some used = some rest ∧ d2 = [] := by
        rcases k with _ | k
        · exact eval_pure.1 h
        · cases k with
          | ruleCall r as => exact absurd ⟨r, as, rfl⟩ hr'
          | _ => exact eval_pure.1 h
      obtain ⟨h2, rfl⟩ := hp
      cases h2
      exact ⟨hother fun r as e => hr' ⟨r, as, e⟩, rfl⟩

theorem warnUnused_eval {used rules : List Nat} {u : Unit} {ds : List Diagnostic}
    {body : (q : Query) → AProg (Value q)} (hr : ∀ r ∈ rules, IsNode f r)
    (h : Eval body (warnUnused f used rules) (some u) ds) :
    ∃ is, (∀ i, i ∈ is ↔ ∃ r ∈ rules, r ∉ used ∧ FirstChild f r (OfType f 130) i) ∧ is.Pairwise (InOrder f rules) ∧
      Reports f false "Unused rule" is ds := by
  induction rules generalizing ds with
  | nil =>
    obtain ⟨-, rfl⟩ := eval_pure.1 h
    exact ⟨[], by simp, .nil, reports_nil⟩
  | cons rule rules ih =>
    have ih := @ih
    unfold warnUnused at h
    have skip : ∀ {ds}, (rule ∈ used ∨ ∀ i, ¬ FirstChild f rule (OfType f 130) i) →
        Eval body (warnUnused f used rules) (some u) ds →
        ∃ is, (∀ i, i ∈ is ↔ ∃ r ∈ rule :: rules, r ∉ used ∧ FirstChild f r (OfType f 130) i) ∧
          is.Pairwise (InOrder f (rule :: rules)) ∧ Reports f false "Unused rule" is ds := by
      intro ds hs h
      obtain ⟨is, g1, g2, g3⟩ := ih (fun r hr' => hr r (by simp [hr'])) h
      refine ⟨is, fun i => ?_, g2.imp fun h => h.cons _, g3⟩
      rw [g1]
      constructor
      · rintro ⟨r, h1, h2⟩
        exact ⟨r, by simp [h1], h2⟩
      · rintro ⟨r, h1, h2, h3⟩
        rw [List.mem_cons] at h1
        rcases h1 with rfl | h1
        · rcases hs with hs | hs
          · exact absurd hs h2
          · exact absurd h3 (hs i)
        · exact ⟨r, h1, h2, h3⟩
    split at h
    · rename_i hu
      exact skip (.inl (by simpa using hu)) h
    · rename_i hu
      rw [eval_bind_some] at h
      obtain ⟨o, _, _, h1, h, rfl⟩ := h
      obtain ⟨ho, rfl⟩ := eval_lift.1 h1
      have ho := (childOfType_some hf (hr rule (by simp)) 130).1 ho
      cases o with
      | none => exact skip (.inr ho) h
      | some i =>
        simp only at h
        rw [eval_bind_some] at h
        obtain ⟨_, _, _, h1', h, rfl⟩ := h
        obtain ⟨r, hr', rfl⟩ := eval_warning.1 h1'
        obtain ⟨is, g1, g2, g3⟩ := ih (fun r hr' => hr r (by simp [hr'])) h
        refine ⟨i :: is, fun j => ?_, ?_, reports_cons hr' g3⟩
        · rw [List.mem_cons, g1]
          constructor
          · rintro (rfl | ⟨r, h1, h2⟩)
            · exact ⟨rule, by simp, by simpa using hu, ho⟩
            · exact ⟨r, by simp [h1], h2⟩
          · rintro ⟨r, h1, h2, h3⟩
            rw [List.mem_cons] at h1
            rcases h1 with rfl | h1
            · exact .inl (firstChild_unique h3 ho)
            · exact .inr ⟨r, h1, h2, h3⟩
        · refine pairwise_inOrder g2 (firstChild_desc ho) fun j hj => ?_
          obtain ⟨r, h1, -, h3⟩ := (g1 j).1 hj
          exact ⟨r, h1, firstChild_desc h3⟩

/-- The rules that are reported as unused. -/
theorem unusedRules_eval {u : Unit} {ds : List Diagnostic} (h : Eval (analysisBody f) (unusedRules f) (some u) ds) :
    ∃ is, (∀ i, i ∈ is ↔ UnusedName f i) ∧ is.Pairwise (Before f) ∧ Reports f false "Unused rule" is ds := by
  have h0 := zero_isNode hf
  unfold unusedRules at h
  rw [eval_bind_some] at h
  obtain ⟨refs, _, _, h1, h, rfl⟩ := h
  obtain ⟨hrefs, rfl⟩ := eval_lift.1 h1
  obtain ⟨all, l, -, e, -, hl, -⟩ := C52_descendants f hf.nodes 0 h0 (· == Ty.refExpr) 0
  rw [File.root, e, Option.some.injEq] at hrefs
  subst hrefs
  rw [eval_bind_some] at h
  obtain ⟨used1, _, _, h2, h, rfl⟩ := h
  obtain ⟨hu1, rfl⟩ := usedByRefs_eval hf (fun r hr => desc_isNode hf.nodes ((hl r).1 hr).1 h0) h2
  rw [eval_bind_some] at h
  obtain ⟨calls, _, _, h3, h, rfl⟩ := h
  obtain ⟨hcalls, rfl⟩ := eval_lift.1 h3
  obtain ⟨all', l', -, e', -, hl', -⟩ := C52_descendants f hf.nodes 0 h0 (· == Ty.callExpr) 0
  rw [File.root, e', Option.some.injEq] at hcalls
  subst hcalls
  have hl2 : ∀ n, n ∈ l' ↔ OfType f 140 n := by
    intro n
    rw [hl']
    constructor
    · rintro ⟨-, t, ht, e⟩
      have : t = 140 := by simpa [Ty.callExpr] using e
      exact this ▸ ht
    · intro h
      exact ⟨root_desc hf.nodes (ofType_isNode h), 140, h, by simp [Ty.callExpr]⟩
  have hl1 : ∀ n, n ∈ l ↔ OfType f 135 n := by
    intro n
    rw [hl]
    constructor
    · rintro ⟨-, t, ht, e⟩
      have : t = 135 := by simpa [Ty.refExpr] using e
      exact this ▸ ht
    · intro h
      exact ⟨root_desc hf.nodes (ofType_isNode h), 135, h, by simp [Ty.refExpr]⟩
  rw [eval_bind_some] at h
  obtain ⟨used2, _, _, h4, h, rfl⟩ := h
  obtain ⟨hu2, rfl⟩ := usedByCalls_eval hf (fun r hr => (hl2 r).1 hr) h4
  rw [eval_bind_some] at h
  obtain ⟨rules, _, _, h5, h, rfl⟩ := h
  obtain ⟨hrules, rfl⟩ := eval_lift.1 h5
  rw [File.synRules, File.root, astChildren_eq hf h0, Option.some.injEq] at hrules
  subst hrules
  have hmem : ∀ r, r ∈ (kids f 0).filter (fun c => (dat f c).ty == Ty.synRule) ↔ Child f 0 r ∧ OfType f 132 r :=
    fun r => mem_astChildren hf h0 132
  obtain ⟨is, g1, g2, g3⟩ := warnUnused_eval hf
    (fun r hr => kids_isNode hf h0 r (List.mem_filter.1 hr).1) h
  refine ⟨is, fun i => ?_, ?_, by simpa using g3⟩
  · have hused : ∀ r, r ∈ used1 ++ used2 ++ ((kids f 0).filter (fun c => (dat f c).ty == Ty.synRule)).head?.toList ↔
        UsedRule f r := by
      intro r
      rw [List.mem_append, List.mem_append, hu1, hu2, Option.mem_toList, List.head?_filter]
      unfold UsedRule
      rw [ofType_find hf h0]
      constructor
      · rintro ((⟨ref, h1, h2⟩ | ⟨call, h1, name, pl, h2⟩) | h)
        · exact .inr (.inl ⟨ref, (hl1 ref).1 h1, h2⟩)
        · exact .inr (.inr ⟨call, name, pl, (hl2 call).1 h1, h2⟩)
        · exact .inl h
      · rintro (h | ⟨ref, h1, h2⟩ | ⟨call, name, pl, h1, h2⟩)
        · exact .inr h
        · exact .inl (.inl ⟨ref, (hl1 ref).2 h1, h2⟩)
        · exact .inl (.inr ⟨call, (hl2 call).2 h1, name, pl, h2⟩)
    rw [g1]
    constructor
    · rintro ⟨r, h1, h2, h3⟩
      rw [hused] at h2
      exact ⟨r, ((hmem r).1 h1).1, ((hmem r).1 h1).2, h2, h3⟩
    · rintro ⟨r, h1, h2, h3, h4⟩
      refine ⟨r, (hmem r).2 ⟨h1, h2⟩, ?_, h4⟩
      rw [hused]
      exact h3
  · exact inOrder_before hf h0 g2

end

end Fall
