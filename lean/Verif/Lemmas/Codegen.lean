import Verif.Lemmas.AnalysisWhole
import Verif.Model.Codegen
import Verif.Spec.Codegen

namespace Fall

open Spec AProg

/-! ## Lists -/

theorem pointwise_mapM {R : α → β → Prop} {g : α → Option β} {xs : List α} {ys : List β}
    (h : xs.mapM g = some ys) (hg : ∀ x ∈ xs, ∀ y, g x = some y → R x y) : Pointwise R xs ys := by
  induction xs generalizing ys with
  | nil =>
    simp only [List.mapM_nil, Option.pure_def, Option.some.injEq] at h
    subst h
    exact .nil
  | cons x xs ih =>
    simp only [List.mapM_cons, Option.bind_eq_bind, Option.bind_eq_some_iff, Option.pure_def, Option.some.injEq] at h
    obtain ⟨y, hy, ys', hys, rfl⟩ := h
    exact .cons (hg x (by simp) y hy) (ih hys fun x hx => hg x (by simp [hx]))

theorem Spec.Pointwise.imp {R S : α → β → Prop} {xs : List α} {ys : List β} (h : Pointwise R xs ys)
    (hi : ∀ x ∈ xs, ∀ y, R x y → S x y) : Pointwise S xs ys := by
  induction h with
  | nil => exact .nil
  | cons h _ ih => exact .cons (hi _ (by simp) _ h) (ih fun x hx => hi x (by simp [hx]))

theorem Spec.Pointwise.unique {R : α → β → Prop} {xs : List α} {ys zs : List β} (h : Pointwise R xs ys)
    (h' : Pointwise R xs zs) (hu : ∀ x ∈ xs, ∀ y z, R x y → R x z → y = z) : ys = zs := by
  induction h generalizing zs with
  | nil => cases h'; rfl
  | cons h _ ih =>
    cases h' with
    | cons h1 h2 => rw [hu _ (by simp) _ _ h h1, ih h2 fun x hx => hu x (by simp [hx])]

theorem Spec.Pointwise.append {R : α → β → Prop} {xs xs' : List α} {ys ys' : List β} (h : Pointwise R xs ys)
    (h' : Pointwise R xs' ys') : Pointwise R (xs ++ xs') (ys ++ ys') := by
  induction h with
  | nil => exact h'
  | cons h _ ih => exact .cons h ih

theorem Spec.Pointwise.length {R : α → β → Prop} {xs : List α} {ys : List β} (h : Pointwise R xs ys) :
    xs.length = ys.length := by
  induction h with
  | nil => rfl
  | cons _ _ ih => simp [ih]

theorem Spec.Pointwise.mem {R : α → β → Prop} {xs : List α} {ys : List β} (h : Pointwise R xs ys) {y : β}
    (hy : y ∈ ys) : ∃ x ∈ xs, R x y := by
  induction h with
  | nil => cases hy
  | cons h _ ih =>
    rcases List.mem_cons.1 hy with rfl | hy
    · exact ⟨_, by simp, h⟩
    · obtain ⟨x, h1, h2⟩ := ih hy
      exact ⟨x, by simp [h1], h2⟩

theorem filterOpt_some {p : α → Option Bool} {xs ys : List α} (h : filterOpt p xs = some ys) :
    (∀ x ∈ xs, p x ≠ none) ∧ ys = xs.filter fun x => p x == some true := by
  induction xs generalizing ys with
  | nil =>
    simp only [filterOpt, Option.some.injEq] at h
    subst h
    simp
  | cons x xs ih =>
    simp only [filterOpt, Option.bind_eq_bind, Option.bind_eq_some_iff, Option.pure_def, Option.some.injEq] at h
    obtain ⟨b, hb, rest, hr, rfl⟩ := h
    obtain ⟨h1, h2⟩ := ih hr
    refine ⟨?_, ?_⟩
    · intro y hy
      rcases List.mem_cons.1 hy with rfl | hy
      · simp [hb]
      · exact h1 y hy
    · cases b <;> simp [hb, h2]

theorem positionOpt_some {p : α → Option Bool} {xs : List α} {c : Nat} (h : positionOpt p xs = some (some c)) :
    ∃ pre x post, xs = pre ++ x :: post ∧ p x = some true ∧ (∀ y ∈ pre, p y = some false) ∧ c = pre.length := by
  induction xs generalizing c with
  | nil => simp [positionOpt] at h
  | cons x xs ih =>
    simp only [positionOpt, Option.bind_eq_bind, Option.bind_eq_some_iff] at h
    obtain ⟨b, hb, h⟩ := h
    cases b with
    | true =>
      simp only [if_true, Option.pure_def, Option.some.injEq] at h
      subst h
      exact ⟨[], x, xs, rfl, hb, by simp, rfl⟩
    | false =>
      simp only [Bool.false_eq_true, if_false, Option.bind_eq_some_iff, Option.pure_def, Option.some.injEq,
        Option.map_eq_some_iff] at h
      obtain ⟨o, ho, c', rfl, rfl⟩ := h
      obtain ⟨pre, y, post, rfl, h1, h2, rfl⟩ := ih ho
      refine ⟨x :: pre, y, post, rfl, h1, ?_, rfl⟩
      intro z hz
      rcases List.mem_cons.1 hz with rfl | hz
      · exact hb
      · exact h2 z hz

theorem positionOpt_none {p : α → Option Bool} {xs : List α} (h : positionOpt p xs = some none) :
    ∀ x ∈ xs, p x = some false := by
  induction xs with
  | nil => simp
  | cons x xs ih =>
    simp only [positionOpt, Option.bind_eq_bind, Option.bind_eq_some_iff] at h
    obtain ⟨b, hb, h⟩ := h
    cases b with
    | true => simp at h
    | false =>
      simp only [Bool.false_eq_true, if_false, Option.bind_eq_some_iff, Option.pure_def, Option.some.injEq,
        Option.map_eq_none_iff] at h
      obtain ⟨o, ho, rfl⟩ := h
      intro z hz
      rcases List.mem_cons.1 hz with rfl | hz
      · exact hb
      · exact ih ho z hz

/-! ## Numbers -/

section
variable {f : File UInt8} (hf : ConsistentFile f)
include hf

theorem lexRules_tokens {ts : List Nat} (h : f.lexRules = some ts) : Tokens f ts := by
  simp only [File.lexRules, File.root, Option.bind_eq_bind, Option.bind_eq_some_iff] at h
  obtain ⟨d, hd, h⟩ := h
  have hd := (firstChild_some hf (zero_isNode hf) 141).1 hd
  cases d with
  | none =>
    simp only [Option.pure_def, Option.some.injEq] at h
    subst h
    exact .inr ⟨hd, rfl⟩
  | some d => exact .inl ⟨d, hd, childrenWith_type hf (first_isNode hf hd) h⟩

theorem tokens_unique {ts ts' : List Nat} (h : Tokens f ts) (h' : Tokens f ts') : ts = ts' := by
  rcases h with ⟨d, h1, h2⟩ | ⟨h1, rfl⟩ <;> rcases h' with ⟨d', h1', h2'⟩ | ⟨h1', rfl⟩
  · cases firstChild_unique h1 h1'
    exact childrenWith_unique hf (first_isNode hf h1) h2 h2'
  · exact absurd h1 (h1' d)
  · exact absurd h1' (h1 d')
  · rfl

omit hf in
theorem tokens_isNode {ts : List Nat} (h : Tokens f ts) : ∀ t ∈ ts, OfType f 142 t := by
  rcases h with ⟨d, h1, all, h2, h3, h4⟩ | ⟨h1, rfl⟩
  · exact fun t ht => (h4 t (h3.subset ht)).1 ht
  · simp

theorem namesType_iff {r : Nat} (hr : OfType f 132 r) {b : Bool} (h : f.namesType r = some b) :
    b = true ↔ (∃ p, FirstChild f r (OfType f 109) p) ∧ ∀ a, ¬ Attribute f r "type" a := by
  have hn := ofType_isNode hr
  simp only [File.namesType, Option.bind_eq_bind, Option.bind_eq_some_iff] at h
  obtain ⟨p, hp, h⟩ := h
  have hp := (childOfType_some hf hn 109).1 hp
  cases p with
  | none =>
    simp only [Option.isSome_none, Bool.false_eq_true, if_false, Option.pure_def, Option.some.injEq] at h
    subst h
    simp only [Bool.false_eq_true, false_iff]
    rintro ⟨⟨p, h⟩, -⟩
    exact hp p h
  | some p =>
    simp only [Option.isSome_some, if_true, Option.bind_eq_some_iff, Option.pure_def, Option.some.injEq] at h
    obtain ⟨t, ht, rfl⟩ := h
    have ht := typeAttr_eval hf hn ht
    cases t with
    | none =>
      simp only [Option.isNone_none, true_iff]
      exact ⟨⟨p, hp⟩, fun a ha => by have := (ht a).2 ha; cases this⟩
    | some a =>
      simp only [Option.isNone_some, Bool.false_eq_true, false_iff, not_and]
      intro _ h
      exact h a ((ht a).1 rfl)

theorem namedRules {rules rs : List Nat} {names : List (Option (List UInt8))} (hr : ∀ r ∈ rules, OfType f 132 r)
    (h1 : filterOpt f.namesType rules = some rs) (h2 : rs.mapM f.ruleName = some names) :
    ∃ rs', rs'.Sublist rules ∧ (∀ r ∈ rules, r ∈ rs' ↔ NamesType f r) ∧
      Pointwise (Ident f) rs' (names.filterMap id) := by
  suffices ∃ rs', rs'.Sublist rules ∧ (∀ r ∈ rs', NamesType f r) ∧ (∀ r ∈ rules, NamesType f r → r ∈ rs') ∧
      Pointwise (Ident f) rs' (names.filterMap id) by
    obtain ⟨rs', g1, g2, g3, g4⟩ := this
    exact ⟨rs', g1, fun r hr => ⟨g2 r, g3 r hr⟩, g4⟩
  induction rules generalizing rs names with
  | nil =>
    simp only [filterOpt, Option.some.injEq] at h1
    subst h1
    simp only [List.mapM_nil, Option.pure_def, Option.some.injEq] at h2
    subst h2
    exact ⟨[], by simp, by simp, by simp, .nil⟩
  | cons r rules ih =>
    simp only [filterOpt, Option.bind_eq_bind, Option.bind_eq_some_iff, Option.pure_def, Option.some.injEq] at h1
    obtain ⟨b, hb, rest, hrest, rfl⟩ := h1
    have hb := namesType_iff hf (hr r (by simp)) hb
    cases b with
    | false =>
      simp only [Bool.false_eq_true, if_false] at h2
      obtain ⟨rs', g1, g2, g3, g4⟩ := ih (fun r h => hr r (by simp [h])) hrest h2
      refine ⟨rs', g1.cons _, g2, ?_, g4⟩
      intro x hx hnt
      rcases List.mem_cons.1 hx with rfl | hx
      · have := hb.2 ⟨hnt.2.1, hnt.2.2.1⟩
        cases this
      · exact g3 x hx hnt
    | true =>
      simp only [if_true, List.mapM_cons, Option.bind_eq_bind, Option.bind_eq_some_iff, Option.pure_def,
        Option.some.injEq] at h2
      obtain ⟨o, ho, names', hnames, rfl⟩ := h2
      have ho := ruleName_eval hf (ofType_isNode (hr r (by simp))) ho
      obtain ⟨rs', g1, g2, g3, g4⟩ := ih (fun r h => hr r (by simp [h])) hrest hnames
      cases o with
      | none =>
        refine ⟨rs', g1.cons _, g2, ?_, by simpa using g4⟩
        intro x hx hnt
        rcases List.mem_cons.1 hx with rfl | hx
        · obtain ⟨s, hs⟩ := hnt.2.2.2
          have := (ho s).2 hs
          cases this
        · exact g3 x hx hnt
      | some s =>
        have hs := (ho s).1 rfl
        obtain ⟨b1, b2⟩ := hb.1 rfl
        refine ⟨r :: rs', g1.cons_cons _, ?_, ?_, by simpa using .cons hs g4⟩
        · intro x hx
          rcases List.mem_cons.1 hx with rfl | hx
          · exact ⟨hr x (by simp), b1, b2, s, hs⟩
          · exact g2 x hx
        · intro x hx hnt
          rcases List.mem_cons.1 hx with rfl | hx
          · simp
          · exact List.mem_cons_of_mem _ (g3 x hx hnt)

theorem synRules_children {rs : List Nat} (h : f.synRules = some rs) : ChildrenWith f 0 (OfType f 132) rs :=
  childrenWith_type hf (zero_isNode hf) h

omit hf in
theorem childrenWith_mem {n : Nat} {P : Nat → Prop} {cs : List Nat} (h : ChildrenWith f n P cs) :
    ∀ c ∈ cs, Child f n c ∧ P c := by
  obtain ⟨all, h1, h2, h3⟩ := h
  exact fun c hc => ⟨⟨all, h1, h2.subset hc⟩, (h3 c (h2.subset hc)).1 hc⟩

theorem genTypes_names {types : List (List UInt8 × Bool)} (h : f.genTypes = some types) :
    TypeNames f (types.map (·.1)) := by
  simp only [File.genTypes, Option.bind_eq_bind, Option.bind_eq_some_iff, Option.pure_def, Option.some.injEq] at h
  obtain ⟨ts, hts, toks, htoks, rules, hrules, rs, hrs, names, hnames, rfl⟩ := h
  have hT := lexRules_tokens hf hts
  have hR := synRules_children hf hrules
  obtain ⟨all, a1, a2, a3⟩ := hR
  have hall : ∀ r ∈ rules, OfType f 132 r := fun r hr => (a3 r (a2.subset hr)).1 hr
  obtain ⟨rs', g1, g2, g3⟩ := namedRules hf hall hrs hnames
  refine ⟨ts, rs', toks.map (·.1), names.filterMap id, hT, ⟨all, a1, g1.trans a2, ?_⟩, ?_, g3, ?_⟩
  · intro c hc
    by_cases hm : c ∈ rules
    · exact g2 c hm
    · constructor
      · intro h; exact absurd (g1.subset h) hm
      · intro h; exact absurd ((a3 c hc).2 h.1) hm
  · have := tokens_isNode hT
    clear hts hT
    induction ts generalizing toks with
    | nil =>
      simp only [List.mapM_nil, Option.pure_def, Option.some.injEq] at htoks
      subst htoks
      exact .nil
    | cons t ts ih =>
      simp only [List.mapM_cons, Option.bind_eq_bind, Option.bind_eq_some_iff, Option.pure_def, Option.some.injEq]
        at htoks
      obtain ⟨x, ⟨s, hs, b, -, rfl⟩, xs, hxs, rfl⟩ := htoks
      refine .cons ((ident_iff hf (ofType_isNode (this t (by simp)))).1 hs) ?_
      exact ih xs (by simpa using hxs) fun t ht => this t (by simp [ht])
  · simp [Function.comp_def]

theorem typeNames_unique {ss ss' : List (List UInt8)} (h : TypeNames f ss) (h' : TypeNames f ss') : ss = ss' := by
  obtain ⟨ts, rs, s1, s2, h1, h2, h3, h4, rfl⟩ := h
  obtain ⟨ts', rs', s1', s2', h1', h2', h3', h4', rfl⟩ := h'
  cases tokens_unique hf h1 h1'
  cases childrenWith_unique hf (zero_isNode hf) h2 h2'
  rw [h3.unique h3' fun _ _ _ _ => labelled_unique, h4.unique h4' fun _ _ _ _ => labelled_unique]

theorem typeNumber_iff {types : List (List UInt8 × Bool)} (h : f.genTypes = some types) {s : List UInt8} {k : Nat} :
    typeNumber types s = some k ↔ TypeNumber f s k := by
  have hN := genTypes_names hf h
  have key : typeNumber types s = some k ↔
      ∃ ss1 ss2, types.map (·.1) = ss1 ++ s :: ss2 ∧ s ∉ ss1 ∧ k = ss1.length + 1 := by
    unfold typeNumber
    clear hN h
    induction types generalizing k with
    | nil => simp
    | cons t types ih =>
      rw [List.findIdx?_cons]
      by_cases e : t.1 = s
      · simp only [e, beq_self_eq_true, if_true, Option.map_some, Option.some.injEq]
        constructor
        · rintro rfl
          exact ⟨[], types.map (·.1), by simp [e], by simp, rfl⟩
        · rintro ⟨ss1, ss2, h1, h2, rfl⟩
          cases ss1 with
          | nil => rfl
          | cons a ss1 =>
            simp only [List.map_cons, List.cons_append, List.cons.injEq] at h1
            exact absurd (by simp [← h1.1, e]) h2
      · rw [if_neg (by simpa using e)]
        simp only [Option.map_map]
        constructor
        · intro h
          simp only [Option.map_eq_some_iff, Function.comp_apply] at h
          obtain ⟨i, hi, rfl⟩ := h
          obtain ⟨ss1, ss2, h1, h2, h3⟩ := ih.1 (by rw [hi]; rfl)
          refine ⟨t.1 :: ss1, ss2, by simp [h1], ?_, by simp [h3]⟩
          simp only [List.mem_cons, not_or]
          exact ⟨fun h => e h.symm, h2⟩
        · rintro ⟨ss1, ss2, h1, h2, rfl⟩
          cases ss1 with
          | nil =>
            simp only [List.map_cons, List.nil_append, List.cons.injEq] at h1
            exact absurd h1.1 e
          | cons a ss1 =>
            simp only [List.map_cons, List.cons_append, List.cons.injEq] at h1
            have := ih.2 ⟨ss1, ss2, h1.2, fun h => h2 (by simp [h]), rfl⟩
            simp only [Option.map_eq_some_iff, Function.comp_apply, List.length_cons] at this ⊢
            obtain ⟨i, hi, e'⟩ := this
            exact ⟨i, hi, by omega⟩
  rw [key]
  constructor
  · rintro ⟨ss1, ss2, h1, h2, rfl⟩
    exact ⟨ss1, ss2, h1 ▸ hN, h2, rfl⟩
  · rintro ⟨ss1, ss2, h1, h2, rfl⟩
    exact ⟨ss1, ss2, typeNames_unique hf hN h1, h2, rfl⟩

theorem ruleParams_of {r : Nat} (hr : IsNode f r) {o : Option (List Nat)} (h : f.ruleParams r = some o) :
    ParamsOf f r (o.getD []) := by
  have := ruleParams_some hf hr h
  cases o with
  | none => exact .inr ⟨this, rfl⟩
  | some l =>
    obtain ⟨ps, h1, h2, rfl⟩ := this
    refine .inl ⟨ps, h1, childrenWith_type hf h2 ?_⟩
    exact astChildren_eq hf h2 (· == 134)

omit hf in
theorem findIdx_beq {xs : List Nat} {p i : Nat} (h : xs.findIdx? (· == p) = some i) : xs[i]? = some p := by
  rw [List.findIdx?_eq_some_iff_getElem] at h
  obtain ⟨h1, h2, -⟩ := h
  simp only [beq_iff_eq] at h2
  rw [List.getElem?_eq_getElem h1, h2]

theorem paramRef_number {p i : Nat}
    (h : (do
      let params ← (← f.synRules).mapM f.ruleParams
      (params.filterMap id).flatten.findIdx? (· == p)) = some i) : ParamNumber f p i := by
  simp only [Option.bind_eq_bind, Option.bind_eq_some_iff] at h
  obtain ⟨rs, hrs, params, hp, h⟩ := h
  have hR := synRules_children hf hrs
  refine ⟨rs, params.map (·.getD []), hR, ?_, ?_⟩
  · have hall := childrenWith_mem hR
    clear h hrs hR
    induction rs generalizing params with
    | nil =>
      simp only [List.mapM_nil, Option.pure_def, Option.some.injEq] at hp
      subst hp
      exact .nil
    | cons r rs ih =>
      simp only [List.mapM_cons, Option.bind_eq_bind, Option.bind_eq_some_iff, Option.pure_def, Option.some.injEq]
        at hp
      obtain ⟨o, ho, os, hos, rfl⟩ := hp
      exact .cons (ruleParams_of hf (ofType_isNode (hall r (by simp)).2) ho)
        (ih os hos fun r hr => hall r (by simp [hr]))
  · have := findIdx_beq h
    rw [← this]
    congr 1
    clear this h hp
    induction params with
    | nil => rfl
    | cons o os ih => cases o <;> simp [ih]

end

/-! ## Runs of the generator -/

/-- The generator succeeds with `a`, starting with the expressions `es`, and leaves `es'`. -/
def Gives (f : File UInt8) (m : Gen α) (es : List Expr) (a : α) (es' : List Expr) : Prop :=
  ∃ ds, Eval (analysisBody f) (m es) (some (some (a, es'))) ds

section
variable {f : File UInt8}

theorem gives_bind {m : Gen α} {k : α → Gen β} {es es' : List Expr} {b : β} :
    Gives f (m >>= k) es b es' ↔ ∃ a es1, Gives f m es a es1 ∧ Gives f (k a) es1 b es' := by
  have e : (m >>= k) es = (m es >>= fun r => match r with
      | none => pure none
      | some (v, es) => k v es) := by
    show Gen.bind m k es = _
    unfold Gen.bind
    congr 1
  constructor
  · rintro ⟨ds, h⟩
    rw [e, eval_bind_some] at h
    obtain ⟨r, ds1, ds2, h1, h2, rfl⟩ := h
    cases r with
    | none =>
      rw [eval_pure] at h2
      simp at h2
    | some r => exact ⟨r.1, r.2, ⟨_, h1⟩, ⟨_, h2⟩⟩
  · rintro ⟨a, es1, ⟨ds1, h1⟩, ⟨ds2, h2⟩⟩
    exact ⟨ds1 ++ ds2, by rw [e, eval_bind_some]; exact ⟨_, _, _, h1, h2, rfl⟩⟩

theorem gives_pure {a b : α} {es es' : List Expr} : Gives f (pure a) es b es' ↔ b = a ∧ es' = es := by
  constructor
  · rintro ⟨ds, h⟩
    have h := (eval_pure.1 h).1
    simpa using h
  · rintro ⟨rfl, rfl⟩
    exact ⟨[], eval_pure.2 ⟨rfl, rfl⟩⟩

theorem gives_lift {x : Option α} {b : α} {es es' : List Expr} :
    Gives f (Gen.lift x) es b es' ↔ x = some b ∧ es' = es := by
  constructor
  · rintro ⟨ds, h⟩
    unfold Gen.lift at h
    rw [eval_bind_some] at h
    obtain ⟨v, ds1, ds2, h1, h2, rfl⟩ := h
    have h1 := (eval_lift.1 h1).1
    have h2 := (eval_pure.1 h2).1
    simp only [Option.some.injEq, Prod.mk.injEq] at h2
    exact ⟨h2.1 ▸ h1, h2.2⟩
  · rintro ⟨rfl, rfl⟩
    refine ⟨[], ?_⟩
    unfold Gen.lift
    rw [eval_bind_some]
    exact ⟨b, [], [], eval_lift.2 ⟨rfl, rfl⟩, eval_pure.2 ⟨rfl, rfl⟩, rfl⟩

theorem gives_get {q : Query} {v : Value q} {es es' : List Expr} :
    Gives f (Gen.get q) es v es' ↔ (∃ ds, Eval (analysisBody f) (analysisBody f q) (some v) ds) ∧ es' = es := by
  constructor
  · rintro ⟨ds, h⟩
    unfold Gen.get at h
    rw [eval_bind_some] at h
    obtain ⟨v', ds1, ds2, h1, h2, rfl⟩ := h
    have h1 := (eval_get.1 h1).1
    have h2 := (eval_pure.1 h2).1
    simp only [Option.some.injEq, Prod.mk.injEq] at h2
    exact ⟨h2.1 ▸ h1, h2.2⟩
  · rintro ⟨h, rfl⟩
    refine ⟨[], ?_⟩
    unfold Gen.get
    rw [eval_bind_some]
    exact ⟨v, [], [], eval_get.2 ⟨h, rfl⟩, eval_pure.2 ⟨rfl, rfl⟩, rfl⟩

theorem gives_err {b : α} {es es' : List Expr} : ¬ Gives f Gen.err es b es' := by
  rintro ⟨ds, h⟩
  have h := (eval_pure.1 h).1
  simp at h

theorem gives_okOr {x : Option α} {b : α} {es es' : List Expr} :
    Gives f (Gen.okOr x) es b es' ↔ x = some b ∧ es' = es := by
  cases x with
  | none => simpa [Gen.okOr] using gives_err
  | some v =>
    show Gives f (pure v) _ _ _ ↔ _
    rw [gives_pure]
    simp [eq_comm]

theorem gives_push {e : Expr} {i : Nat} {es es' : List Expr} :
    Gives f (Gen.push e) es i es' ↔ i = es.length ∧ es' = es ++ [e] := by
  constructor
  · rintro ⟨ds, h⟩
    have h := (eval_pure.1 h).1
    simpa using h
  · rintro ⟨rfl, rfl⟩
    exact ⟨[], eval_pure.2 ⟨rfl, rfl⟩⟩

/-! ## Labels -/

theorem rename_congr {φ ψ : Nat → Nat} {e : Expr} (h : ∀ r ∈ references e, φ r = ψ r) : rename φ e = rename ψ e := by
  cases e with
  | pratt t =>
    simp only [references, List.mem_append, List.mem_map] at h
    simp only [rename, renameTable, Expr.pratt.injEq, PrattTable.mk.injEq]
    refine ⟨List.map_congr_left fun a ha => h a (.inl (.inl ha)), List.map_congr_left fun a ha => ?_,
      List.map_congr_left fun a ha => ?_⟩
    · rw [h a.op (.inl (.inr ⟨a, ha, rfl⟩))]
    · rw [h a.op (.inr ⟨a, ha, rfl⟩)]
  | call b args =>
    simp only [references, List.mem_cons, List.mem_map] at h
    simp only [rename, Expr.call.injEq]
    refine ⟨h b (.inl rfl), List.map_congr_left fun a ha => ?_⟩
    rw [h a.2 (.inr ⟨a, ha, rfl⟩)]
  | or ps => simpa [rename, references] using h
  | and ps c => simpa [rename, references] using h
  | _ => simp_all [rename, references]

/-- The label of an expression. -/
def labelOf (lab : List Nat) (i : Nat) : Nat := lab.getD i 0

theorem labelOf_prefix {lab lab' : List Nat} (h : lab <+: lab') {i : Nat} (hi : i < lab.length) :
    labelOf lab' i = labelOf lab i := by
  obtain ⟨rest, rfl⟩ := h
  simp [labelOf, List.getElem?_append_left hi]

/-- The labels say what the pushed expressions stand for. -/
structure Labels (f : File UInt8) (rs : List Nat) (es : List Expr) (lab : List Nat) : Prop where
  len : lab.length = es.length
  rules : rs <+: lab
  good : ∀ k e, rs.length ≤ k → es[k]? = some e →
    (∀ r ∈ references e, r < rs.length ∨ r < k) ∧ Says f (labelOf lab k) (rename (labelOf lab) e)

theorem Labels.below {rs : List Nat} {es : List Expr} {lab : List Nat} (h : Labels f rs es lab) :
    rs.length ≤ lab.length := h.rules.length_le

theorem Labels.push {rs : List Nat} {es : List Expr} {lab : List Nat} (h : Labels f rs es lab) {e : Expr} {n : Nat}
    (hr : ∀ r ∈ references e, r < lab.length) (hs : Says f n (rename (labelOf lab) e)) :
    Labels f rs (es ++ [e]) (lab ++ [n]) := by
  have hp : lab <+: lab ++ [n] := List.prefix_append _ _
  refine ⟨by simp [h.len], h.rules.trans hp, ?_⟩
  intro k e' hk he'
  by_cases hlt : k < es.length
  · rw [List.getElem?_append_left hlt] at he'
    obtain ⟨h1, h2⟩ := h.good k e' hk he'
    refine ⟨h1, ?_⟩
    rw [labelOf_prefix hp (by rw [h.len]; exact hlt)]
    rwa [rename_congr fun r hr => labelOf_prefix hp ?_]
    have := h.below
    have := h.len
    rcases h1 r hr with h1 | h1 <;> omega
  · have hk' : k = es.length := by
      have := (List.getElem?_eq_some_iff.1 he').1
      simp at this
      omega
    subst hk'
    simp only [List.getElem?_concat_length, Option.some.injEq] at he'
    subst he'
    refine ⟨fun r hr' => .inr (h.len ▸ hr r hr'), ?_⟩
    have : labelOf (lab ++ [n]) es.length = n := by simp [labelOf, ← h.len]
    rw [this]
    rwa [rename_congr fun r hr' => labelOf_prefix hp (hr r hr')]

/-- The generator has pushed labelled expressions. -/
structure Grows (f : File UInt8) (rs : List Nat) (es : List Expr) (lab : List Nat) (es' : List Expr) (lab' : List Nat) :
    Prop where
  exprs : es <+: es'
  labs : lab <+: lab'
  labels : Labels f rs es' lab'

theorem Grows.refl {rs : List Nat} {es : List Expr} {lab : List Nat} (h : Labels f rs es lab) :
    Grows f rs es lab es lab := ⟨List.prefix_refl _, List.prefix_refl _, h⟩

theorem Grows.trans {rs : List Nat} {es es' es'' : List Expr} {lab lab' lab'' : List Nat}
    (h : Grows f rs es lab es' lab') (h' : Grows f rs es' lab' es'' lab'') : Grows f rs es lab es'' lab'' :=
  ⟨h.exprs.trans h'.exprs, h.labs.trans h'.labs, h'.labels⟩

theorem Grows.push {rs : List Nat} {es es' : List Expr} {lab lab' : List Nat} (h : Grows f rs es lab es' lab')
    {e : Expr} {n : Nat} (hr : ∀ r ∈ references e, r < lab'.length) (hs : Says f n (rename (labelOf lab') e)) :
    Grows f rs es lab (es' ++ [e]) (lab' ++ [n]) :=
  ⟨h.exprs.trans (List.prefix_append _ _), h.labs.trans (List.prefix_append _ _), h.labels.push hr hs⟩

theorem each_grows {rs : List Nat} {g : α → Gen β} {Q : α → β → List Nat → Prop} {xs : List α} {bs : List β}
    {es es' : List Expr} {lab : List Nat} (hl : Labels f rs es lab)
    (hg : ∀ x ∈ xs, ∀ es lab b es', Labels f rs es lab → Gives f (g x) es b es' →
      ∃ lab', Grows f rs es lab es' lab' ∧ Q x b lab')
    (hQ : ∀ x b lab lab', lab <+: lab' → Q x b lab → Q x b lab')
    (h : Gives f (Gen.each g xs) es bs es') :
    ∃ lab', Grows f rs es lab es' lab' ∧ Pointwise (fun x b => Q x b lab') xs bs := by
  induction xs generalizing es lab bs with
  | nil =>
    obtain ⟨rfl, rfl⟩ := gives_pure.1 h
    exact ⟨lab, .refl hl, .nil⟩
  | cons x xs ih =>
    unfold Gen.each at h
    rw [gives_bind] at h
    obtain ⟨b, es1, h1, h⟩ := h
    rw [gives_bind] at h
    obtain ⟨bs', es2, h2, h⟩ := h
    obtain ⟨rfl, rfl⟩ := gives_pure.1 h
    obtain ⟨lab1, g1, q1⟩ := hg x (by simp) es lab b es1 hl h1
    obtain ⟨lab2, g2, q2⟩ := ih g1.labels (fun x hx => hg x (by simp [hx])) h2
    exact ⟨lab2, g1.trans g2, .cons (hQ _ _ _ _ g2.labs q1) q2⟩

/-- The expression `i` stands for what is written at `n`. -/
def Stands (f : File UInt8) (n i : Nat) (lab : List Nat) : Prop := i < lab.length ∧ Target f n (labelOf lab i)

theorem Stands.mono {n i : Nat} {lab lab' : List Nat} (h : lab <+: lab') (hs : Stands f n i lab) :
    Stands f n i lab' :=
  ⟨Nat.lt_of_lt_of_le hs.1 h.length_le, by rw [labelOf_prefix h hs.1]; exact hs.2⟩

theorem stands_map {ns is : List Nat} {lab : List Nat} (h : Pointwise (fun n i => Stands f n i lab) ns is) :
    Pointwise (Target f) ns (is.map (labelOf lab)) ∧ ∀ i ∈ is, i < lab.length := by
  induction h with
  | nil => exact ⟨.nil, by simp⟩
  | cons h _ ih =>
    refine ⟨.cons h.2 ih.1, ?_⟩
    intro i hi
    rcases List.mem_cons.1 hi with rfl | hi
    · exact h.1
    · exact ih.2 i hi

end

/-! ## Expressions -/

section
variable {f : File UInt8} (hf : ConsistentFile f)
include hf

omit hf in
theorem synRuleRef_gives {rs : List Nat} (hrs : f.synRules = some rs) {es es' : List Expr} {lab : List Nat}
    (hl : Labels f rs es lab) {r i : Nat} (h : Gives f (synRuleRef f r) es i es') :
    es' = es ∧ i < rs.length ∧ labelOf lab i = r := by
  obtain ⟨k, rfl⟩ := gives_lift.1 h
  simp only [hrs, Option.bind_eq_bind, Option.bind_some] at k
  have k := findIdx_beq k
  have hi := (List.getElem?_eq_some_iff.1 k).1
  refine ⟨rfl, hi, ?_⟩
  rw [labelOf_prefix hl.rules hi]
  simp [labelOf, k]

theorem synRuleTy_gives {types : List (List UInt8 × Bool)} (ht : f.genTypes = some types) {r : Nat} (hr : IsNode f r)
    {es es' : List Expr} {o : Option Nat} (h : Gives f (synRuleTy f types r) es o es') :
    es' = es ∧ ∀ k, o = some k ↔ RuleType f r k := by
  unfold synRuleTy at h
  rw [gives_bind] at h
  obtain ⟨name, es1, h1, h⟩ := h
  obtain ⟨k1, rfl⟩ := gives_lift.1 h1
  obtain ⟨rfl, rfl⟩ := gives_pure.1 h
  refine ⟨rfl, fun k => ?_⟩
  have h1 := tyName_eval hf hr k1
  rw [Option.bind_eq_some_iff]
  unfold RuleType
  constructor
  · rintro ⟨s, rfl, q⟩
    exact ⟨s, (h1 s).1 rfl, (typeNumber_iff hf ht).1 q⟩
  · rintro ⟨s, h, h'⟩
    exact ⟨s, (h1 s).2 h, (typeNumber_iff hf ht).2 h'⟩

theorem paramRef_gives {p i : Nat} {es es' : List Expr} (h : Gives f (paramRef f p) es i es') :
    es' = es ∧ ParamNumber f p i := by
  obtain ⟨k, rfl⟩ := gives_lift.1 h
  exact ⟨rfl, paramRef_number hf k⟩

theorem genToken_gives {types : List (List UInt8 × Bool)} (ht : f.genTypes = some types) {n t : Nat}
    (hn : OfType f 135 n) (hr : RefersTo f n (some (.token t))) (htn : IsNode f t) {es es' : List Expr} {e : Expr}
    (h : Gives f (genToken f types t) es e es') :
    es' = es ∧ references e = [] ∧ ∀ φ, Says f n (rename φ e) := by
  unfold genToken at h
  rw [gives_bind] at h
  obtain ⟨ty, es1, h1, h⟩ := h
  obtain ⟨k1, rfl⟩ := gives_lift.1 h1
  simp only [Option.bind_eq_bind, Option.bind_eq_some_iff] at k1
  obtain ⟨s, hs, k1⟩ := k1
  have hs := (ident_iff hf htn).1 hs
  have k1 := (typeNumber_iff hf ht).1 k1
  rw [gives_bind] at h
  obtain ⟨b, es1, h2, h⟩ := h
  obtain ⟨k2, rfl⟩ := gives_lift.1 h2
  have k2 := hasAttr_eval hf htn k2
  cases b with
  | false =>
    simp only [Bool.false_eq_true, if_false] at h
    obtain ⟨rfl, rfl⟩ := gives_pure.1 h
    refine ⟨rfl, rfl, fun φ => .token hn hr hs k1 fun a ha => ?_⟩
    have := k2.2 ⟨a, ha⟩
    cases this
  | true =>
    simp only [if_true] at h
    rw [gives_bind] at h
    obtain ⟨o, es1, h3, h⟩ := h
    obtain ⟨k3, rfl⟩ := gives_lift.1 h3
    rw [gives_bind] at h
    obtain ⟨text, es1, h4, h⟩ := h
    obtain ⟨rfl, rfl⟩ := gives_okOr.1 h4
    obtain ⟨rfl, rfl⟩ := gives_pure.1 h
    obtain ⟨a, ha⟩ := k2.1 rfl
    simp only [File.tokenText, Option.bind_eq_bind, Option.bind_eq_some_iff] at k3
    obtain ⟨c, hc, k3⟩ := k3
    have hc := (childOfType_some hf htn 147).1 hc
    cases c with
    | none => simp at k3
    | some c =>
      simp only [Option.bind_eq_some_iff] at k3
      obtain ⟨raw, hraw, k3⟩ := k3
      split at k3
      · simp at k3
      · rename_i hq
        simp only [Option.map_eq_map, Option.map_eq_some_iff, Option.some.injEq, exists_eq_right] at k3
        refine ⟨rfl, rfl, fun φ => .contextual hn hr hs k1 ha ⟨c, hc, hraw⟩ ?_ (litBody_iff.1 k3)⟩
        rintro q rfl
        simp [startsWithByte] at hq

omit hf in
/-- The expressions that are arguments of a call with this meaning. -/
def callParts : CallKind → List Nat
  | .not e => [e]
  | .layer e1 e2 => [e1, e2]
  | .withSkip e1 e2 => [e1, e2]
  | .inject e1 e2 => [e1, e2]
  | .enter _ e => [e]
  | .exit _ e => [e]
  | .ruleCall _ args => args.map (·.2)
  | _ => []

omit hf in
theorem callMeans_parts {call : Nat} {args : List Nat} {name : List UInt8} {k : CallKind} {ds : List Diagnostic}
    (h : CallMeans f call args name (some k) ds) : ∀ e ∈ callParts k, e ∈ args := by
  cases h with
  | rule _ _ _ _ _ =>
    intro x hx
    simp only [callParts, List.mem_map] at hx
    obtain ⟨a, ha, rfl⟩ := hx
    exact (List.of_mem_zip (a := a.1) (b := a.2) ha).2
  | _ => simp_all [callParts]

omit hf in
theorem publicRefs_rules {args rules : List Nat} {bad : Nat} (h : PublicRefs f args rules bad) :
    ∀ r ∈ rules, OfType f 132 r := by
  induction h with
  | nil => simp
  | bad _ _ ih => exact ih
  | good h _ ih =>
    intro r hr
    rcases List.mem_cons.1 hr with rfl | hr
    · obtain ⟨-, ⟨s, rule, -, -, -, cs, -, h⟩, -⟩ := h
      exact (first_mem h).2.1
    · exact ih r hr

omit hf in
/-- The generator of expressions works for all smaller expressions. -/
def GenOk (f : File UInt8) (rs : List Nat) (rec : Nat → Gen Nat) : Prop :=
  ∀ n es lab i es', IsExpr f n → Labels f rs es lab → Gives f (rec n) es i es' →
    ∃ lab', Grows f rs es lab es' lab' ∧ Stands f n i lab' ∧
      (OfType f 135 n ∨ (es.length ≤ i ∧ i + 1 = es'.length))

omit hf in
theorem gen_two {rs : List Nat} {rec : Nat → Gen Nat} (hrec : GenOk f rs rec) {e1 e2 : Nat} (h1 : IsExpr f e1)
    (h2 : IsExpr f e2) {es es' : List Expr} {lab : List Nat} (hl : Labels f rs es lab) {c : Nat → Nat → Expr} {e : Expr}
    (h : Gives f (do
      let r1 ← rec e1
      let r2 ← rec e2
      return c r1 r2) es e es') :
    ∃ lab' r1 r2, Grows f rs es lab es' lab' ∧ Stands f e1 r1 lab' ∧ Stands f e2 r2 lab' ∧ e = c r1 r2 := by
  rw [gives_bind] at h
  obtain ⟨r1, es1, g1, h⟩ := h
  rw [gives_bind] at h
  obtain ⟨r2, es2, g2, h⟩ := h
  obtain ⟨rfl, rfl⟩ := gives_pure.1 h
  obtain ⟨lab1, k1, s1, -⟩ := hrec e1 es lab r1 es1 h1 hl g1
  obtain ⟨lab2, k2, s2, -⟩ := hrec e2 es1 lab1 r2 es' h2 k1.labels g2
  exact ⟨lab2, r1, r2, k1.trans k2, s1.mono k2.labs, s2, rfl⟩

omit hf in
theorem gen_one {rs : List Nat} {rec : Nat → Gen Nat} (hrec : GenOk f rs rec) {e1 : Nat} (h1 : IsExpr f e1)
    {es es' : List Expr} {lab : List Nat} (hl : Labels f rs es lab) {c : Nat → Expr} {e : Expr}
    (h : Gives f (do
      let r1 ← rec e1
      return c r1) es e es') :
    ∃ lab' r1, Grows f rs es lab es' lab' ∧ Stands f e1 r1 lab' ∧ e = c r1 := by
  rw [gives_bind] at h
  obtain ⟨r1, es1, g1, h⟩ := h
  obtain ⟨rfl, rfl⟩ := gives_pure.1 h
  obtain ⟨lab1, k1, s1, -⟩ := hrec e1 es lab r1 es' h1 hl g1
  exact ⟨lab1, r1, k1, s1, rfl⟩

theorem genCall_gives {types : List (List UInt8 × Bool)} (ht : f.genTypes = some types) {rs : List Nat}
    (hrs : f.synRules = some rs) {rec : Nat → Gen Nat} (hrec : GenOk f rs rec) {k : CallKind}
    (hparts : ∀ e ∈ callParts k, IsExpr f e) (hrules : ∀ l, k = .prevIs l → ∀ r ∈ l, OfType f 132 r)
    {es es' : List Expr} {lab : List Nat} (hl : Labels f rs es lab) {e : Expr}
    (h : Gives f (genCall f types rec k) es e es') :
    ∃ lab', Grows f rs es lab es' lab' ∧ (∀ r ∈ references e, r < lab'.length) ∧
      CallSays f k (rename (labelOf lab') e) := by
  cases k with
  | eof =>
    obtain ⟨rfl, rfl⟩ := gives_pure.1 h
    exact ⟨lab, .refl hl, by simp [references], .eof⟩
  | any =>
    obtain ⟨rfl, rfl⟩ := gives_pure.1 h
    exact ⟨lab, .refl hl, by simp [references], .any⟩
  | isIn c =>
    obtain ⟨rfl, rfl⟩ := gives_pure.1 h
    exact ⟨lab, .refl hl, by simp [references], .isIn⟩
  | commit =>
    obtain ⟨h, -⟩ := gives_lift.1 h
    cases h
  | not e1 =>
    obtain ⟨lab', r1, g, s1, rfl⟩ := gen_one hrec (hparts e1 (by simp [callParts])) hl h
    exact ⟨lab', g, by simpa [references] using s1.1, .not s1.2⟩
  | enter c e1 =>
    obtain ⟨lab', r1, g, s1, rfl⟩ := gen_one hrec (hparts e1 (by simp [callParts])) hl h
    exact ⟨lab', g, by simpa [references] using s1.1, .enter s1.2⟩
  | exit c e1 =>
    obtain ⟨lab', r1, g, s1, rfl⟩ := gen_one hrec (hparts e1 (by simp [callParts])) hl h
    exact ⟨lab', g, by simpa [references] using s1.1, .exit s1.2⟩
  | layer e1 e2 =>
    obtain ⟨lab', r1, r2, g, s1, s2, rfl⟩ := gen_two hrec (hparts e1 (by simp [callParts]))
      (hparts e2 (by simp [callParts])) hl h
    exact ⟨lab', g, by simpa [references] using ⟨s1.1, s2.1⟩, .layer s1.2 s2.2⟩
  | withSkip e1 e2 =>
    obtain ⟨lab', r1, r2, g, s1, s2, rfl⟩ := gen_two hrec (hparts e1 (by simp [callParts]))
      (hparts e2 (by simp [callParts])) hl h
    exact ⟨lab', g, by simpa [references] using ⟨s1.1, s2.1⟩, .withSkip s1.2 s2.2⟩
  | inject e1 e2 =>
    obtain ⟨lab', r1, r2, g, s1, s2, rfl⟩ := gen_two hrec (hparts e1 (by simp [callParts]))
      (hparts e2 (by simp [callParts])) hl h
    exact ⟨lab', g, by simpa [references] using ⟨s1.1, s2.1⟩, .inject s1.2 s2.2⟩
  | prevIs l =>
    unfold genCall at h
    rw [gives_bind] at h
    obtain ⟨tys, es1, h1, h⟩ := h
    obtain ⟨rfl, rfl⟩ := gives_pure.1 h
    obtain ⟨lab', g, hp⟩ := each_grows (Q := fun r k _ => RuleType f r k) hl (by
      intro r hr es lab ty es' hl' h
      rw [gives_bind] at h
      obtain ⟨o, es1, h1, h⟩ := h
      obtain ⟨rfl, k1⟩ := synRuleTy_gives hf ht (ofType_isNode (hrules l rfl r hr)) h1
      obtain ⟨rfl, rfl⟩ := gives_lift.1 h
      exact ⟨lab, .refl hl', (k1 ty).1 rfl⟩) (fun _ _ _ _ _ h => h) h1
    exact ⟨lab', g, by simp [references], .prevIs hp⟩
  | ruleCall r args =>
    unfold genCall at h
    rw [gives_bind] at h
    obtain ⟨b, es1, h1, h⟩ := h
    obtain ⟨rfl, hb, hbr⟩ := synRuleRef_gives hrs hl h1
    rw [gives_bind] at h
    obtain ⟨as, es1, h2, h⟩ := h
    obtain ⟨rfl, rfl⟩ := gives_pure.1 h
    obtain ⟨lab', g, hp⟩ := each_grows
      (Q := fun (pe : Nat × Nat) (it : Nat × Nat) lab => ParamNumber f pe.1 it.1 ∧ Stands f pe.2 it.2 lab) hl (by
      intro pe hpe es lab it es' hl' h
      rw [gives_bind] at h
      obtain ⟨i, es1, h1, h⟩ := h
      obtain ⟨rfl, q1⟩ := paramRef_gives hf h1
      rw [gives_bind] at h
      obtain ⟨t, es2, h2, h⟩ := h
      obtain ⟨rfl, rfl⟩ := gives_pure.1 h
      have hx : IsExpr f pe.2 := hparts pe.2 (by
        simp only [callParts, List.mem_map]
        exact ⟨pe, hpe, rfl⟩)
      obtain ⟨lab1, k1, s1, -⟩ := hrec pe.2 es1 lab t es' hx hl' h2
      exact ⟨lab1, k1, q1, s1⟩) (fun _ _ _ _ hp h => ⟨h.1, h.2.mono hp⟩) h2
    have hb' : b < lab.length := Nat.lt_of_lt_of_le hb hl.below
    refine ⟨lab', g, ?_, ?_⟩
    · simp only [references, List.mem_cons, List.mem_map]
      rintro x (rfl | ⟨it, hit, rfl⟩)
      · exact Nat.lt_of_lt_of_le hb' g.labs.length_le
      · obtain ⟨pe, -, -, hs⟩ := hp.mem hit
        exact hs.1
    · simp only [rename]
      rw [labelOf_prefix g.labs hb', hbr]
      refine .rule ?_
      clear h2 hparts hrules h
      induction hp with
      | nil => exact .nil
      | cons hq _ ih => exact .cons ⟨hq.1, hq.2.2⟩ ih

omit hf in
theorem target_self {n : Nat} (h : ∀ r, ¬ (OfType f 135 n ∧ RefersTo f n (some (.rule r)))) : Target f n n := .inr ⟨h, rfl⟩

omit hf in
theorem target_type {n : Nat} {ty : NodeType} (h : OfType f ty n) (hne : ty ≠ 135) : Target f n n :=
  target_self fun r hr => by
    have := hr.1
    unfold OfType at h this
    rw [h, Option.some.injEq] at this
    exact hne this

omit hf in
/-- Pushing an expression that is written at the node itself. -/
theorem grows_here {rs : List Nat} {es es' es'' : List Expr} {lab lab' : List Nat} (g : Grows f rs es lab es' lab')
    {e : Expr} {n i : Nat} (h : Gives f (Gen.push e) es' i es'') (hr : ∀ r ∈ references e, r < lab'.length)
    (hs : Says f n (rename (labelOf lab') e)) (ht : Target f n n) :
    ∃ lab'', Grows f rs es lab es'' lab'' ∧ Stands f n i lab'' ∧
      (OfType f 135 n ∨ (es.length ≤ i ∧ i + 1 = es''.length)) := by
  obtain ⟨rfl, rfl⟩ := gives_push.1 h
  have hlen := g.labels.len
  refine ⟨lab' ++ [n], g.push hr hs, ⟨by simp [hlen], ?_⟩, .inr ⟨g.exprs.length_le, by simp⟩⟩
  have : labelOf (lab' ++ [n]) es'.length = n := by simp [labelOf, ← hlen]
  rwa [this]

omit hf in
theorem isCommit_iff {p : Nat} {b : Bool} (h : f.isCommit p = some b) : b = true ↔ IsCommit f p := by
  simp only [File.isCommit, Option.bind_eq_bind, Option.bind_eq_some_iff, Option.pure_def, Option.some.injEq] at h
  obtain ⟨s, hs, rfl⟩ := h
  simp [IsCommit, hs]

omit hf in
theorem commitAt_position {parts : List Nat} {c : Option Nat} (h : positionOpt f.isCommit parts = some c) :
    CommitAt f parts c := by
  cases c with
  | some c =>
    obtain ⟨pre, x, post, h1, h2, h3, h4⟩ := positionOpt_some h
    refine ⟨pre, x, post, h1, (isCommit_iff h2).1 rfl, fun q hq hc => ?_, h4⟩
    have := (isCommit_iff (h3 q hq)).2 hc
    cases this
  | none =>
    intro p hp hc
    have := (isCommit_iff (positionOpt_none h p hp)).2 hc
    cases this

omit hf in
theorem kept_parts {n : Nat} {parts kept : List Nat} (hp : ChildrenWith f n (IsExpr f) parts)
    (h : filterOpt (fun p => (f.isCommit p).map (!·)) parts = some kept) :
    ChildrenWith f n (fun p => IsExpr f p ∧ ¬ IsCommit f p) kept := by
  obtain ⟨h1, rfl⟩ := filterOpt_some h
  obtain ⟨all, a1, a2, a3⟩ := hp
  refine ⟨all, a1, List.filter_sublist.trans a2, fun c hc => ?_⟩
  simp only [List.mem_filter, a3 c hc]
  refine and_congr_right fun he => ?_
  have hm := (a3 c hc).2 he
  have hne := h1 c hm
  cases hb : f.isCommit c with
  | none => simp [hb] at hne
  | some b =>
    have := isCommit_iff hb
    rw [← this]
    cases b <;> simp

theorem genExpr_ok {types : List (List UInt8 × Bool)} (ht : f.genTypes = some types) {rs : List Nat}
    (hrs : f.synRules = some rs) (fuel : Nat) : GenOk f rs (genExpr f types fuel) := by
  induction fuel with
  | zero =>
    intro n es lab i es' _ _ h
    obtain ⟨h, -⟩ := gives_lift.1 h
    cases h
  | succ fuel ih =>
    intro n es lab i es' hn hl h
    unfold genExpr at h
    rw [gives_bind] at h
    obtain ⟨ty, es1, h1, h⟩ := h
    obtain ⟨hty, e1⟩ := gives_lift.1 h1
    subst e1
    clear h1
    have hnode : IsNode f n := ofType_isNode (show OfType f ty n from hty)
    have hall : ∀ xs, (∀ x ∈ xs, IsExpr f x) → ∀ es lab is es', Labels f rs es lab →
        Gives f (Gen.each (genExpr f types fuel) xs) es is es' →
        ∃ lab', Grows f rs es lab es' lab' ∧ Pointwise (fun n i => Stands f n i lab') xs is := by
      intro xs hx es lab is es' hl' h
      refine each_grows (Q := Stands f) hl' ?_ (fun x b lab lab' hp h => h.mono hp) h
      intro x hxm es lab b es' hl' h
      obtain ⟨lab', g, s, -⟩ := ih x es lab b es' (hx x hxm) hl' h
      exact ⟨lab', g, s⟩
    split at h
    · -- block
      rename_i e
      cases beq_iff_eq.1 e
      rw [gives_bind] at h
      obtain ⟨alts, es1, h1, h⟩ := h
      obtain ⟨q1, e1⟩ := gives_lift.1 h1
      subst e1
      rw [gives_bind] at h
      obtain ⟨is, es1, h2, h⟩ := h
      have hc := childrenWith_expr hf hnode q1
      obtain ⟨lab', g, hp⟩ := hall alts (fun x hx => (childrenWith_mem hc x hx).2) _ lab is es1 hl h2
      obtain ⟨m1, m2⟩ := stands_map hp
      exact grows_here g h (by simpa [references] using m2) (.block hty hc m1) (target_type (ty := 137) hty (by decide))
    split at h
    · -- seq
      rename_i e
      cases beq_iff_eq.1 e
      rw [gives_bind] at h
      obtain ⟨parts, es1, h1, h⟩ := h
      obtain ⟨q1, e1⟩ := gives_lift.1 h1
      subst e1
      rw [gives_bind] at h
      obtain ⟨c, es1, h2, h⟩ := h
      obtain ⟨q2, e1⟩ := gives_lift.1 h2
      subst e1
      rw [gives_bind] at h
      obtain ⟨kept, es1, h3, h⟩ := h
      obtain ⟨q3, e1⟩ := gives_lift.1 h3
      subst e1
      rw [gives_bind] at h
      obtain ⟨is, es1, h4, h⟩ := h
      have hc := childrenWith_expr hf hnode q1
      have hk := kept_parts hc q3
      obtain ⟨lab', g, hp⟩ := hall kept (fun x hx => (childrenWith_mem hk x hx).2.1) _ lab is es1 hl h4
      obtain ⟨m1, m2⟩ := stands_map hp
      exact grows_here g h (by simpa [references] using m2) (.seq hty hc (commitAt_position q2) hk m1)
        (target_type (ty := 136) hty (by decide))
    split at h
    · -- ref
      rename_i e
      cases beq_iff_eq.1 e
      have hty : OfType f 135 n := hty
      rw [gives_bind] at h
      obtain ⟨k, es1, h1, h⟩ := h
      obtain ⟨⟨ds, q1⟩, e1⟩ := gives_get.1 h1
      subst e1
      obtain ⟨s, rule, r1, r2, r3, -⟩ := resolveRef_eval hf hnode q1
      have hr : RefersTo f n k := ⟨s, rule, r1, r2, r3⟩
      cases k with
      | none => exact absurd h gives_err
      | some k =>
        cases k with
        | token t =>
          simp only at h
          rw [gives_bind] at h
          obtain ⟨e, es1, h2, h⟩ := h
          have htn : IsNode f t := by
            obtain ⟨-, -, d, -, cs, -, h⟩ := r3
            obtain ⟨_, _, _, h, -⟩ := h
            exact ofType_isNode h.1
          obtain ⟨e1, q2, q3⟩ := genToken_gives hf ht hty hr htn h2
          subst e1
          exact grows_here (.refl hl) h (by simp [q2]) (q3 _) (target_self fun r hr' => by
            have := refersTo_unique hf hr hr'.2
            cases this)
        | rule r =>
          obtain ⟨e1, q2, q3⟩ := synRuleRef_gives hrs hl h
          subst e1
          exact ⟨lab, .refl hl, ⟨Nat.lt_of_lt_of_le q2 hl.below, q3 ▸ .inl ⟨hty, hr⟩⟩, .inl hty⟩
        | param p =>
          simp only at h
          rw [gives_bind] at h
          obtain ⟨j, es1, h2, h⟩ := h
          obtain ⟨e1, q2⟩ := paramRef_gives hf h2
          subst e1
          exact grows_here (.refl hl) h (by simp [references]) (.param hty hr q2) (target_self fun r hr' => by
            have := refersTo_unique hf hr hr'.2
            cases this)
    split at h
    · -- call
      rename_i e
      cases beq_iff_eq.1 e
      have hty : OfType f 140 n := hty
      rw [gives_bind] at h
      obtain ⟨k, es1, h1, h⟩ := h
      obtain ⟨⟨ds, q1⟩, e1⟩ := gives_get.1 h1
      subst e1
      rw [gives_bind] at h
      obtain ⟨k', es1, h2, h⟩ := h
      obtain ⟨rfl, e1⟩ := gives_okOr.1 h2
      subst e1
      obtain ⟨name, args, r1, r2, r3⟩ := resolveCall_eval hf hty q1
      rw [gives_bind] at h
      obtain ⟨e, es1, h3, h⟩ := h
      obtain ⟨lab', g, s1, s2⟩ := genCall_gives hf ht hrs ih
        (fun e he => (childrenWith_mem r2 e (callMeans_parts r3 e he)).2) (by
          rintro l rfl
          cases r3 with
          | prevIs h _ => exact publicRefs_rules h) hl h3
      exact grows_here g h s1 (.call hty r1 r2 r3 s2) (target_type hty (by decide))
    split at h
    · -- opt
      rename_i e
      cases beq_iff_eq.1 e
      rw [gives_bind] at h
      obtain ⟨b, es1, h1, h⟩ := h
      obtain ⟨q1, e1⟩ := gives_lift.1 h1
      subst e1
      rw [gives_bind] at h
      obtain ⟨j, es1, h2, h⟩ := h
      have hb := (ruleBody_iff hf hnode).1 q1
      have hbe : IsExpr f b := by
        obtain ⟨cs, -, h⟩ := hb
        exact (first_mem h).2
      obtain ⟨lab', g, s, -⟩ := ih b _ lab j es1 hbe hl h2
      exact grows_here g h (by simpa [references] using s.1) (.opt hty hb s.2) (target_type (ty := 138) hty (by decide))
    split at h
    · -- rep
      rename_i e
      cases beq_iff_eq.1 e
      rw [gives_bind] at h
      obtain ⟨b, es1, h1, h⟩ := h
      obtain ⟨q1, e1⟩ := gives_lift.1 h1
      subst e1
      rw [gives_bind] at h
      obtain ⟨j, es1, h2, h⟩ := h
      have hb := (ruleBody_iff hf hnode).1 q1
      have hbe : IsExpr f b := by
        obtain ⟨cs, -, h⟩ := hb
        exact (first_mem h).2
      obtain ⟨lab', g, s, -⟩ := ih b _ lab j es1 hbe hl h2
      exact grows_here g h (by simpa [references] using s.1) (.rep hty hb s.2) (target_type (ty := 139) hty (by decide))
    · obtain ⟨h, -⟩ := gives_lift.1 h
      cases h

/-! ## Rules -/

omit hf in
theorem refersTo_rule {n r : Nat} (h : RefersTo f n (some (.rule r))) : OfType f 132 r := by
  obtain ⟨s, rule, -, -, -, cs, -, h⟩ := h
  exact (first_mem h).2.1

theorem altToRule_gives {alt r : Nat} {es es' : List Expr} (h : Gives f (altToRule f alt) es r es') :
    es' = es ∧ AltRule f alt r := by
  unfold altToRule at h
  rw [gives_bind] at h
  obtain ⟨ty, es1, h1, h⟩ := h
  obtain ⟨hty, e1⟩ := gives_lift.1 h1
  subst e1
  split at h
  · rename_i e
    cases beq_iff_eq.1 e
    rw [gives_bind] at h
    obtain ⟨parts, es1, h2, h⟩ := h
    obtain ⟨q2, e1⟩ := gives_lift.1 h2
    subst e1
    have hn : IsNode f alt := ofType_isNode (show OfType f 136 alt from hty)
    have hc := childrenWith_expr hf hn q2
    cases parts with
    | nil => exact absurd h gives_err
    | cons part parts =>
      simp only at h
      rw [gives_bind] at h
      obtain ⟨pty, es1, h3, h⟩ := h
      obtain ⟨q3, e1⟩ := gives_lift.1 h3
      subst e1
      split at h
      · rename_i e
        cases beq_iff_eq.1 e
        rw [gives_bind] at h
        obtain ⟨k, es1, h4, h⟩ := h
        obtain ⟨⟨ds, q4⟩, e1⟩ := gives_get.1 h4
        subst e1
        have hpt : OfType f 135 part := q3
        obtain ⟨s, rule, r1, r2, r3, -⟩ := resolveRef_eval hf (ofType_isNode hpt) q4
        split at h
        · obtain ⟨rfl, rfl⟩ := gives_pure.1 h
          have hfirst : f.ruleBody alt = some part := by
            have hq := q2
            rw [astChildren_eq hf hn, Option.some.injEq] at hq
            simp [File.ruleBody, firstChild_eq hf hn, ← List.head?_filter, hq]
          exact ⟨rfl, hty, part, (ruleBody_iff hf hn).1 hfirst, hpt, s, rule, r1, r2, r3⟩
        · exact absurd h gives_err
      · exact absurd h gives_err
  · exact absurd h gives_err

omit hf in
theorem operator_isExpr {r op n : Nat} {ds : List Diagnostic}
    (h : OperatorMeans f r (some (.prefix op n)) ds ∨ OperatorMeans f r (some (.postfix op n)) ds ∨
      OperatorMeans f r (some (.bin op n)) ds) : IsExpr f op := by
  rcases h with h | h | h
  · cases h with
    | «prefix» _ _ _ h _ =>
      obtain ⟨-, alt, -, -, h⟩ := h
      exact (childrenWith_mem h op (by simp)).2
  · cases h with
    | «postfix» _ _ _ h _ =>
      obtain ⟨-, alt, -, -, h⟩ := h
      exact (childrenWith_mem h op (by simp)).2
  · cases h with
    | bin _ _ _ h _ =>
      obtain ⟨-, alt, -, -, h⟩ := h
      exact (childrenWith_mem h op (by simp)).2

theorem genPratt_gives {types : List (List UInt8 × Bool)} (ht : f.genTypes = some types) {rs : List Nat}
    (hrs : f.synRules = some rs) {rec : Nat → Gen Nat} (hrec : GenOk f rs rec) {alts : List Nat} {t0 t : PrattTable}
    {es es' : List Expr} {lab : List Nat} (hl : Labels f rs es lab)
    (h : Gives f (genPratt f types rec alts t0) es t es') :
    ∃ lab' t1, Grows f rs es lab es' lab' ∧
      t = ⟨t0.atoms ++ t1.atoms, t0.prefixes ++ t1.prefixes, t0.infixes ++ t1.infixes⟩ ∧
      (∀ r ∈ references (.pratt t1), r < lab'.length) ∧ TableSays f alts (renameTable (labelOf lab') t1) := by
  induction alts generalizing t0 es lab with
  | nil =>
    obtain ⟨rfl, rfl⟩ := gives_pure.1 h
    exact ⟨lab, ⟨[], [], []⟩, .refl hl, by simp, by simp [references], .nil⟩
  | cons alt alts ih =>
    unfold genPratt at h
    rw [gives_bind] at h
    obtain ⟨r, es1, h1, h⟩ := h
    obtain ⟨e1, hr⟩ := altToRule_gives hf h1
    subst e1
    have hr132 : OfType f 132 r := by
      obtain ⟨-, part, -, -, h⟩ := hr
      exact refersTo_rule h
    rw [gives_bind] at h
    obtain ⟨o, es1, h2, h⟩ := h
    obtain ⟨e1, q2⟩ := synRuleTy_gives hf ht (ofType_isNode hr132) h2
    subst e1
    rw [gives_bind] at h
    obtain ⟨ty, es1, h3, h⟩ := h
    obtain ⟨q3, e1⟩ := gives_okOr.1 h3
    subst e1
    have hty := (q2 ty).1 q3
    rw [gives_bind] at h
    obtain ⟨k, es1, h4, h⟩ := h
    obtain ⟨⟨ds, q4⟩, e1⟩ := gives_get.1 h4
    subst e1
    rw [gives_bind] at h
    obtain ⟨k', es1, h5, h⟩ := h
    obtain ⟨rfl, e1⟩ := gives_okOr.1 h5
    subst e1
    have hop := prattVariant_eval hf (ofType_isNode hr132) q4
    have hbelow : ∀ {t1 : PrattTable} {lab' : List Nat} {x : Nat}, (∀ r ∈ references (.pratt t1), r < lab'.length) →
        x ∈ references (.pratt t1) → x < lab'.length := fun h hx => h _ hx
    cases k' with
    | atom b =>
      simp only at h
      rw [gives_bind] at h
      obtain ⟨j, es1, h6, h⟩ := h
      obtain ⟨e1, j1, j2⟩ := synRuleRef_gives hrs hl h6
      subst e1
      obtain ⟨lab', t1, g, rfl, s1, s2⟩ := ih hl h
      have hj : j < lab.length := Nat.lt_of_lt_of_le j1 hl.below
      refine ⟨lab', ⟨j :: t1.atoms, t1.prefixes, t1.infixes⟩, g, by simp, ?_, ?_⟩
      · intro x hx
        simp only [references, List.cons_append, List.mem_cons] at hx s1
        rcases hx with rfl | hx
        · exact Nat.lt_of_lt_of_le hj g.labs.length_le
        · exact s1 x hx
      · have : labelOf lab' j = r := by rw [labelOf_prefix g.labs hj, j2]
        simp only [renameTable, List.map_cons, this]
        exact .atom hr hty hop s2
    | «postfix» op n =>
      simp only at h
      rw [gives_bind] at h
      obtain ⟨j, es1, h6, h⟩ := h
      obtain ⟨lab1, g1, s1, -⟩ := hrec op _ lab j es1 (operator_isExpr (.inr (.inl hop))) hl h6
      obtain ⟨lab', t1, g, rfl, s2, s3⟩ := ih g1.labels h
      refine ⟨lab', ⟨t1.atoms, t1.prefixes, ⟨ty, j, n, false⟩ :: t1.infixes⟩, g1.trans g, by simp, ?_, ?_⟩
      · intro x hx
        simp only [references, List.map_cons, List.mem_append, List.mem_cons] at hx s2
        rcases hx with hx | rfl | hx
        · exact s2 x (.inl hx)
        · exact (s1.mono g.labs).1
        · exact s2 x (.inr hx)
      · exact .postfixOp hr hty hop (s1.mono g.labs).2 s3
    | «prefix» op n =>
      simp only at h
      rw [gives_bind] at h
      obtain ⟨j, es1, h6, h⟩ := h
      obtain ⟨lab1, g1, s1, -⟩ := hrec op _ lab j es1 (operator_isExpr (.inl hop)) hl h6
      obtain ⟨lab', t1, g, rfl, s2, s3⟩ := ih g1.labels h
      refine ⟨lab', ⟨t1.atoms, ⟨ty, j, n⟩ :: t1.prefixes, t1.infixes⟩, g1.trans g, by simp, ?_, ?_⟩
      · intro x hx
        simp only [references, List.map_cons, List.mem_append, List.mem_cons] at hx s2
        rcases hx with (hx | rfl | hx) | hx
        · exact s2 x (.inl (.inl hx))
        · exact (s1.mono g.labs).1
        · exact s2 x (.inl (.inr hx))
        · exact s2 x (.inr hx)
      · exact .prefixOp hr hty hop (s1.mono g.labs).2 s3
    | bin op n =>
      simp only at h
      rw [gives_bind] at h
      obtain ⟨j, es1, h6, h⟩ := h
      obtain ⟨lab1, g1, s1, -⟩ := hrec op _ lab j es1 (operator_isExpr (.inr (.inr hop))) hl h6
      obtain ⟨lab', t1, g, rfl, s2, s3⟩ := ih g1.labels h
      refine ⟨lab', ⟨t1.atoms, t1.prefixes, ⟨ty, j, n, true⟩ :: t1.infixes⟩, g1.trans g, by simp, ?_, ?_⟩
      · intro x hx
        simp only [references, List.map_cons, List.mem_append, List.mem_cons] at hx s2
        rcases hx with hx | rfl | hx
        · exact s2 x (.inl hx)
        · exact (s1.mono g.labs).1
        · exact s2 x (.inr hx)
      · exact .bin hr hty hop (s1.mono g.labs).2 s3

theorem genBody_gives (hb : BlockBodies f) {types : List (List UInt8 × Bool)} (ht : f.genTypes = some types)
    {rs : List Nat} (hrs : f.synRules = some rs) {fuel r : Nat} (hr : OfType f 132 r) {es es' : List Expr}
    {lab : List Nat} (hl : Labels f rs es lab) {i : Nat} (h : Gives f (genBody f types fuel r) es i es') :
    ∃ lab', Grows f rs es lab es' lab' ∧ BodyOf f r (labelOf lab' i) ∧ es.length ≤ i ∧ i + 1 = es'.length := by
  have hn := ofType_isNode hr
  unfold genBody at h
  rw [gives_bind] at h
  obtain ⟨pratt, es1, h1, h⟩ := h
  obtain ⟨q1, e1⟩ := gives_lift.1 h1
  subst e1
  have q1 := hasAttr_eval hf hn q1
  rw [gives_bind] at h
  obtain ⟨body, es1, h2, h⟩ := h
  obtain ⟨q2, e1⟩ := gives_lift.1 h2
  subst e1
  have q2 := (ruleBody_iff hf hn).1 q2
  have hbody := hb r body hr q2
  cases pratt with
  | false =>
    simp only [Bool.false_eq_true, if_false] at h
    have hbe : IsExpr f body := by
      obtain ⟨cs, -, h⟩ := q2
      exact (first_mem h).2
    obtain ⟨lab', g, s, o⟩ := genExpr_ok hf ht hrs fuel body _ lab i es' hbe hl h
    refine ⟨lab', g, .inr ⟨fun a ha => ?_, body, q2, s.2⟩, ?_⟩
    · have := q1.2 ⟨a, ha⟩
      cases this
    · rcases o with o | o
      · unfold OfType at hbody o
        rw [hbody] at o
        cases o
      · exact o
  | true =>
    simp only [if_true] at h
    obtain ⟨a, ha⟩ := q1.1 rfl
    rw [gives_bind] at h
    obtain ⟨ty, es1, h3, h⟩ := h
    obtain ⟨q3, e1⟩ := gives_lift.1 h3
    subst e1
    split at h
    · rw [gives_bind] at h
      obtain ⟨alts, es1, h4, h⟩ := h
      obtain ⟨q4, e1⟩ := gives_lift.1 h4
      subst e1
      rw [gives_bind] at h
      obtain ⟨t, es1, h5, h⟩ := h
      obtain ⟨lab', t1, g, e, s1, s2⟩ := genPratt_gives hf ht hrs (genExpr_ok hf ht hrs fuel) hl h5
      have e : t = t1 := by simpa using e
      subst e
      obtain ⟨rfl, rfl⟩ := gives_push.1 h
      have hlen := g.labels.len
      refine ⟨lab' ++ [a], g.push s1 (.table hr ha q2 hbody (childrenWith_expr hf (ofType_isNode hbody) q4) s2), .inl ?_,
        g.exprs.length_le, by simp⟩
      have : labelOf (lab' ++ [a]) es1.length = a := by simp [labelOf, ← hlen]
      rwa [this]
    · obtain ⟨h, -⟩ := gives_lift.1 h
      cases h

omit hf in
theorem gives_assertLast {b : Nat} {u : Unit} {es es' : List Expr} (h : Gives f (assertLast b) es u es') :
    es' = es := by
  have h : Gives f (Gen.lift (if es.length = b + 1 then some () else none)) es u es' := h
  exact (gives_lift.1 h).2

omit hf in
theorem gives_pop {e : Expr} {es es' : List Expr} (h : Gives f popExpr es e es') :
    es.getLast? = some e ∧ es' = es.dropLast := by
  obtain ⟨ds, h⟩ := h
  unfold popExpr at h
  rw [eval_bind_some] at h
  obtain ⟨v, ds1, ds2, h1, h2, rfl⟩ := h
  have h1 := (eval_lift.1 h1).1
  have h2 := (eval_pure.1 h2).1
  simp only [Option.some.injEq, Prod.mk.injEq] at h2
  exact ⟨h2.1 ▸ h1, h2.2⟩

omit hf in
theorem Labels.dropLast {rs : List Nat} {es : List Expr} {lab : List Nat} (h : Labels f rs es lab)
    (hlt : rs.length < es.length) : Labels f rs es.dropLast lab.dropLast := by
  have hlen := h.len
  have hp : lab.dropLast <+: lab := List.dropLast_prefix lab
  refine ⟨by simp [hlen], ?_, ?_⟩
  · exact List.prefix_of_prefix_length_le h.rules hp (by simp; omega)
  · intro k e hk he
    have hk' : k < es.dropLast.length := (List.getElem?_eq_some_iff.1 he).1
    simp only [List.length_dropLast] at hk'
    have he' : es[k]? = some e := by
      obtain ⟨rest, hrest⟩ := List.dropLast_prefix es
      rw [← hrest, List.getElem?_append_left (by simpa using hk')]
      exact he
    obtain ⟨h1, h2⟩ := h.good k e hk he'
    refine ⟨h1, ?_⟩
    rw [← labelOf_prefix hp (by simp; omega)]
    rwa [← rename_congr fun r hr => labelOf_prefix hp ?_]
    have := h1 r hr
    simp only [List.length_dropLast]
    omega

theorem genRule_gives (hb : BlockBodies f) {types : List (List UInt8 × Bool)} (ht : f.genTypes = some types)
    {rs : List Nat} (hrs : f.synRules = some rs) {fuel r : Nat} (hr : OfType f 132 r) {es es' : List Expr}
    {lab : List Nat} (hl : Labels f rs es lab) {e : Expr} (h : Gives f (genRule f types fuel r) es e es') :
    ∃ lab', Grows f rs es lab es' lab' ∧ (∀ r ∈ references e, r < lab'.length) ∧
      Says f r (rename (labelOf lab') e) := by
  have hn := ofType_isNode hr
  unfold genRule at h
  rw [gives_bind] at h
  obtain ⟨b, es1, h1, h⟩ := h
  obtain ⟨lab1, g1, b1, b2, b3⟩ := genBody_gives hf hb ht hrs hr hl h1
  have hlen := g1.labels.len
  have hblt : b < lab1.length := by omega
  rw [gives_bind] at h
  obtain ⟨ty, es2, h2, h⟩ := h
  obtain ⟨e1, q2⟩ := synRuleTy_gives hf ht hn h2
  subst e1
  rw [gives_bind] at h
  obtain ⟨replaces, es2, h3, h⟩ := h
  obtain ⟨q3, e1⟩ := gives_lift.1 h3
  subst e1
  have q3 := hasAttr_eval hf hn q3
  rw [gives_bind] at h
  obtain ⟨cached, es2, h4, h⟩ := h
  obtain ⟨q4, e1⟩ := gives_lift.1 h4
  subst e1
  have q4 := hasAttr_eval hf hn q4
  clear h1 h2 h3 h4
  have hno : ∀ {b : Bool} {name : String}, (b = true ↔ ∃ a, Attribute f r name a) → b = false →
      ∀ a, ¬ Attribute f r name a := by
    intro b name h e a ha
    rw [h.2 ⟨a, ha⟩] at e
    cases e
  have hnone : ty = none → ∀ k, ¬ RuleType f r k := by
    intro e k hk
    rw [(q2 k).2 hk] at e
    cases e
  cases ty with
  | some ty =>
    have hty := (q2 ty).1 rfl
    cases replaces with
    | true =>
      obtain ⟨rfl, rfl⟩ := gives_pure.1 h
      obtain ⟨a, ha⟩ := q3.1 rfl
      exact ⟨lab1, g1, by simpa [references] using hblt, .replaces hr hty ha b1⟩
    | false =>
      cases cached with
      | false =>
        simp only at h
        rw [gives_bind] at h
        obtain ⟨replaceable, es2, h5, h⟩ := h
        obtain ⟨q5, e1⟩ := gives_lift.1 h5
        subst e1
        have q5 := hasAttr_eval hf hn q5
        obtain ⟨rfl, rfl⟩ := gives_pure.1 h
        exact ⟨lab1, g1, by simpa [references] using hblt, .pub hr hty (hno q3 rfl) (hno q4 rfl) b1 q5⟩
      | true =>
        simp only at h
        obtain ⟨a, ha⟩ := q4.1 rfl
        rw [gives_bind] at h
        obtain ⟨j, es3, h5, h⟩ := h
        obtain ⟨rfl, rfl⟩ := gives_push.1 h5
        rw [gives_bind] at h
        obtain ⟨replaceable, es3, h6, h⟩ := h
        obtain ⟨q6, e1⟩ := gives_lift.1 h6
        subst e1
        have q6 := hasAttr_eval hf hn q6
        obtain ⟨rfl, rfl⟩ := gives_pure.1 h
        have hlab : labelOf (lab1 ++ [a]) es2.length = a := by simp [labelOf, ← hlen]
        refine ⟨lab1 ++ [a], g1.push (by simpa [references] using hblt) (.memory hr ha b1),
          by simp [references, hlen], ?_⟩
        simp only [rename, hlab]
        exact .pubCached hr hty (hno q3 rfl) ha q6
  | none =>
    cases replaces with
    | true =>
      obtain ⟨h, -⟩ := gives_lift.1 h
      cases h
    | false =>
      cases cached with
      | true =>
        simp only at h
        rw [gives_bind] at h
        obtain ⟨u, es2, h5, h⟩ := h
        have e1 := gives_assertLast h5
        subst e1
        obtain ⟨rfl, rfl⟩ := gives_pure.1 h
        obtain ⟨a, ha⟩ := q4.1 rfl
        exact ⟨lab1, g1, by simpa [references] using hblt, .cached hr (hnone rfl) (hno q3 rfl) ha b1⟩
      | false =>
        simp only at h
        rw [gives_bind] at h
        obtain ⟨u, es2, h5, h⟩ := h
        have e1 := gives_assertLast h5
        subst e1
        obtain ⟨q6, rfl⟩ := gives_pop h
        have hbel := hl.below
        have hlen0 := hl.len
        have hdl : lab1.dropLast.length = b := by simp; omega
        have hp : lab1.dropLast <+: lab1 := List.dropLast_prefix lab1
        have heb : es2[b]? = some e := by
          rw [List.getLast?_eq_getElem?] at q6
          rwa [show es2.length - 1 = b by omega] at q6
        obtain ⟨r1, r2⟩ := g1.labels.good b e (by omega) heb
        have r1' : ∀ r ∈ references e, r < lab1.dropLast.length := by
          intro r hr
          have := r1 r hr
          omega
        refine ⟨lab1.dropLast, ⟨?_, ?_, g1.labels.dropLast (by omega)⟩, r1', ?_⟩
        · exact List.prefix_of_prefix_length_le g1.exprs (List.dropLast_prefix _) (by simp; omega)
        · exact List.prefix_of_prefix_length_le g1.labs hp (by omega)
        · rw [rename_congr fun r hr => (labelOf_prefix hp (r1' r hr)).symm]
          exact .plain hr (hnone rfl) (hno q3 rfl) (hno q4 rfl) b1 r2

omit hf in
theorem Labels.set {rs : List Nat} {es : List Expr} {lab : List Nat} (h : Labels f rs es lab) {i : Nat} {e : Expr}
    (hi : i < rs.length) : Labels f rs (es.set i e) lab := by
  refine ⟨by simp [h.len], h.rules, fun k e' hk he => h.good k e' hk ?_⟩
  rwa [List.getElem?_set_ne (by omega)] at he

theorem genRules_gives (hb : BlockBodies f) {types : List (List UInt8 × Bool)} (ht : f.genTypes = some types)
    {rs : List Nat} (hrs : f.synRules = some rs) {fuel : Nat} {todo : List Nat} {i : Nat} (hi : rs.drop i = todo)
    {es es' : List Expr} {lab : List Nat} (hl : Labels f rs es lab)
    (hdone : ∀ k e, k < i → k < rs.length → es[k]? = some e →
      (∀ r ∈ references e, r < lab.length) ∧ Says f (labelOf lab k) (rename (labelOf lab) e))
    {u : Unit} (h : Gives f (genRules f types fuel i todo) es u es') :
    ∃ lab', Labels f rs es' lab' ∧ ∀ k e, k < rs.length → es'[k]? = some e →
      (∀ r ∈ references e, r < lab'.length) ∧ Says f (labelOf lab' k) (rename (labelOf lab') e) := by
  induction todo generalizing i es lab with
  | nil =>
    obtain ⟨-, rfl⟩ := gives_pure.1 h
    refine ⟨lab, hl, fun k e hk he => hdone k e ?_ hk he⟩
    have := congrArg List.length hi
    simp at this
    omega
  | cons r todo ih =>
    unfold genRules at h
    have hilt : i < rs.length := by
      have := congrArg List.length hi
      simp at this
      omega
    have hri : rs[i]? = some r := by
      have := congrArg (·[0]?) hi
      simpa using this
    have hr : OfType f 132 r := (childrenWith_mem (synRules_children hf hrs) r (List.mem_of_getElem? hri)).2
    rw [gives_bind] at h
    obtain ⟨e, es1, h1, h⟩ := h
    obtain ⟨lab1, g1, s1, s2⟩ := genRule_gives hf hb ht hrs hr hl h1
    rw [gives_bind] at h
    obtain ⟨u', es2, h2, h⟩ := h
    have h2 : Gives f (Gen.lift (if i < es1.length then some () else none)) (es1.set i e) u' es2 := h2
    obtain ⟨-, rfl⟩ := gives_lift.1 h2
    have hlr : labelOf lab1 i = r := by
      rw [labelOf_prefix g1.labels.rules hilt]
      simp [labelOf, hri]
    have hbel := hl.below
    have hlen := hl.len
    refine ih (i := i + 1) ?_ (g1.labels.set hilt) ?_ h
    · rw [← List.tail_drop, hi]
      rfl
    · intro k e' hk hkr he
      by_cases hki : k = i
      · subst hki
        rw [List.getElem?_set_self (by have := g1.exprs.length_le; omega), Option.some.injEq] at he
        subst he
        exact ⟨s1, hlr ▸ s2⟩
      · rw [List.getElem?_set_ne (fun e => hki e.symm)] at he
        have hkl : k < es.length := by omega
        have he' : es[k]? = some e' := by
          obtain ⟨rest, hrest⟩ := g1.exprs
          rw [← hrest, List.getElem?_append_left hkl] at he
          exact he
        obtain ⟨d1, d2⟩ := hdone k e' (by omega) hkr he'
        refine ⟨fun r hr => Nat.lt_of_lt_of_le (d1 r hr) g1.labs.length_le, ?_⟩
        rw [labelOf_prefix g1.labs (by omega), rename_congr fun r hr => labelOf_prefix g1.labs (d1 r hr)]
        exact d2

/-- What the generator has made. -/
theorem genParser_gives (hb : BlockBodies f) {types : List (List UInt8 × Bool)} {rules : List Expr}
    {ds : List Diagnostic} (h : Eval (analysisBody f) (genParser f) (some (some (types, rules))) ds) :
    f.genTypes = some types ∧ ∃ rs lab, f.synRules = some rs ∧ Labels f rs rules lab ∧
      ∀ k e, k < rs.length → rules[k]? = some e →
        (∀ r ∈ references e, r < lab.length) ∧ Says f (labelOf lab k) (rename (labelOf lab) e) := by
  unfold genParser at h
  rw [eval_bind_some] at h
  obtain ⟨types', _, _, h1, h, rfl⟩ := h
  have h1 := (eval_lift.1 h1).1
  rw [eval_bind_some] at h
  obtain ⟨rs, _, _, h2, h, rfl⟩ := h
  have h2 := (eval_lift.1 h2).1
  rw [eval_bind_some] at h
  obtain ⟨o, _, _, h3, h, rfl⟩ := h
  cases o with
  | none =>
    have h := (eval_pure.1 h).1
    simp at h
  | some o =>
    have h := (eval_pure.1 h).1
    simp only [Option.some.injEq, Prod.mk.injEq] at h
    obtain ⟨rfl, rfl⟩ := h
    refine ⟨h1, rs, ?_⟩
    obtain ⟨lab, l1, l2⟩ := genRules_gives (u := o.1) (es' := o.2) hf hb h1 h2 (i := 0) (todo := rs) (lab := rs) rfl
      ⟨by simp, List.prefix_refl _, fun k e hk he => by
        have := (List.getElem?_eq_some_iff.1 he).1
        simp at this
        omega⟩ (by intro k e h; omega) ⟨_, h3⟩
    exact ⟨lab, h2, l1, l2⟩

end

end Fall
