import Verif.Spec.Shaped
import Verif.Lemmas.AnalysisWhole

/-!
Which queries of the analysis panic.
-/

namespace Fall

open Spec AProg

section
variable {f : File UInt8} (hf : ConsistentFile f)
include hf

/-! ## Accessors -/

theorem firstChild_total {n : Nat} (hn : IsNode f n) (p : NodeType → Bool) : ∃ o, f.firstChild p n = some o :=
  ⟨_, firstChild_eq hf hn p⟩

theorem childOfType_total {n : Nat} (hn : IsNode f n) (ty : NodeType) : ∃ o, f.childOfType n ty = some o :=
  ⟨_, childOfType_eq hf hn ty⟩

omit hf in
theorem range_total {n : Nat} (hn : IsNode f n) : ∃ r, f.range n = some r := by
  simp [File.range, data_dat hn]

omit hf in
theorem safe_error {body : (q : Query) → AProg (Value q)} {n : Nat} (hn : IsNode f n) (m : String) :
    Safe body (error f n m) := by
  obtain ⟨r, hr⟩ := range_total hn
  refine safe_bind (safe_lift (by simp [hr])) fun v ds h ds' h' => ?_
  cases h' with
  | emit h' => cases h'

omit hf in
theorem safe_warning {body : (q : Query) → AProg (Value q)} {n : Nat} (hn : IsNode f n) (m : String) :
    Safe body (warning f n m) := by
  obtain ⟨r, hr⟩ := range_total hn
  refine safe_bind (safe_lift (by simp [hr])) fun v ds h ds' h' => ?_
  cases h' with
  | emit h' => cases h'

theorem ruleParams_total {rule : Nat} (hn : IsNode f rule) : ∃ o, f.ruleParams rule = some o := by
  simp only [File.ruleParams, firstChild_eq hf hn, Option.bind_eq_bind, Option.bind_some]
  cases hc : (kids f rule).find? (fun c => (dat f c).ty == Ty.parameters) with
  | none => exact ⟨_, rfl⟩
  | some c =>
    have hc := kids_isNode hf hn c (List.mem_of_find?_eq_some hc)
    simp [astChildren_eq hf hc]

theorem attributesOf_total {rule : Nat} (hn : IsNode f rule) : ∃ o, f.attributesOf rule = some o := by
  simp only [File.attributesOf, firstChild_eq hf hn, Option.bind_eq_bind, Option.bind_some]
  cases hc : (kids f rule).find? (fun c => (dat f c).ty == Ty.attributes) with
  | none => exact ⟨_, rfl⟩
  | some c =>
    have hc := kids_isNode hf hn c (List.mem_of_find?_eq_some hc)
    simp [astChildren_eq hf hc]

theorem attrText_total {a : Nat} (hn : IsNode f a) : ∃ o, f.attrText a = some o := by
  simp only [File.attrText, firstChild_eq hf hn, Option.bind_eq_bind, Option.bind_some]
  cases hc : (kids f a).find? (fun c => (dat f c).ty == Ty.attributeValue) with
  | none => exact ⟨_, rfl⟩
  | some c =>
    have hc := kids_isNode hf hn c (List.mem_of_find?_eq_some hc)
    obtain ⟨s, hs⟩ := textOf_some hf hc
    simp [hs]

theorem ruleName_total {a : Nat} (hn : IsNode f a) : ∃ o, f.ruleName a = some o := by
  simp only [File.ruleName, childOfType_eq hf hn, Option.bind_eq_bind, Option.bind_some]
  cases hc : (kids f a).find? (fun c => (dat f c).ty == Ty.ident) with
  | none => exact ⟨_, rfl⟩
  | some c =>
    have hc := kids_isNode hf hn c (List.mem_of_find?_eq_some hc)
    obtain ⟨s, hs⟩ := textOf_some hf hc
    simp [hs]

theorem lexRules_total : ∃ l, f.lexRules = some l ∧ ∀ r ∈ l, OfType f 142 r := by
  have h0 := zero_isNode hf
  simp only [File.lexRules, File.root, firstChild_eq hf h0, Option.bind_eq_bind, Option.bind_some]
  cases hc : (kids f 0).find? (fun c => (dat f c).ty == Ty.tokenizerDef) with
  | none => exact ⟨_, rfl, by simp⟩
  | some c =>
    have hc := kids_isNode hf h0 c (List.mem_of_find?_eq_some hc)
    simp only [astChildren_eq hf hc]
    refine ⟨_, rfl, fun r hr => ?_⟩
    rw [List.mem_filter] at hr
    rw [OfType, ty_dat (kids_isNode hf hc r hr.1)]
    simpa [Ty.lexRule] using hr.2

theorem synRules_total : ∃ l, f.synRules = some l ∧ ∀ r ∈ l, IsNode f r :=
  ⟨_, astChildren_eq hf (zero_isNode hf) _, fun r hr => kids_isNode hf (zero_isNode hf) r (List.mem_filter.1 hr).1⟩

omit hf in
theorem findNamed_total {get : Nat → Option (List UInt8)} {name : List UInt8} {l : List Nat}
    (h : ∀ n ∈ l, ∃ s, get n = some s) : ∃ o, File.findNamed get (some name) l = some o := by
  induction l with
  | nil => exact ⟨_, rfl⟩
  | cons n l ih =>
    obtain ⟨s, hs⟩ := h n (by simp)
    obtain ⟨o, ho⟩ := ih fun m hm => h m (by simp [hm])
    simp only [File.findNamed, hs, Option.bind_eq_bind, Option.bind_some]
    by_cases he : (s == name) = true
    · rw [if_pos he]; exact ⟨_, rfl⟩
    · rw [if_neg he]; exact ⟨o, ho⟩

theorem enclosing_total {n rule : Nat} (hn : IsNode f n) (h : EnclosingRule f n rule) :
    ∃ r, f.astAncestor (· == Ty.synRule) n = some (some r) ∧ IsNode f r := by
  obtain ⟨res, h1, -, -⟩ := astAncestor_spec hf.nodes hn (· == Ty.synRule)
  have := enclosing_eval hf hn h1
  cases res with
  | none => exact absurd h (this rule)
  | some r => exact ⟨r, h1, this.2⟩

variable (hs : Shaped f)
include hs

theorem Spec.Shaped.ident {t n : Nat} (ht : t ∈ [134, 140, 142, 145]) (hn : OfType f t n) :
    ∃ s, f.childText n Ty.ident = some s := by
  obtain ⟨s, h⟩ := hs.named t n ht hn
  exact ⟨s, (ident_iff hf (ofType_isNode hn)).2 h⟩

theorem referenceName_total {n : Nat} (hn : OfType f 135 n) : ∃ s, f.referenceName n = some s := by
  obtain ⟨⟨s, h⟩, -⟩ := hs.ref n hn
  exact ⟨s, (referenceName_iff hf (ofType_isNode hn)).2 h⟩

theorem tokenName_total {n : Nat} (hn : OfType f 142 n) : ∃ s, f.tokenName n = some s := by
  have h := ofType_isNode hn
  obtain ⟨s, hi⟩ := hs.ident hf (by simp) hn
  simp only [File.tokenName, childOfType_eq hf h, Option.bind_eq_bind, Option.bind_some]
  cases hc : (kids f n).find? (fun c => (dat f c).ty == Ty.string) with
  | none => exact ⟨s, hi⟩
  | some c =>
    have hc := kids_isNode hf h c (List.mem_of_find?_eq_some hc)
    obtain ⟨t, ht⟩ := textOf_some hf hc
    simp only [ht, Option.bind_some]
    split
    · exact ⟨_, rfl⟩
    · exact ⟨s, hi⟩

theorem contextName_total {call : Nat} (hn : OfType f 140 call) : ∃ o, f.contextName call = some o := by
  have h := ofType_isNode hn
  obtain ⟨s, hi⟩ := hs.ident hf (by simp) hn
  simp only [File.contextName, File.fnName, hi, Option.bind_eq_bind, Option.bind_some]
  split
  · exact ⟨_, rfl⟩
  · simp only [File.callArgs, astChildren_eq hf h, Option.bind_some]
    cases ha : ((kids f call).filter fun c => isFallExpr (dat f c).ty).head? with
    | none => exact ⟨_, rfl⟩
    | some arg =>
      have harg := kids_isNode hf h arg (List.mem_filter.1 (List.mem_of_head? ha)).1
      simp only [childOfType_eq hf harg, Option.bind_some]
      cases hc : (kids f arg).find? (fun c => (dat f c).ty == Ty.simpleString) with
      | none => exact ⟨_, rfl⟩
      | some c =>
        have hcn := kids_isNode hf harg c (List.mem_of_find?_eq_some hc)
        obtain ⟨t, ht⟩ := textOf_some hf hcn
        have hty : OfType f 128 c := by
          rw [OfType, ty_dat hcn]
          simpa [Ty.simpleString] using List.find?_some hc
        obtain ⟨b, hb⟩ := hs.quoted c t hty ht
        simp [ht, litBody_iff.2 hb]

theorem isContextArg_total {n : Nat} (hn : OfType f 135 n) : ∃ b, f.isContextArg n = some b := by
  have h := ofType_isNode hn
  obtain ⟨rule, h1, h2, -⟩ := (hs.ref n hn).2
  have hpar : ∃ p, f.parent n = some (some p) := by
    by_cases h0 : n = 0
    · exfalso
      subst h0
      have := desc_le hf.nodes h1
      have e : rule = 0 := Nat.le_zero.1 this
      subst e
      rw [OfType] at hn h2
      rw [hn] at h2
      simp at h2
    · obtain ⟨p, hp⟩ := parent_some hf.nodes h h0
      exact ⟨p, by rw [parent_dat h, hp]⟩
  obtain ⟨p, hp⟩ := hpar
  have hpn := parent_isNode hf hp
  simp only [File.isContextArg, hp, Option.bind_eq_bind, Option.bind_some, ty_dat hpn]
  split
  · rename_i ht
    have hpt : OfType f 140 p := by
      rw [OfType, ty_dat hpn]
      simpa [Ty.callExpr] using ht
    obtain ⟨o, ho⟩ := contextName_total hf hs hpt
    simp only [ho, Option.bind_some]
    split
    · simp [File.callArgs, astChildren_eq hf hpn]
    · exact ⟨_, rfl⟩
  · exact ⟨_, rfl⟩

omit hs in
theorem attributesOf_typed {rule : Nat} (hn : IsNode f rule) {l : List Nat} (h : f.attributesOf rule = some (some l)) :
    ∀ a ∈ l, OfType f 145 a := by
  obtain ⟨as, h1, h2⟩ := attributesOf_eval hf hn h
  have := first_isNode hf h1
  rw [astChildren_eq hf this, Option.some.injEq] at h2
  subst h2
  intro a ha
  rw [List.mem_filter] at ha
  rw [OfType, ty_dat (kids_isNode hf this a ha.1)]
  simpa [Ty.attr] using ha.2

theorem findAttr_total {name : List UInt8} {l : List Nat} (h : ∀ a ∈ l, OfType f 145 a) :
    ∃ o, f.findAttr name l = some o ∧ ∀ a, o = some a → IsNode f a := by
  induction l with
  | nil => exact ⟨_, rfl, by simp⟩
  | cons n l ih =>
    obtain ⟨s, hi⟩ := hs.ident hf (by simp) (h n (by simp))
    obtain ⟨o, ho⟩ := ih fun m hm => h m (by simp [hm])
    simp only [File.findAttr, hi, Option.bind_eq_bind, Option.bind_some]
    by_cases he : (s == name) = true
    · rw [if_pos he]
      refine ⟨_, rfl, fun a ha => ?_⟩
      cases ha
      exact ofType_isNode (h n (by simp))
    · rw [if_neg he]; exact ⟨o, ho⟩

theorem tyName_total {rule : Nat} (hn : IsNode f rule) : ∃ o, f.tyName rule = some o := by
  obtain ⟨o1, h1⟩ := childOfType_total hf hn Ty.pub
  obtain ⟨o2, h2⟩ := attributesOf_total hf hn
  have h3 : ∀ name, ∃ o, f.findAttr name (o2.getD []) = some o ∧ ∀ a, o = some a → IsNode f a := by
    intro name
    refine findAttr_total hf hs fun a ha => ?_
    cases o2 with
    | none => simp at ha
    | some l => exact attributesOf_typed hf hn h2 a ha
  obtain ⟨o4, h4, -⟩ := h3 (ascii "pratt")
  obtain ⟨o5, h5, h6⟩ := h3 (ascii "type")
  obtain ⟨o7, h7⟩ := ruleName_total hf hn
  have hh : ∃ b, f.hasAttr rule (ascii "pratt") = some b := by
    simp only [File.hasAttr, h2, Option.bind_eq_bind, Option.bind_some]
    cases o2 with
    | none => exact ⟨_, rfl⟩
    | some l =>
      simp only [Option.getD_some] at h4
      simp [h4]
  have ht : ∃ o, f.typeAttr rule = some o ∧ ∀ a, o = some a → IsNode f a := by
    simp only [File.typeAttr, h2, Option.bind_eq_bind, Option.bind_some]
    cases o2 with
    | none => exact ⟨_, rfl, by simp⟩
    | some l => exact ⟨o5, h5, h6⟩
  obtain ⟨b, hb⟩ := hh
  obtain ⟨o, ho, ho'⟩ := ht
  simp only [File.tyName, h1, Option.bind_eq_bind, Option.bind_some]
  split
  · exact ⟨_, rfl⟩
  · simp only [hb, Option.bind_some]
    split
    · exact ⟨_, rfl⟩
    · simp only [ho, Option.bind_some]
      cases o with
      | none => exact ⟨_, h7⟩
      | some a => exact attrText_total hf (ho' a rfl)

/-! ## Queries that do not panic -/

omit hs in
theorem safe_allSynRulesGo {body : (q : Query) → AProg (Value q)} {rules : List Nat} (h : ∀ r ∈ rules, IsNode f r)
    (result : List (List UInt8 × Nat)) : Safe body (allSynRulesGo f rules result) := by
  induction rules generalizing result with
  | nil => exact safe_pure _
  | cons rule rules ih =>
    have ih := fun res => ih (fun r hr => h r (by simp [hr])) res
    obtain ⟨o, ho⟩ := childOfType_total hf (h rule (by simp)) Ty.ident
    unfold allSynRulesGo
    refine safe_bind (safe_lift (by simp [File.ruleIdent, ho])) fun v _ hv => ?_
    obtain ⟨hv, -⟩ := eval_lift.1 hv
    split
    · exact ih _
    · rename_i ident
      have hv := (childOfType_some hf (h rule (by simp)) Ty.ident).1 hv
      have hi := first_isNode hf hv
      obtain ⟨s, hs⟩ := textOf_some hf hi
      refine safe_bind (safe_lift (by simp [hs])) fun v _ hv => ?_
      split
      · exact safe_bind (safe_error hi _) fun _ _ _ => ih _
      · exact ih _

omit hs in
theorem safe_allSynRules {body : (q : Query) → AProg (Value q)} : Safe body (allSynRules f) := by
  obtain ⟨l, hl, hl'⟩ := synRules_total hf
  refine safe_bind (safe_lift (by simp [hl])) fun v _ hv => ?_
  rw [eval_lift, hl, Option.some.injEq] at hv
  exact safe_allSynRulesGo hf (hv.1 ▸ hl') _

theorem safe_allLexRulesGo {body : (q : Query) → AProg (Value q)} {rules : List Nat} (h : ∀ r ∈ rules, OfType f 142 r)
    (result : List (List UInt8 × Nat)) (tys : List (List UInt8)) : Safe body (allLexRulesGo f rules result tys) := by
  induction rules generalizing result tys with
  | nil => exact safe_pure _
  | cons rule rules ih =>
    have ih := fun res tys => ih (fun r hr => h r (by simp [hr])) res tys
    obtain ⟨s, h1⟩ := tokenName_total hf hs (h rule (by simp))
    obtain ⟨t, h2⟩ := hs.ident hf (by simp) (h rule (by simp))
    unfold allLexRulesGo
    refine safe_bind (safe_lift (by simp [h1])) fun _ _ _ => ?_
    refine safe_bind (safe_lift (by simp [File.lexNodeType, h2])) fun _ _ _ => ?_
    split
    · exact safe_bind (safe_error (ofType_isNode (h rule (by simp))) _) fun _ _ _ => ih _ _
    · exact ih _ _

theorem safe_allLexRules {body : (q : Query) → AProg (Value q)} : Safe body (allLexRules f) := by
  obtain ⟨l, hl, hl'⟩ := lexRules_total hf
  refine safe_bind (safe_lift (by simp [hl])) fun v _ hv => ?_
  rw [eval_lift, hl, Option.some.injEq] at hv
  exact safe_allLexRulesGo hf hs (hv.1 ▸ hl') _ _

theorem contextMap_total : ∃ m, contextMap f = some m := by
  obtain ⟨all, -, h2, -, -, -, h4⟩ := C21_subtree f hf.nodes 0 (zero_isNode hf)
  unfold contextMap
  rw [File.root, h4]
  have hall : ∀ n ∈ all, IsNode f n := fun n hn => desc_isNode hf.nodes ((h2 n).1 hn) (zero_isNode hf)
  clear h2 h4
  suffices ∀ m0 : List (List UInt8 × Option Nat), ∃ m, all.foldlM (fun contexts n => do
        if (← f.ty n) == Ty.callExpr then
          match ← f.contextName n with
          | none => return contexts
          | some ctx => return contextEntry ctx n contexts
        else return contexts) m0 = some m from this []
  induction all with
  | nil => exact fun m0 => ⟨m0, rfl⟩
  | cons n rest ih =>
    intro m0
    have ih := ih fun m hm => hall m (by simp [hm])
    have hn := hall n (by simp)
    rw [List.foldlM_cons]
    simp only [ty_dat hn, Option.bind_eq_bind, Option.bind_some]
    split
    · rename_i ht
      have hpt : OfType f 140 n := by
        rw [OfType, ty_dat hn]
        simpa [Ty.callExpr] using ht
      obtain ⟨o, ho⟩ := contextName_total hf hs hpt
      simp only [ho, Option.bind_some]
      cases o with
      | none => exact ih _
      | some c => exact ih _
    · exact ih _

theorem safe_allContexts {body : (q : Query) → AProg (Value q)} : Safe body (allContexts f) := by
  obtain ⟨m, hm⟩ := contextMap_total hf hs
  refine safe_bind (safe_lift (by simp [hm])) fun v _ hv => safe_bind ?_ fun _ _ _ => safe_pure _
  rw [eval_lift, hm, Option.some.injEq] at hv
  obtain ⟨rfl, -⟩ := hv
  have hu : ∀ s c, (s, some c) ∈ m → IsNode f c := fun s c h => ofType_isNode (((contextMap_spec hf hm).2 s c).1 h).1
  clear hm
  induction m with
  | nil => exact safe_pure _
  | cons x m ih =>
    obtain ⟨k, v⟩ := x
    have ih := ih fun s c h => hu s c (by simp [h])
    cases v with
    | none => exact ih
    | some c => exact safe_bind (safe_warning (hu k c (by simp)) _) fun _ _ _ => ih

omit hs in
theorem safe_findSynRule (s : List UInt8) : Safe (analysisBody f) (findSynRule s) :=
  safe_bind (safe_get (safe_allSynRules hf)) fun _ _ _ => safe_pure _

theorem safe_findLexRule (s : List UInt8) : Safe (analysisBody f) (findLexRule s) :=
  safe_bind (safe_get (safe_allLexRules hf hs)) fun _ _ _ => safe_pure _

theorem safe_resolveRef {n : Nat} (hn : OfType f 135 n) : Safe (analysisBody f) (resolveRef f n) := by
  have hnode := ofType_isNode hn
  obtain ⟨s, h1⟩ := referenceName_total hf hs hn
  obtain ⟨rule, h2⟩ := (hs.ref n hn).2
  obtain ⟨r, h3, h4⟩ := enclosing_total hf hnode h2
  obtain ⟨ps, h5⟩ := ruleParams_total hf h4
  have h6 : ∀ p ∈ ps.getD [], ∃ s, f.paramName p = some s := by
    intro p hp
    cases ps with
    | none => simp at hp
    | some l =>
      obtain ⟨q, -, hq, rfl⟩ := ruleParams_some hf h4 h5
      rw [Option.getD_some, List.mem_filter] at hp
      refine hs.ident hf (t := 134) (by simp) ?_
      rw [OfType, ty_dat (kids_isNode hf hq p hp.1)]
      simpa using hp.2
  unfold resolveRef
  refine safe_bind (safe_lift (by simp [h1])) fun v _ hv => ?_
  rw [eval_lift, h1, Option.some.injEq] at hv
  obtain ⟨rfl, -⟩ := hv
  refine safe_bind (safe_lift (by simp [h3])) fun v _ hv => ?_
  rw [eval_lift, h3, Option.some.injEq] at hv
  obtain ⟨rfl, -⟩ := hv
  refine safe_bind (safe_lift (by simp)) fun v _ hv => ?_
  rw [eval_lift, Option.some.injEq] at hv
  obtain ⟨rfl, -⟩ := hv
  refine safe_bind (safe_lift (by simp [h5])) fun v _ hv => ?_
  rw [eval_lift, h5, Option.some.injEq] at hv
  obtain ⟨rfl, -⟩ := hv
  obtain ⟨o, ho⟩ := findNamed_total (name := s) h6
  refine safe_bind (safe_lift (by simp [ho])) fun v _ hv => ?_
  split
  · exact safe_pure _
  · refine safe_bind (safe_findSynRule hf _) fun v _ hv => ?_
    split
    · exact safe_pure _
    · refine safe_bind (safe_findLexRule hf hs _) fun v _ hv => ?_
      split
      · exact safe_pure _
      · obtain ⟨b, hb⟩ := isContextArg_total hf hs hn
        refine safe_bind (safe_lift (by simp [hb])) fun v _ hv => ?_
        split
        · exact safe_pure _
        · exact safe_bind (safe_error hnode _) fun _ _ _ => safe_pure _


omit hf hs in
theorem safe_expectArgs {body : (q : Query) → AProg (Value q)} {call : Nat} (hn : IsNode f call) (n m : Nat) :
    Safe body (expectArgs f call n m) := by
  unfold expectArgs
  split
  · exact safe_error hn _
  · exact safe_pure _

theorem safe_resolveContext {call arg : Nat} {args : List Nat} (hn : OfType f 140 call)
    (ha : f.callArgs call = some (arg :: args)) (hm : IsNode f arg) :
    Safe (analysisBody f) (resolveContext f call) := by
  obtain ⟨o, ho⟩ := contextName_total hf hs hn
  unfold resolveContext
  refine safe_bind (safe_lift (by simp [ho])) fun v _ hv => ?_
  split
  · exact safe_bind (safe_get (safe_allContexts hf hs)) fun _ _ _ => safe_pure _
  · refine safe_bind (safe_lift (by simp [ha])) fun v _ hv => ?_
    rw [eval_lift, ha, Option.some.injEq] at hv
    obtain ⟨rfl, -⟩ := hv
    refine safe_bind (safe_lift (by simp)) fun v _ hv => ?_
    rw [eval_lift, List.head?_cons, Option.some.injEq] at hv
    obtain ⟨rfl, -⟩ := hv
    exact safe_bind (safe_error hm _) fun _ _ _ => safe_pure _

theorem safe_prevIsRule {arg : Nat} (hn : IsNode f arg) : Safe (analysisBody f) (prevIsRule f arg) := by
  unfold prevIsRule
  refine safe_bind (safe_lift (by simp [ty_dat hn])) fun v _ hv => ?_
  rw [eval_lift, ty_dat hn, Option.some.injEq] at hv
  obtain ⟨rfl, -⟩ := hv
  split
  · rename_i ht
    have hr : OfType f 135 arg := by
      rw [OfType, ty_dat hn]
      simpa [Ty.refExpr] using ht
    refine safe_bind (safe_get (safe_resolveRef hf hs hr)) fun v _ hv => ?_
    split
    · rename_i rule
      cases hv with
      | ask hv h2 =>
        cases h2
        obtain ⟨s, rl, -, -, hm, -⟩ := resolveRef_eval hf hn hv
        have hm : RuleNamed f s rule := hm.2
        obtain ⟨o, ho⟩ := tyName_total hf hs (first_isNode hf hm)
        exact safe_bind (safe_lift (by simp [ho])) fun _ _ _ => safe_pure _
    · exact safe_pure _
  · exact safe_pure _

theorem safe_prevIsArgs {call : Nat} (hc : IsNode f call) {args : List Nat} (h : ∀ a ∈ args, IsNode f a) :
    Safe (analysisBody f) (prevIsArgs f call args) := by
  induction args with
  | nil => exact safe_pure _
  | cons a args ih =>
    have ih := ih fun m hm => h m (by simp [hm])
    unfold prevIsArgs
    refine safe_bind (safe_prevIsRule hf hs (h a (by simp))) fun v _ hv => ?_
    split
    · exact safe_bind ih fun _ _ _ => safe_pure _
    · exact safe_bind (safe_error hc _) fun _ _ _ => ih

theorem safe_builtIn {call : Nat} (hc : OfType f 140 call) {args : List Nat} (ha : f.callArgs call = some args)
    (h : ∀ a ∈ args, IsNode f a) : ∀ b ∈ builtIn f call args, Safe (analysisBody f) b.2 := by
  have hn := ofType_isNode hc
  have hctx : ∀ a as, args = a :: as → Safe (analysisBody f) (resolveContext f call) := by
    rintro a as rfl
    exact safe_resolveContext hf hs hc ha (h a (by simp))
  have zero : ∀ kind : CallKind, Safe (analysisBody f) (do
      expectArgs f call 0 args.length
      return some kind) := fun kind => safe_bind (safe_expectArgs hn _ _) fun _ _ _ => safe_pure _
  have one : ∀ kind : NodeId → AProg (Option CallKind), (∀ a as, args = a :: as → Safe (analysisBody f) (kind a)) →
      Safe (analysisBody f) (do
        expectArgs f call 1 args.length
        match args with
        | arg :: _ => kind arg
        | [] => return none) := by
    intro kind hk
    refine safe_bind (safe_expectArgs hn _ _) fun _ _ _ => ?_
    split
    · exact hk _ _ rfl
    · exact safe_pure _
  have two : ∀ kind : NodeId → NodeId → AProg (Option CallKind),
      (∀ a b as, args = a :: b :: as → Safe (analysisBody f) (kind a b)) →
      Safe (analysisBody f) (do
        expectArgs f call 2 args.length
        match args with
        | arg1 :: arg2 :: _ => kind arg1 arg2
        | _ => return none) := by
    intro kind hk
    refine safe_bind (safe_expectArgs hn _ _) fun _ _ _ => ?_
    split
    · exact hk _ _ _ rfl
    · exact safe_pure _
  intro b hb
  simp only [builtIn, List.mem_cons, List.not_mem_nil, or_false] at hb
  rcases hb with rfl | rfl | rfl | rfl | rfl | rfl | rfl | rfl | rfl | rfl | rfl
  · exact zero _
  · exact zero _
  · exact zero _
  · exact one _ fun _ _ _ => safe_pure _
  · exact one _ fun a as e => safe_bind (hctx a as e) fun _ _ _ => safe_pure _
  · exact two _ fun _ _ _ _ => safe_pure _
  · exact two _ fun _ _ _ _ => safe_pure _
  · exact two _ fun _ _ _ _ => safe_pure _
  · exact two _ fun a b as e => safe_bind (hctx a _ e) fun _ _ _ => safe_pure _
  · exact two _ fun a b as e => safe_bind (hctx a _ e) fun _ _ _ => safe_pure _
  · exact safe_bind (safe_prevIsArgs hf hs hn h) fun _ _ _ => safe_pure _

theorem safe_resolveCall {call : Nat} (hc : OfType f 140 call) : Safe (analysisBody f) (resolveCall f call) := by
  have hn := ofType_isNode hc
  have ha := astChildren_eq hf hn isFallExpr
  obtain ⟨s, hi⟩ := hs.ident hf (by simp) hc
  unfold resolveCall
  refine safe_bind (safe_lift (by simp [File.callArgs, ha])) fun v _ hv => ?_
  obtain ⟨hv, -⟩ := eval_lift.1 hv
  have hargs : ∀ a ∈ v, IsNode f a := by
    rw [File.callArgs, ha, Option.some.injEq] at hv
    subst hv
    exact fun a ha => kids_isNode hf hn a (List.mem_filter.1 ha).1
  refine safe_bind (safe_lift (by simp [File.fnName, hi])) fun name _ hname => ?_
  have hun : Safe (analysisBody f) (do
      let ident ← lift (f.childOfTypeExn call Ty.ident)
      error f ident "Unresolved reference"
      return (none : Option CallKind)) := by
    have hex : ∃ i, f.childOfTypeExn call Ty.ident = some i := by
      simp only [File.childText, Option.bind_eq_bind, Option.bind_eq_some_iff] at hi
      obtain ⟨i, h1, -⟩ := hi
      exact ⟨i, h1⟩
    obtain ⟨i, hi⟩ := hex
    refine safe_bind (safe_lift (by simp [hi])) fun v _ hv => ?_
    obtain ⟨hv, -⟩ := eval_lift.1 hv
    have : IsNode f v := by
      simp only [File.childOfTypeExn, Option.bind_eq_bind, Option.bind_eq_some_iff] at hv
      obtain ⟨o, h1, h2⟩ := hv
      subst h2
      exact first_isNode hf ((childOfType_some hf hn _).1 h1)
    exact safe_bind (safe_error this _) fun _ _ _ => safe_pure _
  split
  · rename_i b hb
    exact safe_builtIn hf hs hc hv hargs b (List.mem_of_find?_eq_some hb)
  · refine safe_bind (safe_findSynRule hf _) fun o _ ho => ?_
    split
    · exact hun
    · rename_i rule
      have hr : IsNode f rule := first_isNode hf (((findSynRule_eval hf ho).1 _).1 rfl)
      obtain ⟨ps, hps⟩ := ruleParams_total hf hr
      refine safe_bind (safe_lift (by simp [hps])) fun _ _ _ => ?_
      split
      · exact hun
      · split
        · exact safe_bind (safe_error hn _) fun _ _ _ => safe_pure _
        · exact safe_pure _

theorem safe_usedByRefs {l : List Nat} (h : ∀ r ∈ l, OfType f 135 r) : Safe (analysisBody f) (usedByRefs l) := by
  induction l with
  | nil => exact safe_pure _
  | cons r l ih =>
    have ih := ih fun m hm => h m (by simp [hm])
    unfold usedByRefs
    refine safe_bind (safe_get (safe_resolveRef hf hs (h r (by simp)))) fun _ _ _ => safe_bind ih fun _ _ _ => ?_
    split <;> exact safe_pure _

theorem safe_usedByCalls {l : List Nat} (h : ∀ r ∈ l, OfType f 140 r) : Safe (analysisBody f) (usedByCalls l) := by
  induction l with
  | nil => exact safe_pure _
  | cons r l ih =>
    have ih := ih fun m hm => h m (by simp [hm])
    unfold usedByCalls
    refine safe_bind (safe_get (safe_resolveCall hf hs (h r (by simp)))) fun _ _ _ => safe_bind ih fun _ _ _ => ?_
    split <;> exact safe_pure _

omit hs in
theorem safe_warnUnused {body : (q : Query) → AProg (Value q)} {used l : List Nat} (h : ∀ r ∈ l, IsNode f r) :
    Safe body (warnUnused f used l) := by
  induction l with
  | nil => exact safe_pure _
  | cons r l ih =>
    have ih := ih fun m hm => h m (by simp [hm])
    have hn := h r (by simp)
    unfold warnUnused
    split
    · exact ih
    · refine safe_bind (safe_lift (by simp [File.ruleIdent, childOfType_eq hf hn])) fun v _ hv => ?_
      obtain ⟨hv, -⟩ := eval_lift.1 hv
      split
      · exact ih
      · exact safe_bind (safe_warning (first_isNode hf ((childOfType_some hf hn _).1 hv)) _) fun _ _ _ => ih

theorem safe_unusedRules : Safe (analysisBody f) (unusedRules f) := by
  have hd : ∀ ty, ∃ l, f.astDescendants (· == ty) f.root = some l ∧ ∀ n ∈ l, OfType f ty n := by
    intro ty
    obtain ⟨all, l, -, e, -⟩ := C52_descendants f hf.nodes 0 (zero_isNode hf) (· == ty) 0
    exact ⟨l, e, fun n hn => (descendants_ty hf e n).1 hn⟩
  obtain ⟨rl, hrl, hrl'⟩ := synRules_total hf
  obtain ⟨l1, h1, h1'⟩ := hd Ty.refExpr
  obtain ⟨l2, h2, h2'⟩ := hd Ty.callExpr
  unfold unusedRules
  refine safe_bind (safe_lift (by simp [h1])) fun v _ hv => ?_
  rw [eval_lift, h1, Option.some.injEq] at hv
  obtain ⟨rfl, -⟩ := hv
  refine safe_bind (safe_usedByRefs hf hs h1') fun _ _ _ => ?_
  refine safe_bind (safe_lift (by simp [h2])) fun v _ hv => ?_
  rw [eval_lift, h2, Option.some.injEq] at hv
  obtain ⟨rfl, -⟩ := hv
  refine safe_bind (safe_usedByCalls hf hs h2') fun _ _ _ => ?_
  refine safe_bind (safe_lift (by simp [hrl])) fun v _ hv => ?_
  rw [eval_lift, hrl, Option.some.injEq] at hv
  obtain ⟨rfl, -⟩ := hv
  exact safe_warnUnused hf hrl'

/-! ## Queries that panic -/

theorem prattAttr_total {rule : Nat} (hn : IsNode f rule) {attrs : List Nat} (ha : f.attributesOf rule = some (some attrs))
    (kinds : List String) : ∃ o, prattAttr f attrs kinds = some o := by
  induction kinds with
  | nil => exact ⟨_, rfl⟩
  | cons k ks ih =>
    obtain ⟨o, ho, ho'⟩ := findAttr_total hf hs (name := ascii k) (attributesOf_typed hf hn ha)
    simp only [prattAttr, ho, Option.bind_eq_bind, Option.bind_some]
    cases o with
    | none => exact ih
    | some a =>
      obtain ⟨t, ht⟩ := attrText_total hf (ho' a rfl)
      simp [ht]

theorem safe_prattVariant {body : (q : Query) → AProg (Value q)} {rule : Nat} (hn : IsNode f rule)
    (hb : ¬ Bodyless f rule) : Safe body (prattVariant f rule) := by
  obtain ⟨i, hi⟩ := childOfType_total hf hn Ty.ident
  obtain ⟨as, has⟩ := attributesOf_total hf hn
  unfold prattVariant
  refine safe_bind (safe_lift (by simp [File.ruleIdent, hi])) fun v _ hv => ?_
  obtain ⟨hv, -⟩ := eval_lift.1 hv
  split
  · exact safe_pure _
  rename_i ident _
  have hident := (childOfType_some hf hn _).1 hv
  have hidn := first_isNode hf hident
  refine safe_bind (safe_lift (by simp [has])) fun v _ hv => ?_
  obtain ⟨hv, -⟩ := eval_lift.1 hv
  split
  · exact safe_pure _
  rename_i attrs _
  obtain ⟨o, ho⟩ := prattAttr_total hf hs hn hv ["atom", "postfix", "prefix", "bin"]
  refine safe_bind (safe_lift (by simp [ho])) fun w _ hw => ?_
  obtain ⟨hw, -⟩ := eval_lift.1 hw
  split
  · exact safe_pure _
  rename_i kind prio _
  have hbody : ∃ b, FirstChild f rule (IsExpr f) b := by
    refine Classical.byContradiction fun hno => hb ⟨⟨ident, hident⟩, ?_, fun b hb => hno ⟨b, hb⟩⟩
    rcases prattAttr_eval hf hn hv (pre := []) rfl (by simp) hw with ⟨h, -⟩ | ⟨k, p, a, -, hk, -⟩
    · cases h
    · exact ⟨k, a, hk⟩
  obtain ⟨b, hb⟩ := hbody
  have hbn := first_isNode hf hb
  have hb' := (ruleBody_iff hf hn).2 hb
  have hbody : ∀ {β : Type} {p : Nat → AProg β}, Safe body (p b) →
      Safe body (do let b ← lift (f.ruleBody rule); p b) := by
    intro β p h
    refine safe_bind (safe_lift (by simp [hb'])) fun v _ hv => ?_
    rw [eval_lift, hb', Option.some.injEq] at hv
    obtain ⟨rfl, -⟩ := hv
    exact h
  split
  · split
    · exact safe_bind (safe_error hidn _) fun _ _ _ => hbody (safe_pure _)
    · exact hbody (safe_pure _)
  · refine hbody (safe_bind (safe_lift (by simp [ty_dat hbn])) fun v _ hv => ?_)
    split
    · refine safe_bind (safe_lift (by simp [astChildren_eq hf hbn])) fun v _ hv => ?_
      obtain ⟨hv, -⟩ := eval_lift.1 hv
      split
      · rename_i alt _
        have halt : IsNode f alt := by
          rw [astChildren_eq hf hbn, Option.some.injEq] at hv
          have : alt ∈ (kids f b).filter fun c => isFallExpr (dat f c).ty := by rw [hv]; simp
          exact kids_isNode hf hbn _ (List.mem_filter.1 this).1
        refine safe_bind (safe_lift (by simp [ty_dat halt])) fun v _ hv => ?_
        split
        · refine safe_bind (safe_lift (by simp [astChildren_eq hf halt])) fun v _ hv => ?_
          unfold prattOperator
          refine hbody ?_
          split
          · split
            · exact safe_pure _
            · exact safe_bind (safe_error hbn _) fun _ _ _ => safe_pure _
          · split
            · split
              · exact safe_pure _
              · exact safe_bind (safe_error hbn _) fun _ _ _ => safe_pure _
            · split
              · exact safe_pure _
              · exact safe_bind (safe_error hidn _) fun _ _ _ => safe_pure _
              · exact safe_bind (safe_error hbn _) fun _ _ _ => safe_pure _
        · exact safe_pure _
      · exact safe_bind (safe_error hbn _) fun _ _ _ => safe_pure _
    · exact safe_pure _

omit hs in
theorem prattVariant_bodyless {body : (q : Query) → AProg (Value q)} {rule : Nat} (hn : IsNode f rule)
    (hb : Bodyless f rule) {k : Option PrattVariant} {ds : List Diagnostic} :
    ¬ Eval body (prattVariant f rule) (some k) ds := by
  intro h
  obtain ⟨⟨i, hi⟩, ⟨kind, a, pre, post, hk, ha, -⟩, hno⟩ := hb
  have := prattVariant_eval hf hn h
  cases this with
  | noName h1 => exact h1 i hi
  | noKind h1 => exact h1 kind (by rw [hk]; simp) a ha
  | _ => exact hno _ ‹FirstChild f rule (IsExpr f) _›

omit hf hs in
theorem namedNodes_none {l : List Nat} : namedNodes f l = none ↔ ∃ n ∈ l, f.childText n Ty.ident = none := by
  induction l with
  | nil => simp [namedNodes]
  | cons n l ih =>
    simp only [namedNodes, Option.bind_eq_bind, List.mem_cons, exists_eq_or_imp, ← ih]
    cases f.childText n Ty.ident with
    | none => simp
    | some s =>
      cases namedNodes f l <;> simp

omit hs in
theorem ident_none {n : Nat} (hn : IsNode f n) : f.childText n Ty.ident = none ↔ ∀ s, ¬ Ident f n s := by
  simp only [← ident_iff hf hn]
  cases f.childText n Ty.ident <;> simp

omit hs in
theorem allTraits_none : allTraits f = none ↔ NamelessTrait f := by
  have h0 := zero_isNode hf
  simp only [allTraits, File.root, firstChild_eq hf h0, Option.bind_eq_bind, Option.bind_some]
  have hd := fun c => (firstChild_some hf h0 149 (o := some c))
  simp only [firstChild_eq hf h0, Option.some.injEq] at hd
  unfold NamelessTrait
  cases hc : (kids f 0).find? (fun c => (dat f c).ty == Ty.astDef) with
  | none =>
    simp only [Option.pure_def, reduceCtorEq, false_iff]
    rintro ⟨ast, t, h1, -⟩
    rw [← hd] at h1
    have := h1.symm.trans hc
    cases this
  | some ast =>
    have hast := (hd ast).1 hc
    have hn := first_isNode hf hast
    simp only [astChildren_eq hf hn, Option.bind_some, namedNodes_none, List.mem_filter]
    constructor
    · rintro ⟨t, ⟨h1, h2⟩, h3⟩
      have ht := kids_isNode hf hn t h1
      refine ⟨ast, t, hast, ⟨kids f ast, children_kids hn, h1⟩, ?_, (ident_none hf ht).1 h3⟩
      rw [OfType, ty_dat ht]
      simpa [Ty.astTraitDef] using h2
    · rintro ⟨ast', t, h1, ⟨cs, h2, h2'⟩, h3, h4⟩
      cases firstChild_unique h1 hast
      rw [children_kids hn, Option.some.injEq] at h2
      subst h2
      have ht := kids_isNode hf hn t h2'
      refine ⟨t, ⟨h2', ?_⟩, (ident_none hf ht).2 h4⟩
      rw [OfType, ty_dat ht] at h3
      simpa [Ty.astTraitDef] using h3

omit hs in
theorem safe_traitRefs {body : (q : Query) → AProg (Value q)} {traits : List (List UInt8 × Nat)} {l : List Nat}
    (h : ∀ r ∈ l, IsNode f r) : Safe body (traitRefs f traits l) := by
  induction l with
  | nil => exact safe_pure _
  | cons r l ih =>
    have ih := ih fun m hm => h m (by simp [hm])
    have hn := h r (by simp)
    obtain ⟨t, ht⟩ := textOf_some hf hn
    unfold traitRefs
    refine safe_bind (safe_lift (by simp [ht])) fun _ _ _ => ?_
    split
    · exact safe_bind ih fun _ _ _ => safe_pure _
    · exact safe_bind (safe_error hn _) fun _ _ _ => ih

omit hs in
theorem safe_astNodeTraits {body : (q : Query) → AProg (Value q)} {node : Nat} (hn : IsNode f node)
    (h : ¬ NamelessTrait f) : Safe body (astNodeTraits f node) := by
  rw [← allTraits_none hf] at h
  unfold astNodeTraits
  refine safe_bind (safe_lift h) fun _ _ _ => ?_
  refine safe_bind (safe_lift ?_) fun v _ hv => safe_traitRefs hf ?_
  · simp [traitIdents, children_kids hn, mapM_ty hf (kids_isNode hf hn)]
  · obtain ⟨hv, -⟩ := eval_lift.1 hv
    obtain ⟨pre, post, h1, -, -, h2, -⟩ := traitIdents_eval hf hn hv
    rw [children_kids hn, Option.some.injEq] at h1
    intro r hr
    exact kids_isNode hf hn r (by rw [h1]; simp [h2.subset hr])

omit hs in
theorem astNodeTraits_nameless {body : (q : Query) → AProg (Value q)} {node : Nat} (h : NamelessTrait f)
    {v : List Nat} {ds : List Diagnostic} : ¬ Eval body (astNodeTraits f node) (some v) ds := by
  rw [← allTraits_none hf] at h
  intro he
  unfold astNodeTraits at he
  rw [eval_bind_some] at he
  obtain ⟨i, _, _, h1, -⟩ := he
  obtain ⟨hi, -⟩ := eval_lift.1 h1
  rw [h] at hi
  cases hi

omit hf hs in
theorem findNamed_none {get : Nat → Option (List UInt8)} {name : List UInt8} {l : List Nat} :
    File.findNamed get (some name) l = none ↔
      ∃ n, First l (fun n => get n = some name ∨ get n = none) n ∧ get n = none := by
  induction l with
  | nil =>
    simp only [File.findNamed, reduceCtorEq, false_iff]
    rintro ⟨n, ⟨pre, post, h, -⟩, -⟩
    simp at h
  | cons x l ih =>
    simp only [File.findNamed, Option.bind_eq_bind]
    constructor
    · intro h
      cases hx : get x with
      | none => exact ⟨x, ⟨[], l, rfl, .inr hx, by simp⟩, hx⟩
      | some s =>
        simp only [hx, Option.bind_some] at h
        by_cases he : (s == name) = true
        · rw [if_pos he] at h; cases h
        · rw [if_neg he] at h
          obtain ⟨n, ⟨pre, post, rfl, h1, h2⟩, h3⟩ := ih.1 h
          refine ⟨n, ⟨x :: pre, post, rfl, h1, ?_⟩, h3⟩
          intro y hy
          rcases List.mem_cons.1 hy with rfl | hy
          · show ¬ (get y = some name ∨ get y = none)
            rw [hx]
            simpa using he
          · exact h2 y hy
    · rintro ⟨n, ⟨pre, post, h, h1, h2⟩, h3⟩
      cases pre with
      | nil =>
        rw [List.nil_append, List.cons.injEq] at h
        rw [h.1, h3]
        rfl
      | cons y pre =>
        rw [List.cons_append, List.cons.injEq] at h
        obtain ⟨rfl, rfl⟩ := h
        have := h2 x (by simp)
        cases hx : get x with
        | none => exact absurd (.inr hx) this
        | some s =>
          simp only [Option.bind_some]
          rw [if_neg (by
            intro e
            exact this (.inl (by rw [hx, eq_of_beq e])))]
          exact ih.2 ⟨n, ⟨pre, post, rfl, h1, fun z hz => h2 z (by simp [hz])⟩, h3⟩

omit hs in
theorem findNamed_nameless {ast : Nat} (hn : IsNode f ast) {s : List UInt8} (ty : NodeType) :
    File.findNamed (fun n => f.childText n Ty.ident) (some s) ((kids f ast).filter fun c => (dat f c).ty == ty) = none ↔
      NamelessBefore f ast ty s := by
  rw [findNamed_none]
  unfold NamelessBefore
  refine exists_congr fun n => ?_
  have hk : ∀ y ∈ (kids f ast).filter (fun c => (dat f c).ty == ty), IsNode f y :=
    fun y hy => kids_isNode hf hn y (List.mem_filter.1 hy).1
  rw [← first_typed hf hn]
  have h1 : First ((kids f ast).filter fun c => (dat f c).ty == ty)
      (fun n => f.childText n Ty.ident = some s ∨ f.childText n Ty.ident = none) n ↔
      First ((kids f ast).filter fun c => (dat f c).ty == ty) (fun n => Ident f n s ∨ ∀ s', ¬ Ident f n s') n :=
    first_congr fun y hy => or_congr (ident_iff hf (hk y hy)) (ident_none hf (hk y hy))
  rw [h1]
  refine and_congr_right fun h => ident_none hf (hk n ?_)
  obtain ⟨pre, post, e, -⟩ := h
  rw [e]
  simp

theorem childKind_none {sel : Nat} {s : List UInt8} (hsel : IsNode f sel) (hi : Ident f sel s) (ar : ChildArity) :
    childKind f (f.childText sel Ty.ident) ar = none ↔ ∃ ast, FirstChild f 0 (OfType f 149) ast ∧
      (NamelessBefore f ast 150 s ∨ ((∀ n, ¬ AstItem f 150 s n) ∧ NamelessBefore f ast 151 s)) := by
  have h0 := zero_isNode hf
  have hd := fun c => (firstChild_some hf h0 149 (o := some c))
  simp only [firstChild_eq hf h0, Option.some.injEq] at hd
  rw [(ident_iff hf hsel).2 hi]
  simp only [childKind, File.root, firstChild_eq hf h0, Option.bind_eq_bind, Option.bind_some]
  cases hc : (kids f 0).find? (fun c => (dat f c).ty == Ty.astDef) with
  | none =>
    simp only [Option.pure_def, reduceCtorEq, false_iff]
    rintro ⟨ast, h1, -⟩
    rw [← hd] at h1
    have := h1.symm.trans hc
    cases this
  | some ast =>
    have hast := (hd ast).1 hc
    have hn := first_isNode hf hast
    have hex : ∀ P : Nat → Prop, (∃ ast, FirstChild f 0 (OfType f 149) ast ∧ P ast) ↔ P ast := by
      intro P
      constructor
      · rintro ⟨a, h1, h2⟩
        cases firstChild_unique h1 hast
        exact h2
      · exact fun h => ⟨ast, hast, h⟩
    rw [hex]
    simp only [astChildren_eq hf hn, Option.bind_some]
    have e1 := findNamed_nameless hf hn (s := s) 150
    have e2 := findNamed_nameless hf hn (s := s) 151
    obtain ⟨lr, hlr, hlr'⟩ := lexRules_total hf
    obtain ⟨o3, h3⟩ := findNamed_total (name := s) (get := f.lexNodeType)
      (fun n hn => hs.ident hf (by simp) (hlr' n hn))
    cases ho : File.findNamed (fun n => f.childText n Ty.ident) (some s)
        ((kids f ast).filter fun c => (dat f c).ty == 150) with
    | none => simp [Ty.astNodeDef, ho, e1.1 ho]
    | some o =>
      have hb1 : ¬ NamelessBefore f ast 150 s := by
        rw [← e1, ho]
        simp
      have hitem : o = none ↔ ∀ n, ¬ AstItem f 150 s n := by
        have := findNamed_items hf hn hsel 150 (o := o) (by rw [(ident_iff hf hsel).2 hi]; exact ho)
        constructor
        · rintro rfl n ⟨ast', g1, g2⟩
          cases firstChild_unique g1 hast
          exact this.2 rfl s hi n g2
        · intro h
          cases o with
          | none => rfl
          | some x =>
            obtain ⟨s', g1, g2⟩ := this.1 x rfl
            cases labelled_unique g1 hi
            exact absurd ⟨ast, hast, g2⟩ (h x)
      cases o with
      | some x =>
        have : ¬ ∀ n, ¬ AstItem f 150 s n := fun h => by
          have := hitem.2 h
          cases this
        simp [Ty.astNodeDef, ho, hb1, this]
      | none =>
        have hi' := hitem.1 rfl
        cases ho2 : File.findNamed (fun n => f.childText n Ty.ident) (some s)
            ((kids f ast).filter fun c => (dat f c).ty == 151) with
        | none => simp [Ty.astNodeDef, ho, Ty.astClassDef, ho2, e2.1 ho2, hi']
        | some o2 =>
          have hb2 : ¬ NamelessBefore f ast 151 s := by
            rw [← e2, ho2]
            simp
          simp only [Ty.astNodeDef, ho, Ty.astClassDef, ho2, hb1, hb2, hlr, h3, Option.bind_some]
          cases o2 with
          | some x => simp
          | none => cases o3 <;> simp

theorem resolveMethod_none {m : Nat} (hm : OfType f 153 m) :
    (∃ ds, Eval (analysisBody f) (resolveMethod f m) none ds) ↔ NamelessItem f m := by
  have hn := ofType_isNode hm
  obtain ⟨sel, s, h1, h2⟩ := hs.method m hm
  have hsel := first_isNode hf h1
  have h1' := (firstChild_some hf hn 154 (o := some sel)).2 h1
  have hex : NamelessItem f m ↔ ∃ ast, FirstChild f 0 (OfType f 149) ast ∧
      (NamelessBefore f ast 150 s ∨ ((∀ n, ¬ AstItem f 150 s n) ∧ NamelessBefore f ast 151 s)) := by
    constructor
    · rintro ⟨sel', s', ast, g1, g2, g3⟩
      cases firstChild_unique g1 h1
      cases labelled_unique g2 h2
      exact ⟨ast, g3⟩
    · rintro ⟨ast, h⟩
      exact ⟨sel, s, ast, h1, h2, h⟩
  rw [hex]
  constructor
  · rintro ⟨ds, h⟩
    refine Classical.byContradiction fun hno => ?_
    revert h
    suffices Safe (analysisBody f) (resolveMethod f m) from this ds
    unfold resolveMethod
    refine safe_bind (safe_lift (by rw [show f.firstChild (· == Ty.astSelector) m = _ from h1']; simp)) fun v _ hv => ?_
    rw [eval_lift, show f.firstChild (· == Ty.astSelector) m = _ from h1', Option.some.injEq] at hv
    obtain ⟨rfl, -⟩ := hv
    refine safe_bind (safe_lift (by simp)) fun v _ hv => ?_
    rw [eval_lift, Option.some.injEq] at hv
    obtain ⟨rfl, -⟩ := hv
    refine safe_bind (safe_lift (by simp [childOfType_eq hf hsel])) fun v _ hv => ?_
    refine safe_bind (safe_lift (by simp [childOfType_eq hf hsel])) fun v _ hv => ?_
    refine safe_bind (safe_lift ?_) fun v _ hv => ?_
    · rw [Ne, childKind_none hf hs hsel h2]
      exact hno
    · split
      · exact safe_pure _
      · refine safe_bind (safe_lift (by simp [childOfType_eq hf hsel])) fun v _ hv => ?_
        split
        · split <;> exact safe_pure _
        · exact safe_pure _
  · intro h
    obtain ⟨o, ds, he⟩ := ends_all (f := f) (resolveMethod f m)
    cases o with
    | none => exact ⟨ds, he⟩
    | some v =>
      exfalso
      unfold resolveMethod at he
      rw [eval_bind_some] at he
      obtain ⟨_, _, _, g, he, -⟩ := he
      rw [eval_lift, show f.firstChild (· == Ty.astSelector) m = _ from h1', Option.some.injEq] at g
      obtain ⟨rfl, -⟩ := g
      rw [eval_bind_some] at he
      obtain ⟨_, _, _, g, he, -⟩ := he
      rw [eval_lift, Option.some.injEq] at g
      obtain ⟨rfl, -⟩ := g
      rw [eval_bind_some] at he
      obtain ⟨_, _, _, -, he, -⟩ := he
      rw [eval_bind_some] at he
      obtain ⟨_, _, _, -, he, -⟩ := he
      simp only at he
      rw [eval_bind_some] at he
      obtain ⟨_, _, _, g, he, -⟩ := he
      rw [eval_lift, (childKind_none hf hs hsel h2 _).2 h] at g
      cases g.1

/-! ## All requests for the diagnostics -/

theorem safe_collectNodes {l : List Nat} (h : ∀ n ∈ l, IsNode f n)
    (hb : ∀ rule ∈ l, OfType f 132 rule → ¬ Bodyless f rule)
    (ht : NamelessTrait f → ∀ n ∈ l, ¬ OfType f 150 n) : Safe (analysisBody f) (collectNodes f l) := by
  induction l with
  | nil => exact safe_pure _
  | cons n l ih =>
    have ih := ih (fun m hm => h m (by simp [hm])) (fun m hm => hb m (by simp [hm])) fun hN m hm => ht hN m (by simp [hm])
    have hn := h n (by simp)
    unfold collectNodes
    refine safe_bind (safe_lift (by simp [ty_dat hn])) fun v _ hv => ?_
    obtain ⟨hv, -⟩ := eval_lift.1 hv
    split
    · rename_i e
      have e := eq_of_beq e
      subst e
      exact safe_bind (safe_get (safe_resolveRef hf hs hv)) fun _ _ _ => ih
    split
    · rename_i e
      have e := eq_of_beq e
      subst e
      exact safe_bind (safe_get (safe_resolveCall hf hs hv)) fun _ _ _ => ih
    split
    · rename_i e
      have e := eq_of_beq e
      subst e
      exact safe_bind (safe_get (safe_prattVariant hf hs hn (hb n (by simp) hv))) fun _ _ _ => ih
    split
    · rename_i e
      have e := eq_of_beq e
      subst e
      exact safe_bind (safe_get (safe_astNodeTraits hf hn fun hN => ht hN n (by simp) hv)) fun _ _ _ => ih
    · exact ih

theorem safe_collectRequests (hb : ∀ rule, OfType f 132 rule → ¬ Bodyless f rule)
    (ht : NamelessTrait f → ∀ n, ¬ OfType f 150 n) : Safe (analysisBody f) (collectRequests f) := by
  obtain ⟨l, -, hl, -, -, -, hbu⟩ := C21_subtree f hf.nodes 0 (zero_isNode hf)
  have hcol : ∀ (l acc : List Nat), l.foldlM (fun acc n => some (acc ++ [n])) acc = some (acc ++ l) := by
    intro l
    induction l with
    | nil => simp
    | cons x l ih =>
      intro acc
      rw [List.foldlM_cons, Option.bind_eq_bind, Option.bind_some, ih]
      simp
  unfold collectRequests
  refine safe_bind (safe_lift ?_) fun v _ hv => ?_
  · rw [File.root, hbu, hcol]
    simp
  rw [eval_lift, File.root, hbu, hcol, Option.some.injEq, List.nil_append] at hv
  obtain ⟨rfl, -⟩ := hv
  refine safe_bind (safe_collectNodes hf hs (fun n hn => desc_isNode hf.nodes ((hl n).1 hn) (zero_isNode hf))
    (fun n _ => hb n) fun hN n _ => ht hN n) fun _ _ _ => ?_
  refine safe_bind (safe_get (safe_unusedRules hf hs)) fun _ _ _ => ?_
  exact safe_bind (safe_get (safe_allLexRules hf hs)) fun _ _ _ => safe_pure _

end

end Fall
