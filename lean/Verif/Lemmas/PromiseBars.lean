import Verif.Lemmas.Promise
import Verif.Lemmas.PromiseCheck

/-!
What a grammar keeps out of nodes of a type is in no such node of a reading, of the events and of the tree.
-/

namespace Fall

open Spec

namespace Spec.Items

/-- The type of the node that comes first. -/
def opensTy : Items → Option NodeType
  | node ty _ _ => some ty
  | link ty _ _ _ => some ty
  | loop ty _ _ => some ty
  | _ => none

/-- There is a node or token of one of the types, not looking into nodes. -/
def top (S : List NodeType) : Items → Bool
  | nil => false
  | tok ty _ rest => S.contains ty || rest.top S
  | cached _ body rest => body.top S || rest.top S
  | node ty _ rest => S.contains ty || rest.top S
  | link ty _ mids rest => S.contains ty || mids.top S || rest.top S
  | loop ty _ rest => S.contains ty || rest.top S

/-- No node of the types `P` has a child with one of the types, also after moving linked nodes. -/
def Clean (P : NodeType → Bool) (S : List NodeType) : Items → Prop
  | nil => True
  | tok _ _ rest => rest.Clean P S
  | cached _ body rest => body.Clean P S ∧ rest.Clean P S
  | node ty body rest => (P ty = true → body.top S = false) ∧ body.Clean P S ∧ rest.Clean P S
  | link ty body mids rest => (P ty = true → body.top S = false) ∧ body.Clean P S ∧ mids.Clean P S ∧ rest.Clean P S ∧
    ∃ x, rest.opensTy = some x ∧ (P x = true → S.contains ty = false ∧ mids.top S = false)
  | loop ty body rest => (P ty = true → body.top S = false) ∧ body.Clean P S ∧ rest.Clean P S

variable {P : NodeType → Bool} {S : List NodeType}

theorem opensTy_append {I : Items} {x : NodeType} (h : I.opensTy = some x) (J : Items) : (I.append J).opensTy = some x := by
  cases I <;> simp_all [opensTy, append]

theorem opensTy_under {I : Items} {x : NodeType} (h : I.opensTy = some x) (J : Items) : (I.under J).opensTy = some x := by
  cases I <;> simp_all [opensTy, under]

theorem opens_opensTy {I : Items} (h : I.Opens) : ∃ x, I.opensTy = some x := by
  cases I <;> simp_all [opensTy, Opens]

theorem top_append (I J : Items) : (I.append J).top S = (I.top S || J.top S) := by
  induction I with
  | nil => simp [append, top]
  | _ => simp_all [append, top, Bool.or_assoc]

theorem top_under {I : Items} (h : I.Opens) (J : Items) : (I.under J).top S = (I.top S || J.top S) := by
  cases I <;> simp_all [Opens, under, top, top_append, Bool.or_assoc]

theorem Clean.append {I J : Items} (h : I.Clean P S) (hJ : J.Clean P S) : (I.append J).Clean P S := by
  induction I with
  | nil => exact hJ
  | tok _ _ _ ih => exact ih h
  | cached _ _ _ _ ih => exact ⟨h.1, ih h.2⟩
  | node _ _ _ _ ih => exact ⟨h.1, h.2.1, ih h.2.2⟩
  | loop _ _ _ _ ih => exact ⟨h.1, h.2.1, ih h.2.2⟩
  | link _ _ _ _ _ _ ih =>
    obtain ⟨h1, h2, h3, h4, x, h5, h6⟩ := h
    exact ⟨h1, h2, h3, ih h4, x, opensTy_append h5 _, h6⟩

theorem Clean.under {I J : Items} (ho : I.Opens) (h : I.Clean P S) (hJ : J.Clean P S) {x : NodeType}
    (hx : J.opensTy = some x) (hT : P x = true → I.top S = false) : (I.under J).Clean P S := by
  cases I with
  | nil => cases ho
  | tok => cases ho
  | cached => cases ho
  | node => exact ⟨h.1, h.2.1, h.2.2, hJ, x, hx, fun hx => by simpa [top] using hT hx⟩
  | loop => exact ⟨h.1, h.2.1, h.2.2, hJ, x, hx, fun hx => by simpa [top] using hT hx⟩
  | link =>
    refine ⟨h.1, h.2.1, h.2.2.1.append h.2.2.2.1, hJ, x, hx, fun hx => ?_⟩
    simpa [top, top_append, and_assoc] using hT hx

end Spec.Items

/-- The readings of a grammar have no children that the grammar keeps out. -/
theorem Spec.Derives.clean {env : Env} {P : NodeType → Bool} {S : List NodeType} (hp : Bars env.grammar P S)
    (htok : P ERROR = true → ∀ i t, sigTy env i = some t → t ∉ S)
    {args : Args} {goal : Goal} {i j : Nat} {I : Items} (h : Derives env args goal i j I)
    (hA : Args.Passed env.grammar args) :
    match goal with
    | .expr e => I.Clean P S ∧ (I.top S = true → Shows env.grammar S e)
    | .all ps => I.Clean P S ∧ (I.top S = true → ∃ p, p ∈ ps ∧ Shows env.grammar S p)
    | .many body => I.Clean P S ∧ (I.top S = true → Shows env.grammar S body)
    | .skipped => I.Clean P S ∧ (P ERROR = true → I.top S = false)
    | .pratt t _ => ∀ e : Nat, env.grammar.rules[e]? = some (.pratt t) →
        I.Clean P S ∧ (I.top S = true → Shows env.grammar S e)
    | .operand t => ∀ e : Nat, env.grammar.rules[e]? = some (.pratt t) →
        I.Clean P S ∧ (I.top S = true → Shows env.grammar S e)
    | .chain t _ lhs => ∀ e : Nat, env.grammar.rules[e]? = some (.pratt t) → lhs.Clean P S →
        (lhs.top S = true → Shows env.grammar S e) → I.Clean P S ∧ (I.top S = true → Shows env.grammar S e) ∧
        ∀ x, lhs.opensTy = some x → I.opensTy = some x
    | .rhs t _ => ∀ e : Nat, env.grammar.rules[e]? = some (.pratt t) →
        I.Clean P S ∧ (I.top S = true → Shows env.grammar S e) := by
  have err : ∀ {x : Items}, x.Clean P S → (P ERROR = true → x.top S = false) → (Items.node ERROR x .nil).Clean P S :=
    fun h h' => ⟨h', h, trivial⟩
  have errHas : ∀ {x y : Items}, (Items.node ERROR x y).top S = y.top S := by
    intro x y
    have := hp.noError
    simp [Items.top, this]
  have single : ∀ {t : NodeType} {I : Items}, (Items.node t I .nil).top S = true → t ∈ S := by
    intro t I h
    simpa [Items.top] using h
  have nothing : ∀ {I : Items} {e : Nat}, (I.top S = true → Shows env.grammar S e) → ¬ Shows env.grammar S e →
      I.top S = false := by
    intro I e h1 h2
    by_cases hh : I.top S = true
    · exact absurd (h1 hh) h2
    · simpa using hh
  induction h with
  | @pub e ty t args body i j I r he hty _ ih =>
    obtain ⟨h1, h2⟩ := ih hA
    exact ⟨⟨fun ht => nothing h2 (hp.pub _ _ _ _ he ⟨ty, t, Or.inl rfl, hty, ht⟩), h1, trivial⟩,
      fun h => .pub he hty (single h)⟩
  | @pubReplaced e t args body i j I ty ty' he hrep hty _ ih =>
    obtain ⟨h1, h2⟩ := ih hA
    exact ⟨⟨fun ht => nothing h2 (hp.pub _ _ _ _ he ⟨ty', t, Or.inr ⟨rfl, hrep⟩, hty, ht⟩), h1, trivial⟩,
      fun h => .pubReplaced he hrep hty (single h)⟩
  | pubReplace he _ ih => exact ⟨(ih hA).1, fun h => .part he (by simp) (by simp [tries]) ((ih hA).2 h)⟩
  | or he hm _ ih => exact ⟨(ih hA).1, fun h => .part he (by simp) (by simpa [tries] using hm) ((ih hA).2 h)⟩
  | and he _ ih =>
    refine ⟨(ih hA).1, fun h => ?_⟩
    obtain ⟨p, hp, h⟩ := (ih hA).2 h
    exact .part he (by simp) (by simpa [tries] using hp) h
  | andCommit he hc _ _ ih =>
    refine ⟨(ih hA).1.append (err trivial fun _ => rfl), fun h => ?_⟩
    rw [Items.top_append, errHas] at h
    obtain ⟨p, hp, h⟩ := (ih hA).2 (by simpa [Items.top] using h)
    exact .part he (by simp) (by simp [tries, hp]) h
  | token he hty hs => exact ⟨trivial, fun h => .token he hty (by simpa [Items.top] using h)⟩
  | contextual he hty => exact ⟨trivial, fun h => .contextual he hty (by simpa [Items.top] using h)⟩
  | rep he _ ih => exact ⟨(ih hA).1, fun h => .part he (by simp) (by simp [tries]) ((ih hA).2 h)⟩
  | withSkip he _ ih => exact ⟨(ih hA).1, fun h => .part he (by simp) (by simp [tries]) ((ih hA).2 h)⟩
  | withSkipSkipped he _ _ _ ih1 ih2 =>
    refine ⟨⟨(ih1 hA).2, (ih1 hA).1, (ih2 hA).1⟩, fun h => ?_⟩
    rw [errHas] at h
    exact .part he (by simp) (by simp [tries]) ((ih2 hA).2 h)
  | opt he _ ih => exact ⟨(ih hA).1, fun h => .part he (by simp) (by simp [tries]) ((ih hA).2 h)⟩
  | any he hs => exact ⟨trivial, fun _ => .any he⟩
  | layer he _ _ _ ih => exact ⟨(ih hA).1, fun h => .part he (by simp) (by simp [tries]) ((ih hA).2 h)⟩
  | layerLeftover he _ _ _ _ _ ih1 ih2 =>
    refine ⟨(ih1 hA).1.append (err (ih2 hA).1 (ih2 hA).2), fun h => ?_⟩
    rw [Items.top_append, errHas] at h
    exact .part he (by simp) (by simp [tries]) ((ih1 hA).2 (by simpa [Items.top] using h))
  | layerSkipped he _ _ _ _ ih =>
    refine ⟨err (ih hA).1 (ih hA).2, fun h => ?_⟩
    rw [errHas] at h
    cases h
  | pratt he _ ih => exact ih hA _ he
  | enter he _ ih => exact ⟨(ih hA).1, fun h => .part he (by simp) (by simp [tries]) ((ih hA).2 h)⟩
  | exit he _ ih => exact ⟨(ih hA).1, fun h => .part he (by simp) (by simp [tries]) ((ih hA).2 h)⟩
  | call he hb _ ih =>
    have := ih (bindArgs_passed he hb hA)
    exact ⟨this.1, fun h => .call he (this.2 h)⟩
  | var he ha _ ih => exact ⟨(ih hA).1, fun h => .var he (hA _ _ ha) ((ih hA).2 h)⟩
  | inject he => exact absurd he (hp.inject _ _ _)
  | injectLinked he => exact absurd he (hp.inject _ _ _)
  | cached he _ ih =>
    refine ⟨⟨(ih hA).1, trivial⟩, fun h => .part he (by simp) (by simp [tries]) ((ih hA).2 ?_)⟩
    simpa [Items.top] using h
  | @allCons args p i k I ps j J _ _ ih1 ih2 =>
    refine ⟨(ih1 hA).1.append (ih2 hA).1, fun h => ?_⟩
    rw [Items.top_append, Bool.or_eq_true] at h
    rcases h with h | h
    · exact ⟨p, by simp, (ih1 hA).2 h⟩
    · obtain ⟨q, hq, h⟩ := (ih2 hA).2 h
      exact ⟨q, by simp [hq], h⟩
  | manyCons _ _ ih1 ih2 =>
    refine ⟨(ih1 hA).1.append (ih2 hA).1, fun h => ?_⟩
    rw [Items.top_append, Bool.or_eq_true] at h
    exact h.elim (ih1 hA).2 (ih2 hA).2
  | skippedNil => exact ⟨trivial, fun _ => rfl⟩
  | skippedCons hs _ ih =>
    refine ⟨(ih hA).1, fun hE => ?_⟩
    have := htok hE _ _ hs
    simp [Items.top, this, (ih hA).2 hE]
  | prattChain _ _ ih1 ih2 =>
    intro e he
    obtain ⟨h1, h2⟩ := ih1 hA e he
    obtain ⟨h3, h4, _⟩ := ih2 hA e he h1 h2
    exact ⟨h3, h4⟩
  | atom ha _ ih =>
    exact fun e he => ⟨(ih hA).1, fun h => .part he (by simp) (by simp [tries, ha]) ((ih hA).2 h)⟩
  | @prefixOp pf t args i k I table j J hm hty _ _ ih1 ih2 =>
    intro e he
    refine ⟨⟨fun ht => ?_, (ih1 hA).1.append (ih2 hA e he).1, trivial⟩, fun h => .pre he hm hty (single h)⟩
    have hno := hp.pre e table pf t he hm hty ht
    have h1 : Shows env.grammar S pf.op → Shows env.grammar S e :=
      fun h => .part he (by simp) (by simp [tries]; exact .inr (.inl ⟨pf, hm, rfl⟩)) h
    rw [Items.top_append, nothing (fun h => h1 ((ih1 hA).2 h)) hno, nothing (ih2 hA e he).2 hno]
    rfl
  | chainEnd => exact fun e he h1 h2 => ⟨h1, h2, fun _ h => h⟩
  | @chainOp ix p t args i k A table m' B j J lhs hm hpr hty _ _ ho _ ih1 ih2 ih3 =>
    intro e he hl hs
    have h1 : Shows env.grammar S ix.op → Shows env.grammar S e :=
      fun h => .part he (by simp) (by simp [tries]; exact .inr (.inr ⟨ix, hm, rfl⟩)) h
    have hno := hp.op e table ix t he hm hty
    obtain ⟨h3, h4, h5⟩ := ih3 hA e he ⟨fun ht => by
      rw [Items.top_append, nothing (fun h => h1 ((ih1 hA).2 h)) (hno ht), nothing (ih2 hA e he).2 (hno ht)]
      rfl, (ih1 hA).1.append (ih2 hA e he).1, trivial⟩
      (fun h => .op he hm hty (single h))
    refine ⟨hl.under ho h3 (h5 t rfl) (fun ht => nothing hs (hno ht)), fun h => ?_,
      fun x hx => Items.opensTy_under hx _⟩
    rw [Items.top_under ho, Bool.or_eq_true] at h
    exact h.elim hs h4
  | @chainLoop ix p t args i k A' table m B j J hm _ hty _ _ _ ih1 ih2 ih3 =>
    intro e he hl hs
    have h1 : Shows env.grammar S ix.op → Shows env.grammar S e :=
      fun h => .part he (by simp) (by simp [tries]; exact .inr (.inr ⟨ix, hm, rfl⟩)) h
    have hno := hp.op e table ix t he hm hty
    obtain ⟨h3, h4, h5⟩ := ih3 hA e he ⟨fun ht => by
      rw [Items.top_append, nothing (fun h => h1 ((ih1 hA).2 h)) (hno ht), nothing (ih2 hA e he).2 (hno ht)]
      rfl, (ih1 hA).1.append (ih2 hA e he).1, trivial⟩
      (fun h => .op he hm hty (by simpa [Items.top] using h))
    exact ⟨h3, h4, fun x hx => by cases hx⟩
  | rhsNone => exact fun _ _ => ⟨trivial, by simp [Items.top]⟩
  | rhsSome _ _ ih => exact fun e he => ih hA e he
  | rhsMissing => exact fun _ _ => ⟨err trivial fun _ => rfl, fun h => by rw [errHas] at h; cases h⟩
  | _ => exact ⟨trivial, by simp [Items.top]⟩

/-! ## Events and calls of the builder -/

/-- Whether a node is in a node of one of the types `P`, given the open nodes. -/
def inOne (P : NodeType → Bool) : List NodeType → Bool
  | [] => false
  | t :: _ => P t

/-- Follows the calls with a stack of open nodes. Stops at a child of one of the types in a node of the types `P`. -/
def scanNo (P : NodeType → Bool) (S : List NodeType) : List NodeType → List BuilderOp → Option (List NodeType)
  | stack, [] => some stack
  | stack, .start ty :: ops => if inOne P stack = true ∧ ty ∈ S then none else scanNo P S (ty :: stack) ops
  | stack, .leaf ty _ :: ops => if inOne P stack = true ∧ ty ∈ S then none else scanNo P S stack ops
  | [], .finish :: _ => none
  | _ :: stack, .finish :: ops => scanNo P S stack ops

theorem scanNo_append (P : NodeType → Bool) (S : List NodeType) (stack : List NodeType) (xs ys : List BuilderOp) :
    scanNo P S stack (xs ++ ys) = (scanNo P S stack xs).bind fun s => scanNo P S s ys := by
  induction xs generalizing stack with
  | nil => rfl
  | cons o xs ih =>
    cases o with
    | start =>
      simp only [List.cons_append, scanNo]
      split
      · rfl
      · exact ih _
    | leaf =>
      simp only [List.cons_append, scanNo]
      split
      · rfl
      · exact ih _
    | finish =>
      cases stack with
      | nil => rfl
      | cons x stack => exact ih _

section
variable {P : NodeType → Bool} {S : List NodeType}

/-- The events are fine inside of a node of type `p`. -/
def GoodNo (P : NodeType → Bool) (S : List NodeType) (p : NodeType) (es : List Event) : Prop :=
  ∀ stack, scanNo P S (p :: stack) (evOps es) = some (p :: stack)

theorem GoodNo.nil {p : NodeType} : GoodNo P S p [] := fun _ => rfl

theorem GoodNo.append {p : NodeType} {xs ys : List Event} (h1 : GoodNo P S p xs) (h2 : GoodNo P S p ys) :
    GoodNo P S p (xs ++ ys) := by
  intro s
  rw [evOps_append, scanNo_append, h1 s]
  exact h2 s

theorem GoodNo.token {p ty : NodeType} {n : Nat} {es : List Event} (h : GoodNo P S p es)
    (ht : P p = true → ty ∉ S) : GoodNo P S p (.token ty n :: es) := by
  intro s
  simp only [evOps, scanNo]
  rw [if_neg (fun h => ht h.1 h.2)]
  exact h s

theorem GoodNo.node {p ty : NodeType} {fp : Option Nat} {es rest : List Event}
    (h : GoodNo P S ty es) (ht : P p = true → ty ∉ S) (hr : GoodNo P S p rest) :
    GoodNo P S p (.start ty fp :: (es ++ .fin :: rest)) := by
  intro s
  simp only [evOps, scanNo, evOps_append, scanNo_append]
  rw [if_neg (fun h => ht h.1 h.2), h (p :: s)]
  exact hr s

theorem items_goodNo {I : Items} {p : NodeType} {fe : List Event} (h : I.Clean P S)
    (hp : P p = true → I.top S = false) (hf : fe = [] ∨ ∃ x, I.opensTy = some x ∧ GoodNo P S x fe) :
    GoodNo P S p (I.resolveWith fe) := by
  have first : ∀ {ty : NodeType} {fe : List Event} {body : Items}, GoodNo P S ty (body.resolveWith []) →
      (fe = [] ∨ ∃ x, some ty = some x ∧ GoodNo P S x fe) →
      GoodNo P S ty (fe ++ body.resolveWith []) := by
    intro ty fe body hb hf
    rcases hf with rfl | ⟨x, h1, h3⟩
    · exact hb
    · cases h1
      exact h3.append hb
  induction I generalizing p fe with
  | nil =>
    rcases hf with rfl | ⟨x, h1, -⟩
    · exact .nil
    · cases h1
  | tok ty n rest ih =>
    rcases hf with rfl | ⟨x, h1, -⟩
    · simp only [Items.top, Bool.or_eq_false_iff] at hp
      exact (ih h (fun e => (hp e).2) (.inl rfl)).token fun e => by simpa using (hp e).1
    · cases h1
  | cached key body rest ih1 ih2 =>
    rcases hf with rfl | ⟨x, h1, -⟩
    · simp only [Items.top, Bool.or_eq_false_iff] at hp
      exact (ih1 h.1 (fun e => (hp e).1) (.inl rfl)).append (ih2 h.2 (fun e => (hp e).2) (.inl rfl))
    · cases h1
  | node ty body rest ih1 ih2 | loop ty body rest ih1 ih2 =>
    simp only [Items.top, Bool.or_eq_false_iff] at hp
    simp only [Items.resolveWith]
    exact (first (ih1 h.2.1 h.1 (.inl rfl)) hf).node (fun e => by simpa using (hp e).1)
      (ih2 h.2.2 (fun e => (hp e).2) (.inl rfl))
  | link ty body mids rest ih1 ih2 ih3 =>
    obtain ⟨h1, h2, h3, h4, x, h5, h6⟩ := h
    simp only [Items.top, Bool.or_eq_false_iff] at hp
    simp only [Items.resolveWith]
    refine ih3 h4 (fun e => (hp e).2) (.inr ⟨x, h5, ?_⟩)
    exact (first (ih1 h2 h1 (.inl rfl)) hf).node (fun e => by simpa using (h6 e).1)
      (ih2 h3 (fun e => (h6 e).2) (.inl rfl))

theorem places_scanNo {isWs : NodeType → Bool} (hws : ∀ t, t ∈ S → isWs t = false) {es : List Event} {ts : List Token}
    {ops : List BuilderOp} (h : Places isWs es ts ops) {s r : List NodeType}
    (hs : scanNo P S s (evOps es) = some r) : scanNo P S s ops = some r := by
  induction h generalizing s with
  | nil => exact hs
  | @space t es ts ops hw _ ih =>
    simp only [scanNo]
    rw [if_neg]
    · exact ih hs
    · rintro ⟨-, h⟩
      rw [hws _ h] at hw
      cases hw
  | start _ ih =>
    simp only [evOps, scanNo] at hs ⊢
    split at hs
    · cases hs
    · rename_i hn
      rw [if_neg hn]
      exact ih hs
  | fin _ ih =>
    cases s with
    | nil => cases hs
    | cons x s => exact ih hs
  | token _ _ _ ih =>
    simp only [evOps, scanNo] at hs ⊢
    split at hs
    · cases hs
    · rename_i hn
      rw [if_neg hn]
      exact ih hs
  | cached _ ih => exact ih hs

theorem forest_scanNo {N : List NodeData} {p : Option Nat} {id pos : Nat} {F : Forest} (h : Repr N p id pos F)
    {s r : List NodeType} (hs : scanNo P S s F.ops = some r) :
    r = s ∧ (inOne P s = true → ∀ c (d : NodeData), c ∈ F.rootIds id → N[c]? = some d → d.ty ∉ S) ∧
    ∀ k (d : NodeData), id ≤ k → k < id + F.size → N[k]? = some d → P d.ty = true →
      ∀ c (e : NodeData), c ∈ d.children → N[c]? = some e → e.ty ∉ S := by
  induction F generalizing p id pos s r with
  | nil =>
    simp only [Forest.ops, scanNo, Option.some.injEq] at hs
    exact ⟨hs.symm, fun _ c d hc => by simp [Forest.rootIds] at hc, fun k _ h1 h2 => by simp [Forest.size] at h2; omega⟩
  | leaf ty len rest ih =>
    simp only [Forest.ops, scanNo] at hs
    split at hs
    · cases hs
    · rename_i hne
      obtain ⟨h1, h2, h3⟩ := ih h.2 hs
      refine ⟨h1, ?_, fun k d hk1 hk2 hd ht c e hc he => ?_⟩
      · intro ht c d hc hd
        simp only [Forest.rootIds, List.mem_cons] at hc
        rcases hc with rfl | hc
        · rw [h.1] at hd
          cases hd
          exact fun hS => hne ⟨ht, hS⟩
        · exact h2 ht c d hc hd
      · by_cases hk : k = id
        · subst hk
          rw [h.1] at hd
          cases hd
          cases hc
        · simp only [Forest.size] at hk2
          exact h3 k d (by omega) (by omega) hd ht c e hc he
  | node ty kids rest ih1 ih2 =>
    simp only [Forest.ops, scanNo] at hs
    split at hs
    · cases hs
    · rename_i hne
      simp only [scanNo_append, Option.bind_eq_some_iff] at hs
      obtain ⟨r1, hs1, hs2⟩ := hs
      obtain ⟨rfl, g2, g3⟩ := ih1 h.2.1 hs1
      obtain ⟨h1, h2, h3⟩ := ih2 h.2.2 hs2
      refine ⟨h1, ?_, fun k d hk1 hk2 hd ht c e hc he => ?_⟩
      · intro ht c d hc hd
        simp only [Forest.rootIds, List.mem_cons] at hc
        rcases hc with rfl | hc
        · rw [h.1] at hd
          cases hd
          exact fun hS => hne ⟨ht, hS⟩
        · exact h2 ht c d hc hd
      · simp only [Forest.size] at hk2
        by_cases hk : k = id
        · subst hk
          rw [h.1] at hd
          cases hd
          exact g2 ht c e hc he
        · by_cases hk' : k < id + 1 + kids.size
          · exact g3 k d (by omega) hk' hd ht c e hc he
          · exact h3 k d (by omega) (by omega) hd ht c e hc he

end

end Fall

/-! ## Check -/

namespace Fall.Check

open Spec

/-- The type is one of `S`. -/
def isOneOf (g : Grammar) (S : List NodeType) (ty : Nat) : Bool :=
  match g.nodeTypes[ty]? with
  | some t => S.contains t
  | none => false

/-- A rule may be read with one of the types, given which expressions may be. -/
def Cert.showsRule (c : Cert) (g : Grammar) (S : List NodeType) (bits : Nat) : Expr → Bool
  | .pub ty _ b => b && (replaced g).any (isOneOf g S) || isOneOf g S ty
  | .token ty => isOneOf g S ty
  | .contextualToken ty _ => isOneOf g S ty
  | .any => true
  | .pratt t => t.prefixes.any (fun p => isOneOf g S p.ty) || t.infixes.any (fun p => isOneOf g S p.ty) ||
    (tries (.pratt t)).any fun (p, la) => !la && bits.testBit p
  | .call body _ => bits.testBit body
  | .var i => (c.values i).any bits.testBit
  | rule => (tries rule).any fun (p, la) => !la && bits.testBit p

/-- The type is one of `P`. -/
def isIn (g : Grammar) (P : NodeType → Bool) (ty : Nat) : Bool :=
  match g.nodeTypes[ty]? with
  | some t => P t
  | none => false

/-- The rule with number `e` keeps the types out, given which expressions may be read with one of them. -/
def barsRule (g : Grammar) (P : NodeType → Bool) (bits : Nat) (e : Nat) : Expr → Bool
  | .pub ty body b => !(isIn g P ty || b && (replaced g).any (isIn g P)) || !bits.testBit body
  | .pratt t => !bits.testBit e ||
    (t.prefixes.all (fun p => !isIn g P p.ty) && t.infixes.all (fun p => !isIn g P p.ty))
  | .inject _ _ => false
  | _ => true

/-- The check that types are kept out. -/
def Cert.bars (c : Cert) (g : Grammar) (P : NodeType → Bool) (S : List NodeType) (bits : Nat) : Bool :=
  !S.contains ERROR && g.rules.all (c.passedRule g) &&
  (g.rules.zipIdx.all fun (rule, e) => !c.showsRule g S bits rule || bits.testBit e) &&
  (g.rules.zipIdx.all fun (rule, e) => barsRule g P bits e rule)

variable {c : Cert} {g : Grammar}

theorem isOneOf_iff {S : List NodeType} {ty : Nat} {t : NodeType} (h : g.nodeTypes[ty]? = some t) (hS : t ∈ S) :
    isOneOf g S ty = true := by
  simp [isOneOf, h, hS]

theorem shows_sound {S : List NodeType} {bits : Nat} (hp : g.rules.all (c.passedRule g) = true)
    (h : (g.rules.zipIdx.all fun (rule, e) => !c.showsRule g S bits rule || bits.testBit e) = true) {e : Nat}
    (hn : Shows g S e) : bits.testBit e = true := by
  have key : ∀ {e : Nat} {rule : Expr}, g.rules[e]? = some rule → c.showsRule g S bits rule = true →
      bits.testBit e = true := by
    intro e rule he hr
    have := zipIdx_all h he
    simpa [hr] using this
  induction hn with
  | pub he ht hs => exact key he (by simp [Cert.showsRule, isOneOf_iff ht hs])
  | pubReplaced he hr ht hs =>
    refine key he ?_
    simp only [Cert.showsRule, Bool.true_and, Bool.or_eq_true]
    exact Or.inl (List.any_eq_true.2 ⟨_, mem_replaced hr, isOneOf_iff ht hs⟩)
  | token he ht hs => exact key he (by simp [Cert.showsRule, isOneOf_iff ht hs])
  | contextual he ht hs => exact key he (by simp [Cert.showsRule, isOneOf_iff ht hs])
  | any he => exact key he rfl
  | @part e p rule he hnp hm _ ih =>
    refine key he ?_
    have any : ((tries rule).any fun (p, la) => !la && bits.testBit p) = true :=
      List.any_eq_true.2 ⟨_, hm, by simpa using ih⟩
    cases rule with
    | pub ty body b => exact absurd rfl (hnp ty body b)
    | token => simp [tries] at hm
    | contextualToken => simp [tries] at hm
    | any => simp [tries] at hm
    | call => simp [tries] at hm
    | var => simp [tries] at hm
    | pratt t => simp only [Cert.showsRule, any, Bool.or_true]
    | _ => exact any
  | pre he hm ht hs =>
    refine key he ?_
    simp only [Cert.showsRule, Bool.or_eq_true]
    exact Or.inl (Or.inl (List.any_eq_true.2 ⟨_, hm, isOneOf_iff ht hs⟩))
  | op he hm ht hs =>
    refine key he ?_
    simp only [Cert.showsRule, Bool.or_eq_true]
    exact Or.inl (Or.inr (List.any_eq_true.2 ⟨_, hm, isOneOf_iff ht hs⟩))
  | call he _ ih => exact key he ih
  | var he ha _ ih => exact key he (List.any_eq_true.2 ⟨_, passed_sound hp ha, ih⟩)

theorem bars_sound {P : NodeType → Bool} {S : List NodeType} {bits : Nat} (h : c.bars g P S bits = true) :
    Bars g P S := by
  simp only [Cert.bars, Bool.and_eq_true] at h
  obtain ⟨⟨⟨h2, h3⟩, h4⟩, h5⟩ := h
  have keep : ∀ {e : Nat} {rule : Expr}, g.rules[e]? = some rule → barsRule g P bits e rule = true :=
    fun he => zipIdx_all h5 he
  have isIn_iff : ∀ {ty : Nat} {t : NodeType}, g.nodeTypes[ty]? = some t → P t = true → isIn g P ty = true := by
    intro ty t h1 h2
    simp [isIn, h1, h2]
  refine ⟨by simpa using h2, ?_, ?_, ?_, ?_⟩
  · intro e ty body b he hT hl
    have := keep he
    simp only [barsRule, shows_sound h3 h4 hl, Bool.not_true, Bool.or_false, Bool.not_eq_true', Bool.or_eq_false_iff] at this
    obtain ⟨ty', t, rfl | ⟨rfl, hr⟩, hT, hP⟩ := hT
    · simp [isIn_iff hT hP] at this
    · have := this.2
      rw [Bool.true_and, List.any_eq_false] at this
      exact this ty' (mem_replaced hr) (isIn_iff hT hP)
  · intro e t p ty he hm hT hP hl
    have := keep he
    simp only [barsRule, shows_sound h3 h4 hl, Bool.not_true, Bool.false_or, Bool.and_eq_true, List.all_eq_true] at this
    have := this.1 p hm
    simp [isIn_iff hT hP] at this
  · intro e t p ty he hm hT hP hl
    have := keep he
    simp only [barsRule, shows_sound h3 h4 hl, Bool.not_true, Bool.false_or, Bool.and_eq_true, List.all_eq_true] at this
    have := this.2 p hm
    simp [isIn_iff hT hP] at this
  · intro e pre body he
    have := keep he
    simp [barsRule] at this

end Fall.Check
