import Verif.Spec.Promise
import Verif.Lemmas.Reading
import Verif.Lemmas.ConvertSpaces
import Verif.Lemmas.TreeBuild
import Verif.Lemmas.Terminates
import Verif.Props.Lex

/-!
What the grammar promises about children and ancestors of nodes holds for the nodes of all readings, of the events
and of the tree.
-/

namespace Fall

open Spec

namespace Spec.Items

/-- There is a node or token of one of the types, not looking into nodes and after moving linked nodes. -/
def has (S : List NodeType) : Items → Bool
  | nil => false
  | tok ty _ rest => S.contains ty || rest.has S
  | cached _ body rest => body.has S || rest.has S
  | node ty _ rest => S.contains ty || rest.has S
  | link _ _ _ rest => rest.has S
  | loop ty _ rest => S.contains ty || rest.has S

/-- All nodes of type `T` have a child with one of the types; `first` is whether one is moved into the first node.
If not `m`, what is moved does not count. -/
def Kept (T : NodeType) (S : List NodeType) (m : Bool) : Bool → Items → Prop
  | _, nil => True
  | _, tok ty _ rest => ty ≠ T ∧ rest.Kept T S m false
  | _, cached _ body rest => body.Kept T S m false ∧ rest.Kept T S m false
  | first, node ty body rest => (ty = T → (first || body.has S) = true) ∧ body.Kept T S m false ∧ rest.Kept T S m false
  | first, link ty body mids rest => (ty = T → (first || body.has S) = true) ∧ body.Kept T S m false ∧
    mids.Kept T S m false ∧ rest.Kept T S m (m && (S.contains ty || mids.has S))
  | first, loop ty body rest => (ty = T → (first || body.has S) = true) ∧ body.Kept T S m false ∧ rest.Kept T S m false

/-- The first item is a node without a link. -/
def PlainNode : Items → Prop
  | node _ _ _ => True
  | _ => False

variable {T : NodeType} {S : List NodeType} {m : Bool}

theorem has_append (I J : Items) : (I.append J).has S = (I.has S || J.has S) := by
  induction I with
  | nil => simp [append, has]
  | _ => simp_all [append, has, Bool.or_assoc]

theorem has_under {I : Items} (h : I.Opens) (J : Items) : (I.under J).has S = J.has S := by
  cases I <;> simp_all [Opens, under, has]

theorem Kept.mono {I : Items} {x y : Bool} (hxy : x = true → y = true) (h : I.Kept T S m x) : I.Kept T S m y := by
  cases I with
  | nil => trivial
  | tok => exact h
  | cached => exact h
  | node _ _ _ | loop _ _ _ =>
    obtain ⟨h1, h2⟩ := h
    refine ⟨fun ht => ?_, h2⟩
    have := h1 ht
    simp only [Bool.or_eq_true] at this ⊢
    exact this.imp_left hxy
  | link _ _ _ _ =>
    obtain ⟨h1, h2⟩ := h
    refine ⟨fun ht => ?_, h2⟩
    have := h1 ht
    simp only [Bool.or_eq_true] at this ⊢
    exact this.imp_left hxy

theorem Kept.append {I J : Items} {x : Bool} (h : I.Kept T S m x) (hJ : J.Kept T S m false) :
    (I.append J).Kept T S m x := by
  induction I generalizing x with
  | nil => exact hJ.mono (by simp)
  | tok _ _ _ ih => exact ⟨h.1, ih h.2⟩
  | cached _ _ _ _ ih => exact ⟨h.1, ih h.2⟩
  | node _ _ _ _ ih => exact ⟨h.1, h.2.1, ih h.2.2⟩
  | loop _ _ _ _ ih => exact ⟨h.1, h.2.1, ih h.2.2⟩
  | link _ _ _ _ _ _ ih => exact ⟨h.1, h.2.1, h.2.2.1, ih h.2.2.2⟩

theorem Kept.under {I J : Items} {x : Bool} (ho : I.Opens) (hm : m = true → I.PlainNode) (h : I.Kept T S m x)
    (hJ : J.Kept T S m (m && I.has S)) : (I.under J).Kept T S m x := by
  cases I with
  | nil => cases ho
  | tok => cases ho
  | cached => cases ho
  | node => exact ⟨h.1, h.2.1, h.2.2, hJ⟩
  | loop => exact ⟨h.1, h.2.1, h.2.2, hJ⟩
  | link ty body mids rest =>
    cases m with
    | true => cases hm rfl
    | false => exact ⟨h.1, h.2.1, h.2.2.1.append (h.2.2.2.mono (by simp)), hJ.mono (by simp)⟩

end Spec.Items

/-- The readings of a grammar keep its promises. -/
theorem Spec.Derives.kept {env : Env} {T : NodeType} {S : List NodeType} {m : Bool}
    (hp : Promises env.grammar T S m) (hl : Linked env.grammar) (ht : ∀ i, sigTy env i ≠ some T)
    {args : Args} {goal : Goal} {i j : Nat} {I : Items} (h : Derives env args goal i j I)
    (hA : Args.Passed env.grammar args) :
    match goal with
    | .expr e => I.Kept T S m false ∧ (I.has S = false → Lacks env.grammar S e)
    | .all ps => I.Kept T S m false ∧ (I.has S = false → ∀ p, p ∈ ps → Lacks env.grammar S p)
    | .many _ => I.Kept T S m false
    | .skipped => I.Kept T S m false
    | .pratt t _ => ∀ e : Nat, env.grammar.rules[e]? = some (.pratt t) →
        I.Kept T S m false ∧ (I.has S = false → Lacks env.grammar S e)
    | .operand t => ∀ e : Nat, env.grammar.rules[e]? = some (.pratt t) →
        I.Kept T S m false ∧ (I.has S = false → Lacks env.grammar S e) ∧ (m = true → I.PlainNode) ∧
        (t.infixes ≠ [] → I ≠ .nil)
    | .chain t _ lhs => ∀ e : Nat, env.grammar.rules[e]? = some (.pratt t) → ∀ x,
        (m = true → lhs.PlainNode) → (t.infixes ≠ [] → lhs ≠ .nil) → (lhs.has S = false → Lacks env.grammar S e) →
        lhs.Kept T S m x → I.Kept T S m x ∧ (I.has S = false → Lacks env.grammar S e)
    | .rhs t _ => ∀ e : Nat, env.grammar.rules[e]? = some (.pratt t) → I.Kept T S m false := by
  have single : ∀ {t : NodeType} {I : Items}, (Items.node t I .nil).has S = false → t ∉ S := by
    intro t I h
    simpa [Items.has] using h
  have err : ∀ {x : Items}, x.Kept T S m false → (Items.node ERROR x .nil).Kept T S m false :=
    fun h => ⟨fun h => absurd h.symm hp.error, h, trivial⟩
  induction h with
  | @pub e ty t args body i j I r he hty _ ih =>
    obtain ⟨h1, h2⟩ := ih hA
    refine ⟨⟨?_, h1, trivial⟩, fun h => .pub he (by rw [hty]; simpa using single h)⟩
    rintro rfl
    by_cases hh : I.has S = true
    · simp [hh]
    · exact absurd (h2 (by simpa using hh)) (hp.pub _ _ _ _ he (Or.inl hty))
  | @pubReplaced e t args body i j I ty ty' he hrep hty _ ih =>
    obtain ⟨h1, h2⟩ := ih hA
    refine ⟨⟨?_, h1, trivial⟩, fun h => .pubReplaced he hrep (by rw [hty]; simpa using single h)⟩
    rintro rfl
    by_cases hh : I.has S = true
    · simp [hh]
    · exact absurd (h2 (by simpa using hh)) (hp.pub _ _ _ _ he (Or.inr ⟨rfl, ty', hrep, hty⟩))
  | pubReplace he _ ih => exact ⟨(ih hA).1, fun h => .pubReplace he ((ih hA).2 h)⟩
  | or he hm _ ih => exact ⟨(ih hA).1, fun h => .or he hm ((ih hA).2 h)⟩
  | and he _ ih => exact ⟨(ih hA).1, fun h => .and he fun p hp => (ih hA).2 h p (List.mem_of_mem_take hp)⟩
  | andCommit he hc _ _ ih =>
    obtain ⟨h1, h2⟩ := ih hA
    refine ⟨h1.append (err trivial), fun h => .and he fun p hp => h2 ?_ p ?_⟩
    · simp only [Items.has_append, Bool.or_eq_false_iff] at h
      exact h.1
    · simp only [Option.getD_some] at hp
      rw [List.take_append_of_le_length hc] at hp
      exact List.mem_of_mem_take hp
  | token he hty hs =>
    refine ⟨⟨?_, trivial⟩, fun h => .token he ?_⟩
    · rintro rfl
      exact ht _ hs
    · rw [hty]
      simpa [Items.has] using h
  | contextual he hty =>
    refine ⟨⟨?_, trivial⟩, fun h => .contextual he ?_⟩
    · rintro rfl
      exact hp.contextual _ _ _ he hty
    · rw [hty]
      simpa [Items.has] using h
  | rep he _ ih => exact ⟨ih hA, fun _ => .rep he⟩
  | withSkip he _ ih => exact ⟨(ih hA).1, fun h => .withSkip he ((ih hA).2 h)⟩
  | withSkipSkipped he _ _ _ ih1 ih2 =>
    refine ⟨⟨fun h => absurd h.symm hp.error, ih1 hA, (ih2 hA).1⟩, fun h => .withSkip he ((ih2 hA).2 ?_)⟩
    simp only [Items.has, Bool.or_eq_false_iff] at h
    exact h.2
  | opt he _ ih => exact ⟨(ih hA).1, fun _ => .opt he⟩
  | optNone he => exact ⟨trivial, fun _ => .opt he⟩
  | not he => exact ⟨trivial, fun _ => .not he⟩
  | eof he => exact ⟨trivial, fun _ => .eof he⟩
  | any he hs =>
    refine ⟨⟨?_, trivial⟩, fun _ => .any he⟩
    rintro rfl
    exact ht _ hs
  | layer he _ _ _ ih => exact ⟨(ih hA).1, fun _ => .layer he⟩
  | layerLeftover he _ _ _ _ _ ih1 ih2 => exact ⟨(ih1 hA).1.append (err (ih2 hA)), fun _ => .layer he⟩
  | layerNone he => exact ⟨trivial, fun _ => .layer he⟩
  | layerSkipped he _ _ _ _ ih => exact ⟨err (ih hA), fun _ => .layer he⟩
  | pratt he _ ih => exact ih hA _ he
  | enter he _ ih => exact ⟨(ih hA).1, fun h => .enter he ((ih hA).2 h)⟩
  | exit he _ ih => exact ⟨(ih hA).1, fun h => .exit he ((ih hA).2 h)⟩
  | isIn he => exact ⟨trivial, fun _ => .isIn he⟩
  | call he hb _ ih =>
    have := ih (bindArgs_passed he hb hA)
    exact ⟨this.1, fun h => .call he (this.2 h)⟩
  | var he ha _ ih => exact ⟨(ih hA).1, fun h => .var he (hA _ _ ha) ((ih hA).2 h)⟩
  | prevIs he => exact ⟨trivial, fun _ => .prevIs he⟩
  | inject he _ _ ih1 ih2 =>
    refine ⟨(ih1 hA).1.append (ih2 hA).1, fun h => .inject he ((ih2 hA).2 ?_)⟩
    simp only [Items.has_append, Bool.or_eq_false_iff] at h
    exact h.2
  | injectLinked he _ _ ho _ ih1 ih2 =>
    refine ⟨(ih1 hA).1.under ho ?_ ((ih2 hA).1.mono (by simp)), fun h => .inject he ((ih2 hA).2 ?_)⟩
    · exact fun hm => absurd he (hp.inject hm _ _ _)
    · rwa [Items.has_under ho] at h
  | cached he _ ih =>
    refine ⟨⟨(ih hA).1, trivial⟩, fun h => .cached he ((ih hA).2 ?_)⟩
    simpa [Items.has] using h
  | allNil => exact ⟨trivial, by simp⟩
  | allCons _ _ ih1 ih2 =>
    refine ⟨(ih1 hA).1.append (ih2 hA).1, fun h p hp => ?_⟩
    simp only [Items.has_append, Bool.or_eq_false_iff] at h
    rcases List.mem_cons.1 hp with rfl | hp
    · exact (ih1 hA).2 h.1
    · exact (ih2 hA).2 h.2 p hp
  | manyNil => trivial
  | manyCons _ _ ih1 ih2 => exact (ih1 hA).1.append (ih2 hA)
  | skippedNil => trivial
  | skippedCons hs _ ih =>
    refine ⟨?_, ih hA⟩
    rintro rfl
    exact ht _ hs
  | prattChain _ _ ih1 ih2 =>
    intro e he
    obtain ⟨h1, h2, h3, h4⟩ := ih1 hA e he
    exact ih2 hA e he false h3 h4 h2 h1
  | @atom a args i j I table ha hd ih =>
    intro e he
    refine ⟨(ih hA).1, fun h => .atom he ha ((ih hA).2 h), fun hm => ?_, ?_⟩
    · obtain ⟨ty, body, b, hr⟩ := hp.atoms hm e table a he ha
      cases hd <;> first | trivial | (rename_i h0 _ _; rw [hr] at h0; cases h0) | (rename_i h0 _; rw [hr] at h0; cases h0) | (rename_i h0; rw [hr] at h0; cases h0) | (rename_i h0 _ _ _; rw [hr] at h0; cases h0) | (rename_i h0 _ _ _ _; rw [hr] at h0; cases h0)
    · rintro hi rfl
      exact hl.atom e a table he hi ha (hd.nullable hA hd.head_of_toks)
  | @prefixOp pf t args i k I table j J hm hty _ _ ih1 ih2 =>
    intro e he
    obtain ⟨h1, h2⟩ := ih1 hA
    obtain ⟨h3, h4⟩ := ih2 hA e he
    refine ⟨⟨?_, h1.append h3, trivial⟩, fun h => .pre he hm (by rw [hty]; simpa using single h), fun _ => trivial, by simp⟩
    rintro rfl
    rw [Items.has_append, Bool.false_or]
    by_cases hI : I.has S = true
    · simp [hI]
    · by_cases hJ : J.has S = true
      · simp [hJ]
      · exact absurd (h4 (by simpa using hJ)) (hp.pre e table pf he hm hty (h2 (by simpa using hI)))
  | chainEnd => exact fun e he x _ _ h1 h2 => ⟨h2, h1⟩
  | @chainOp ix p t args i k A table m' B j J lhs hm hpr hty _ _ ho _ ih1 ih2 ih3 =>
    intro e he x hpl hnil hlack hk
    obtain ⟨h1, h2⟩ := ih1 hA
    have h3 := ih2 hA e he
    obtain ⟨h4, h5⟩ := ih3 hA e he (m && lhs.has S) (fun _ => trivial) (by simp)
      (fun h => .op he hm (by rw [hty]; simpa using single h)) (by
        refine ⟨?_, h1.append h3, trivial⟩
        rintro rfl
        by_cases hI : A.has S = true
        · simp [Items.has_append, hI]
        · obtain ⟨hlk, hne⟩ := hp.op e table ix he hm hty (h2 (by simpa using hI))
          by_cases hL : lhs.has S = true
          · simp [hlk, hL]
          · exact absurd (hlack (by simpa using hL)) hne)
    refine ⟨hk.under ho hpl h4, fun h => h5 ?_⟩
    rwa [Items.has_under ho] at h
  | chainLoop hix => exact fun e he x _ hnil => absurd rfl (hnil (List.ne_nil_of_mem hix))
  | rhsNone => exact fun _ _ => trivial
  | rhsSome _ _ ih => exact fun e he => (ih hA e he).1
  | rhsMissing => exact fun _ _ => err trivial

namespace Spec.Items

/-- There is a node or token of type `T` that is not inside of a node of type `A`, even before moving linked
nodes. -/
def out (T A : NodeType) : Items → Bool
  | nil => false
  | tok ty _ rest => ty == T || rest.out T A
  | cached _ body rest => body.out T A || rest.out T A
  | node ty body rest => ty == T || (ty != A && body.out T A) || rest.out T A
  | link ty body mids rest => ty == T || (ty != A && body.out T A) || mids.out T A || rest.out T A
  | loop ty body rest => ty == T || (ty != A && body.out T A) || rest.out T A

variable {T A : NodeType}

theorem out_append (I J : Items) : (I.append J).out T A = (I.out T A || J.out T A) := by
  induction I with
  | nil => simp [append, out]
  | _ => simp_all [append, out, Bool.or_assoc]

theorem out_under (I J : Items) : (I.under J).out T A = (I.out T A || J.out T A) := by
  cases I <;> simp [under, out, out_append, append, Bool.or_assoc]

end Spec.Items

/-- A node that is not inside of one of type `A` is found by the analysis. -/
theorem Spec.Derives.outside {env : Env} {T A : NodeType} (herr : T ≠ ERROR) (ht : ∀ i, sigTy env i ≠ some T)
    {args : Args} {goal : Goal} {i j : Nat} {I : Items} (h : Derives env args goal i j I) :
    match goal with
    | .expr e => I.out T A = true → Outside env.grammar T A e args
    | .all ps => I.out T A = true → ∃ p, p ∈ ps ∧ Outside env.grammar T A p args
    | .many body => I.out T A = true → Outside env.grammar T A body args
    | .skipped => I.out T A = false
    | .pratt t _ => ∀ e : Nat, env.grammar.rules[e]? = some (.pratt t) → I.out T A = true → Outside env.grammar T A e args
    | .operand t => ∀ e : Nat, env.grammar.rules[e]? = some (.pratt t) → I.out T A = true → Outside env.grammar T A e args
    | .chain t _ lhs => ∀ e : Nat, env.grammar.rules[e]? = some (.pratt t) →
        (lhs.out T A = true → Outside env.grammar T A e args) → I.out T A = true → Outside env.grammar T A e args
    | .rhs t _ => ∀ e : Nat, env.grammar.rules[e]? = some (.pratt t) → I.out T A = true → Outside env.grammar T A e args := by
  have err : ∀ {x y : Items}, x.out T A = false → (Items.node ERROR x y).out T A = y.out T A := by
    intro x y h
    simp [Items.out, h, beq_eq_false_iff_ne.2 herr.symm]
  have node : ∀ {t : NodeType} {x : Items}, (Items.node t x .nil).out T A = true → t = T ∨ (t ≠ A ∧ x.out T A = true) := by
    intro t x h
    simpa [Items.out] using h
  induction h with
  | @pub e ty t args body i j I r he hty _ ih =>
    intro h
    rcases node h with rfl | ⟨hne, h⟩
    · exact .pub he hty
    · exact .pubBody he (Or.inl (by rw [hty]; simpa using hne)) (ih h)
  | @pubReplaced e t args body i j I ty ty' he hrep hty _ ih =>
    intro h
    rcases node h with rfl | ⟨hne, h⟩
    · exact .pubReplaced he hrep hty
    · exact .pubBody he (Or.inr ⟨rfl, ty', hrep, by rw [hty]; simpa using hne⟩) (ih h)
  | pubReplace he _ ih => exact fun h => .part he (by simp) (by simp [tries]) (ih h)
  | or he hm _ ih => exact fun h => .part he (by simp) (by simpa [tries] using hm) (ih h)
  | and he _ ih =>
    intro h
    obtain ⟨p, hp, h⟩ := ih h
    exact .part he (by simp) (by simpa [tries] using hp) h
  | andCommit he hc _ _ ih =>
    intro h
    rw [Items.out_append, err rfl] at h
    obtain ⟨p, hp, h⟩ := ih (by simpa [Items.out] using h)
    exact .part he (by simp) (by simp [tries, hp]) h
  | token he hty hs =>
    intro h
    obtain rfl : _ = T := by simpa [Items.out] using h
    exact absurd hs (ht _)
  | contextual he hty =>
    intro h
    obtain rfl : _ = T := by simpa [Items.out] using h
    exact .contextual he hty
  | rep he _ ih => exact fun h => .part he (by simp) (by simp [tries]) (ih h)
  | withSkip he _ ih => exact fun h => .part he (by simp) (by simp [tries]) (ih h)
  | withSkipSkipped he _ _ _ ih1 ih2 =>
    intro h
    rw [err (ih1)] at h
    exact .part he (by simp) (by simp [tries]) (ih2 h)
  | opt he _ ih => exact fun h => .part he (by simp) (by simp [tries]) (ih h)
  | any he hs =>
    intro h
    obtain rfl : _ = T := by simpa [Items.out] using h
    exact absurd hs (ht _)
  | layer he _ _ _ ih => exact fun h => .part he (by simp) (by simp [tries]) (ih h)
  | layerLeftover he _ _ _ _ _ ih1 ih2 =>
    intro h
    rw [Items.out_append, err (ih2)] at h
    exact .part he (by simp) (by simp [tries]) (ih1 (by simpa [Items.out] using h))
  | layerSkipped he _ _ _ _ ih =>
    intro h
    rw [err (ih)] at h
    cases h
  | pratt he _ ih => exact fun h => ih _ he h
  | enter he _ ih => exact fun h => .part he (by simp) (by simp [tries]) (ih h)
  | exit he _ ih => exact fun h => .part he (by simp) (by simp [tries]) (ih h)
  | call he hb _ ih => exact fun h => .call he (binds_of_bindArgs hb) (ih h)
  | var he ha _ ih => exact fun h => .var he ha (ih h)
  | inject he _ _ ih1 ih2 =>
    intro h
    rw [Items.out_append, Bool.or_eq_true] at h
    rcases h with h | h
    · exact .part he (by simp) (by simp [tries]) (ih1 h)
    · exact .part he (by simp) (by simp [tries]) (ih2 h)
  | injectLinked he _ _ ho _ ih1 ih2 =>
    intro h
    rw [Items.out_under, Bool.or_eq_true] at h
    rcases h with h | h
    · exact .part he (by simp) (by simp [tries]) (ih1 h)
    · exact .part he (by simp) (by simp [tries]) (ih2 h)
  | cached he _ ih => exact fun h => .part he (by simp) (by simp [tries]) (ih (by simpa [Items.out] using h))
  | @allCons args p i k I ps j J _ _ ih1 ih2 =>
    intro h
    rw [Items.out_append, Bool.or_eq_true] at h
    rcases h with h | h
    · exact ⟨p, by simp, ih1 h⟩
    · obtain ⟨q, hq, h⟩ := ih2 h
      exact ⟨q, by simp [hq], h⟩
  | manyCons _ _ ih1 ih2 =>
    intro h
    rw [Items.out_append, Bool.or_eq_true] at h
    exact h.elim (ih1) (ih2)
  | skippedNil => rfl
  | skippedCons hs _ ih =>
    simp only [Items.out, ih, Bool.or_false, beq_eq_false_iff_ne]
    rintro rfl
    exact ht _ hs
  | prattChain _ _ ih1 ih2 => exact fun e he h => ih2 e he (ih1 e he) h
  | atom ha _ ih => exact fun e he h => .part he (by simp) (by simp [tries, ha]) (ih h)
  | @prefixOp pf t args i k I table j J hm hty _ _ ih1 ih2 =>
    intro e he h
    rcases node h with rfl | ⟨_, h⟩
    · exact .pre he hm hty
    · rw [Items.out_append, Bool.or_eq_true] at h
      rcases h with h | h
      · refine .part he (by simp) ?_ (ih1 h)
        simp only [tries, List.mem_append, List.mem_map]
        exact Or.inl (Or.inr ⟨pf, hm, rfl⟩)
      · exact ih2 e he h
  | chainEnd => exact fun e he h => h
  | @chainOp ix p t args i k A' table m B j J lhs hm _ hty _ _ _ _ ih1 ih2 ih3 =>
    intro e he hl h
    rw [Items.out_under, Bool.or_eq_true] at h
    refine h.elim hl (ih3 e he fun h => ?_)
    rcases node h with rfl | ⟨_, h⟩
    · exact .op he hm hty
    · rw [Items.out_append, Bool.or_eq_true] at h
      rcases h with h | h
      · refine .part he (by simp) ?_ (ih1 h)
        simp only [tries, List.mem_append, List.mem_map]
        exact Or.inr ⟨ix, hm, rfl⟩
      · exact ih2 e he h
  | @chainLoop ix p t args i k A' table m B j J hm _ hty _ _ _ ih1 ih2 ih3 =>
    intro e he hl h
    refine ih3 e he (fun h => ?_) h
    have : t = T ∨ (t ≠ A ∧ (A'.append B).out T A = true) := by simpa [Items.out] using h
    rcases this with rfl | ⟨_, h⟩
    · exact .op he hm hty
    · rw [Items.out_append, Bool.or_eq_true] at h
      rcases h with h | h
      · refine .part he (by simp) ?_ (ih1 h)
        simp only [tries, List.mem_append, List.mem_map]
        exact Or.inr ⟨ix, hm, rfl⟩
      · exact ih2 e he h
  | rhsSome _ _ ih => exact fun e he h => ih e he h
  | rhsMissing =>
    intro e he h
    rw [err rfl] at h
    cases h
  | _ => simp [Items.out]

/-! ## Events and calls of the builder -/

/-- The calls of the builder for events, not caring about lengths. -/
def evOps : List Event → List BuilderOp
  | [] => []
  | .start ty _ :: es => .start ty :: evOps es
  | .fin :: es => .finish :: evOps es
  | .token ty _ :: es => .leaf ty 0 :: evOps es
  | .cached _ _ :: es => evOps es

theorem evOps_append (xs ys : List Event) : evOps (xs ++ ys) = evOps xs ++ evOps ys := by
  induction xs with
  | nil => rfl
  | cons e xs ih => cases e <;> simp [evOps, ih]

/-- Marks the innermost open node if there is a child of one of the types. -/
def mark (S : List NodeType) (ty : NodeType) : List (NodeType × Bool) → List (NodeType × Bool)
  | [] => []
  | (t, b) :: stack => (t, b || S.contains ty) :: stack

/-- Follows the calls with a stack of open nodes, each with whether it has a child of one of the types. Stops at a
node of type `T` without. -/
def scan (T : NodeType) (S : List NodeType) : List (NodeType × Bool) → List BuilderOp → Option (List (NodeType × Bool))
  | stack, [] => some stack
  | stack, .start ty :: ops => scan T S ((ty, false) :: mark S ty stack) ops
  | stack, .leaf ty _ :: ops => if ty = T then none else scan T S (mark S ty stack) ops
  | [], .finish :: _ => none
  | (ty, b) :: stack, .finish :: ops => if ty = T ∧ b = false then none else scan T S stack ops

theorem scan_append (T : NodeType) (S : List NodeType) (stack : List (NodeType × Bool)) (xs ys : List BuilderOp) :
    scan T S stack (xs ++ ys) = (scan T S stack xs).bind fun s => scan T S s ys := by
  induction xs generalizing stack with
  | nil => rfl
  | cons o xs ih =>
    cases o with
    | start => exact ih _
    | leaf =>
      simp only [List.cons_append, scan]
      split
      · rfl
      · exact ih _
    | finish =>
      cases stack with
      | nil => rfl
      | cons x stack =>
        simp only [List.cons_append, scan]
        split
        · rfl
        · exact ih _

/-- The events keep the promise inside of any node, and have a child of one of the types for it if `x`. -/
def Good (T : NodeType) (S : List NodeType) (x : Bool) (es : List Event) : Prop :=
  ∀ t b stack, ∃ b', scan T S ((t, b) :: stack) (evOps es) = some ((t, b') :: stack) ∧ (b = true → b' = true) ∧
    (x = true → b' = true)

section
variable {T : NodeType} {S : List NodeType} {m : Bool}

theorem Good.nil : Good T S false [] := fun _ b _ => ⟨b, rfl, id, by simp⟩

theorem Good.mono {x y : Bool} {es : List Event} (h : Good T S x es) (hxy : y = true → x = true) : Good T S y es := by
  intro t b stack
  obtain ⟨b', h1, h2, h3⟩ := h t b stack
  exact ⟨b', h1, h2, fun hy => h3 (hxy hy)⟩

theorem Good.append {x y : Bool} {xs ys : List Event} (h1 : Good T S x xs) (h2 : Good T S y ys) :
    Good T S (x || y) (xs ++ ys) := by
  intro t b stack
  obtain ⟨b1, e1, f1, g1⟩ := h1 t b stack
  obtain ⟨b2, e2, f2, g2⟩ := h2 t b1 stack
  refine ⟨b2, by rw [evOps_append, scan_append, e1]; exact e2, fun h => f2 (f1 h), fun h => ?_⟩
  rw [Bool.or_eq_true] at h
  exact h.elim (fun h => f2 (g1 h)) g2

theorem Good.token {ty : NodeType} {n : Nat} (h : ty ≠ T) : Good T S (S.contains ty) [.token ty n] := by
  intro t b stack
  refine ⟨b || S.contains ty, by simp [evOps, scan, h, mark], fun h => by simp [h], fun h => ?_⟩
  rw [h, Bool.or_true]

theorem Good.cached {key n : Nat} {x : Bool} {es : List Event} (h : Good T S x es) :
    Good T S x (.cached key n :: es) := h

theorem Good.node {ty : NodeType} {fp : Option Nat} {x : Bool} {es : List Event} (h : Good T S x es)
    (hx : ty = T → x = true) : Good T S (S.contains ty) (.start ty fp :: (es ++ [.fin])) := by
  intro t b stack
  obtain ⟨b', h1, _, h3⟩ := h ty false ((t, b || S.contains ty) :: stack)
  refine ⟨b || S.contains ty, ?_, fun h => by simp [h], fun h => by rw [h, Bool.or_true]⟩
  simp only [evOps, evOps_append, scan, mark, scan_append, h1, Option.bind_some]
  rw [if_neg]
  rintro ⟨rfl, hb⟩
  rw [h3 (hx rfl)] at hb
  cases hb

/-- Moving the linked nodes of items that keep the promise gives events that do. -/
theorem Spec.Items.Kept.good {I : Items} {x : Bool} {fe : List Event} (h : I.Kept T S m x) (hf : Good T S x fe) :
    Good T S (I.has S) (I.resolveWith fe) := by
  induction I generalizing x fe with
  | nil => exact hf.mono (by simp [Items.has])
  | tok ty n rest ih =>
    have := (hf.append (Good.token (n := n) h.1)).append (ih h.2 .nil)
    simp only [Items.resolveWith]
    rw [show fe ++ Event.token ty n :: rest.resolveWith [] = fe ++ [Event.token ty n] ++ rest.resolveWith [] by simp]
    exact this.mono (by simp [Items.has]; grind)
  | cached key body rest ih1 ih2 =>
    have := hf.append (((ih1 h.1 .nil).append (ih2 h.2 .nil)).cached (key := key) (n := body.encode.length))
    exact this.mono (by simp [Items.has]; grind)
  | node ty body rest ih1 ih2 =>
    have := ((hf.append (ih1 h.2.1 .nil)).node (fp := none) h.1).append (ih2 h.2.2 .nil)
    simp only [Items.resolveWith, Items.has]
    simpa using this
  | loop ty body rest ih1 ih2 =>
    have := ((hf.append (ih1 h.2.1 .nil)).node (fp := none) h.1).append (ih2 h.2.2 .nil)
    simp only [Items.resolveWith, Items.has]
    simpa using this
  | link ty body mids rest ih1 ih2 ih3 =>
    have := ((hf.append (ih1 h.2.1 .nil)).node (fp := none) h.1).append (ih2 h.2.2.1 .nil)
    simp only [Items.resolveWith, Items.has]
    refine ih3 h.2.2.2 ?_
    have := this.mono (y := m && (S.contains ty || mids.has S)) (by simp)
    simpa using this

/-- More marks. -/
def More : List (NodeType × Bool) → List (NodeType × Bool) → Prop
  | [], [] => True
  | (t, b) :: s, (t', b') :: s' => t = t' ∧ (b = true → b' = true) ∧ More s s'
  | _, _ => False

theorem More.mark {s s' : List (NodeType × Bool)} (h : More s s') (ty : NodeType) : More (mark S ty s) (mark S ty s') := by
  match s, s', h with
  | [], [], _ => trivial
  | (t, b) :: s, (t', b') :: s', h =>
    refine ⟨h.1, fun hb => ?_, h.2.2⟩
    simp only [Bool.or_eq_true] at hb ⊢
    exact hb.imp_left h.2.1

theorem More.mark_right {s s' : List (NodeType × Bool)} (h : More s s') (ty : NodeType) : More s (Fall.mark S ty s') := by
  match s, s', h with
  | [], [], _ => trivial
  | (t, b) :: s, (t', b') :: s', h => exact ⟨h.1, fun hb => by simp [h.2.1 hb], h.2.2⟩

/-- Whitespace does not break the promise. -/
theorem places_scan {isWs : NodeType → Bool} {es : List Event} {ts : List Token} {ops : List BuilderOp}
    (h : Places isWs es ts ops) (ht : ∀ t, t ∈ ts → t.ty ≠ T) {s s' r : List (NodeType × Bool)} (hm : More s s')
    (hs : scan T S s (evOps es) = some r) : ∃ r', scan T S s' ops = some r' ∧ More r r' := by
  induction h generalizing s s' with
  | nil =>
    cases hs
    exact ⟨s', rfl, hm⟩
  | @space t es ts ops _ _ ih =>
    simp only [scan]
    rw [if_neg (ht _ (by simp))]
    exact ih (fun t h => ht t (by simp [h])) (hm.mark_right _) hs
  | start _ ih => exact ih ht (show More ((_, false) :: mark S _ s) _ from ⟨rfl, id, hm.mark _⟩) hs
  | fin _ ih =>
    match s, s', hm with
    | [], [], _ => cases hs
    | (t, b) :: s, (t', b') :: s', hm =>
      obtain ⟨rfl, h2, h3⟩ := hm
      simp only [evOps, scan] at hs ⊢
      split at hs
      · cases hs
      · rename_i hn
        rw [if_neg]
        · exact ih ht h3 hs
        · rintro ⟨rfl, rfl⟩
          exact hn ⟨rfl, by cases b <;> simp_all⟩
  | token _ _ _ ih =>
    simp only [evOps, scan] at hs ⊢
    split at hs
    · cases hs
    · rename_i hn
      rw [if_neg hn]
      exact ih (fun t h => ht t (by simp [h])) (hm.mark _) hs
  | cached _ ih => exact ih ht hm hs

/-- One of the roots has one of the types. -/
def Forest.has (S : List NodeType) : Forest → Bool
  | .nil => false
  | .leaf ty _ rest => S.contains ty || rest.has S
  | .node ty _ rest => S.contains ty || rest.has S

theorem Forest.has_root {N : List NodeData} {p : Option Nat} {id pos : Nat} {F : Forest} (h : Repr N p id pos F)
    (hS : F.has S = true) : ∃ (c : Nat) (d : NodeData), c ∈ F.rootIds id ∧ N[c]? = some d ∧ d.ty ∈ S := by
  induction F generalizing id pos with
  | nil => cases hS
  | leaf ty len rest ih =>
    simp only [Forest.has, Bool.or_eq_true, List.contains_iff_mem] at hS
    rcases hS with hS | hS
    · exact ⟨id, _, by simp [Forest.rootIds], h.1, hS⟩
    · obtain ⟨c, d, h1, h2, h3⟩ := ih h.2 hS
      exact ⟨c, d, by simp [Forest.rootIds, h1], h2, h3⟩
  | node ty kids rest _ ih =>
    simp only [Forest.has, Bool.or_eq_true, List.contains_iff_mem] at hS
    rcases hS with hS | hS
    · exact ⟨id, _, by simp [Forest.rootIds], h.1, hS⟩
    · obtain ⟨c, d, h1, h2, h3⟩ := ih h.2.2 hS
      exact ⟨c, d, by simp [Forest.rootIds, h1], h2, h3⟩

/-- The promise holds for the node table if it holds for the calls. -/
theorem forest_scan {N : List NodeData} {p : Option Nat} {id pos : Nat} {F : Forest} (h : Repr N p id pos F)
    {t : NodeType} {b : Bool} {s r : List (NodeType × Bool)} (hs : scan T S ((t, b) :: s) F.ops = some r) :
    r = (t, b || F.has S) :: s ∧ ∀ k d, id ≤ k → k < id + F.size → N[k]? = some d → d.ty = T →
      ∃ c e, c ∈ d.children ∧ N[c]? = some e ∧ e.ty ∈ S := by
  induction F generalizing p id pos t b s r with
  | nil =>
    simp only [Forest.ops, scan, Option.some.injEq] at hs
    exact ⟨by simp [← hs, Forest.has], fun k _ h1 h2 => by simp [Forest.size] at h2; omega⟩
  | leaf ty len rest ih =>
    simp only [Forest.ops, scan, mark] at hs
    split at hs
    · cases hs
    · rename_i hne
      obtain ⟨h1, h2⟩ := ih h.2 hs
      refine ⟨by simp [h1, Forest.has, Bool.or_assoc], fun k d hk1 hk2 hd ht => ?_⟩
      by_cases hk : k = id
      · subst hk
        rw [h.1] at hd
        cases hd
        exact absurd ht hne
      · simp only [Forest.size] at hk2
        exact h2 k d (by omega) (by omega) hd ht
  | node ty kids rest ih1 ih2 =>
    simp only [Forest.ops, scan, mark, scan_append, Option.bind_eq_some_iff] at hs
    obtain ⟨r1, hs1, hs2⟩ := hs
    obtain ⟨rfl, h2⟩ := ih1 h.2.1 hs1
    simp only [scan] at hs2
    split at hs2
    · cases hs2
    · rename_i hne
      obtain ⟨h3, h4⟩ := ih2 h.2.2 hs2
      refine ⟨by simp [h3, Forest.has, Bool.or_assoc], fun k d hk1 hk2 hd ht => ?_⟩
      simp only [Forest.size] at hk2
      by_cases hk : k = id
      · subst hk
        rw [h.1] at hd
        cases hd
        have : kids.has S = true := by
          by_cases hh : kids.has S = true
          · exact hh
          · exact absurd ⟨ht, by simpa using hh⟩ hne
        exact Forest.has_root h.2.1 this |>.imp fun _ ⟨e, h⟩ => ⟨e, h⟩
      · by_cases hk' : k < id + 1 + kids.size
        · exact h2 k d (by omega) hk' hd ht
        · exact h4 k d (by omega) (by omega) hd ht

end

/-! ## Ancestors -/

/-- Follows the calls with a stack of open nodes, each with whether it is inside of a node of type `A`. Stops at a
node of type `T` that is not. -/
def scanIn (T A : NodeType) : List Bool → List BuilderOp → Option (List Bool)
  | stack, [] => some stack
  | stack, .start ty :: ops =>
    let b := stack.headD false || ty == A
    if ty = T ∧ b = false then none else scanIn T A (b :: stack) ops
  | stack, .leaf ty _ :: ops => if ty = T ∧ stack.headD false = false then none else scanIn T A stack ops
  | [], .finish :: _ => none
  | _ :: stack, .finish :: ops => scanIn T A stack ops

theorem scanIn_append (T A : NodeType) (stack : List Bool) (xs ys : List BuilderOp) :
    scanIn T A stack (xs ++ ys) = (scanIn T A stack xs).bind fun s => scanIn T A s ys := by
  induction xs generalizing stack with
  | nil => rfl
  | cons o xs ih =>
    cases o with
    | start =>
      simp only [List.cons_append, scanIn]
      split
      · rfl
      · exact ih _
    | leaf =>
      simp only [List.cons_append, scanIn]
      split
      · rfl
      · exact ih _
    | finish =>
      cases stack with
      | nil => rfl
      | cons x stack => exact ih _

section
variable {T A : NodeType}

/-- The events are fine inside of any node that is, if `b`, inside of one of type `A`. -/
def GoodIn (T A : NodeType) (b : Bool) (es : List Event) : Prop :=
  ∀ stack, scanIn T A (b :: stack) (evOps es) = some (b :: stack)

theorem GoodIn.nil {b : Bool} : GoodIn T A b [] := fun _ => rfl

theorem GoodIn.append {b : Bool} {xs ys : List Event} (h1 : GoodIn T A b xs) (h2 : GoodIn T A b ys) :
    GoodIn T A b (xs ++ ys) := by
  intro s
  rw [evOps_append, scanIn_append, h1 s]
  exact h2 s

theorem GoodIn.token {b : Bool} {ty : NodeType} {n : Nat} {es : List Event} (h : GoodIn T A b es)
    (ht : b = true ∨ ty ≠ T) : GoodIn T A b (.token ty n :: es) := by
  intro s
  have := h s
  rcases ht with rfl | ht <;> simp_all [evOps, scanIn]

theorem GoodIn.node {b : Bool} {ty : NodeType} {fp : Option Nat} {es rest : List Event}
    (h : GoodIn T A (b || ty == A) es) (ht : b = true ∨ ty ≠ T) (hr : GoodIn T A b rest) :
    GoodIn T A b (.start ty fp :: (es ++ .fin :: rest)) := by
  intro s
  have h1 := h (b :: s)
  have h2 := hr s
  rcases ht with rfl | ht <;> simp_all [evOps, scanIn, evOps_append, scanIn_append]

theorem items_inner {b : Bool} {ty : NodeType} {body : Items} (h : b = true ∨ (ty != A && body.out T A) = false) :
    (b || ty == A) = true ∨ body.out T A = false := by
  rcases h with h | h
  · simp [h]
  · by_cases hty : ty = A
    · simp [hty]
    · right
      simpa [hty] using h

theorem items_goodIn {I : Items} {b : Bool} {fe : List Event} (h : b = true ∨ I.out T A = false)
    (hf : ∀ b', (b = true → b' = true) → GoodIn T A b' fe) : GoodIn T A b (I.resolveWith fe) := by
  induction I generalizing b fe with
  | nil => exact hf b id
  | tok ty n rest ih =>
    simp only [Items.out, Bool.or_eq_false_iff, beq_eq_false_iff_ne] at h
    simp only [Items.resolveWith]
    exact (hf b id).append ((ih (h.imp_right (·.2)) (fun _ _ => .nil)).token (h.imp_right (·.1)))
  | cached key body rest ih1 ih2 =>
    simp only [Items.out, Bool.or_eq_false_iff] at h
    simp only [Items.resolveWith]
    have := (ih1 (h.imp_right (·.1)) (fun _ _ => .nil)).append (ih2 (h.imp_right (·.2)) (fun _ _ => .nil))
    exact (hf b id).append this
  | node ty body rest ih1 ih2 | loop ty body rest ih1 ih2 =>
    simp only [Items.out, Bool.or_eq_false_iff, beq_eq_false_iff_ne] at h
    simp only [Items.resolveWith]
    exact ((hf _ (by simp +contextual)).append (ih1 (items_inner (h.imp_right (·.1.2))) (fun _ _ => .nil))).node
      (h.imp_right (·.1.1)) (ih2 (h.imp_right (·.2)) (fun _ _ => .nil))
  | link ty body mids rest ih1 ih2 ih3 =>
    simp only [Items.out, Bool.or_eq_false_iff, beq_eq_false_iff_ne] at h
    simp only [Items.resolveWith]
    refine ih3 (h.imp_right (·.2)) fun b' hb => ?_
    have h' := h.imp_left hb
    exact ((hf _ (fun h => by simp [hb h])).append (ih1 (items_inner (h'.imp_right (·.1.1.2))) (fun _ _ => .nil))).node
      (h'.imp_right (·.1.1.1)) (ih2 (h'.imp_right (·.1.2)) (fun _ _ => .nil))

theorem places_scanIn {isWs : NodeType → Bool} {es : List Event} {ts : List Token} {ops : List BuilderOp}
    (h : Places isWs es ts ops) (ht : ∀ t, t ∈ ts → t.ty ≠ T) {s r : List Bool}
    (hs : scanIn T A s (evOps es) = some r) : scanIn T A s ops = some r := by
  induction h generalizing s with
  | nil => exact hs
  | @space t es ts ops _ _ ih =>
    simp only [scanIn]
    rw [if_neg (fun h => ht _ (by simp) h.1)]
    exact ih (fun t h => ht t (by simp [h])) hs
  | start _ ih =>
    simp only [evOps, scanIn] at hs ⊢
    split at hs
    · cases hs
    · rename_i hn
      rw [if_neg hn]
      exact ih ht hs
  | fin _ ih =>
    cases s with
    | nil => cases hs
    | cons x s => exact ih ht hs
  | token _ _ _ ih =>
    simp only [evOps, scanIn] at hs ⊢
    split at hs
    · cases hs
    · rename_i hn
      rw [if_neg hn]
      exact ih (fun t h => ht t (by simp [h])) hs
  | cached _ ih => exact ih ht hs

theorem forest_desc {f : File α} {p : Option Nat} {id pos : Nat} {F : Forest} (h : Repr f.nodes p id pos F) {k : Nat}
    (h1 : id ≤ k) (h2 : k < id + F.size) : ∃ c, c ∈ F.rootIds id ∧ Desc f c k := by
  induction F generalizing p id pos with
  | nil => simp [Forest.size] at h2; omega
  | leaf ty len rest ih =>
    simp only [Forest.size] at h2
    by_cases hk : k = id
    · exact ⟨id, by simp [Forest.rootIds], hk ▸ .refl _⟩
    · obtain ⟨c, h3, h4⟩ := ih h.2 (by omega) (by omega)
      exact ⟨c, by simp [Forest.rootIds, h3], h4⟩
  | node ty kids rest ih1 ih2 =>
    simp only [Forest.size] at h2
    by_cases hk : k = id
    · exact ⟨id, by simp [Forest.rootIds], hk ▸ .refl _⟩
    · by_cases hk' : k < id + 1 + kids.size
      · obtain ⟨c, h3, h4⟩ := ih1 h.2.1 (by omega) (by omega)
        refine ⟨id, by simp [Forest.rootIds], .step ⟨_, ?_, h3⟩ h4⟩
        simp [File.children, File.data, h.1]
      · obtain ⟨c, h3, h4⟩ := ih2 h.2.2 (by omega) (by omega)
        exact ⟨c, by simp [Forest.rootIds, h3], h4⟩

theorem forest_scanIn {f : File α} {p : Option Nat} {id pos : Nat} {F : Forest} (h : Repr f.nodes p id pos F)
    {b : Bool} {s r : List Bool} (hs : scanIn T A (b :: s) F.ops = some r) :
    r = b :: s ∧ ∀ k d, id ≤ k → k < id + F.size → f.nodes[k]? = some d → d.ty = T →
      b = true ∨ ∃ a, Desc f a k ∧ f.ty a = some A := by
  induction F generalizing p id pos b s r with
  | nil =>
    simp only [Forest.ops, scanIn, Option.some.injEq] at hs
    exact ⟨hs.symm, fun k _ h1 h2 => by simp [Forest.size] at h2; omega⟩
  | leaf ty len rest ih =>
    simp only [Forest.ops, scanIn] at hs
    split at hs
    · cases hs
    · rename_i hne
      obtain ⟨h1, h2⟩ := ih h.2 hs
      refine ⟨h1, fun k d hk1 hk2 hd ht => ?_⟩
      by_cases hk : k = id
      · subst hk
        rw [h.1] at hd
        cases hd
        left
        cases b
        · exact absurd ⟨ht, rfl⟩ hne
        · rfl
      · simp only [Forest.size] at hk2
        exact h2 k d (by omega) (by omega) hd ht
  | node ty kids rest ih1 ih2 =>
    simp only [Forest.ops, scanIn] at hs
    split at hs
    · cases hs
    · rename_i hne
      simp only [scanIn_append, Option.bind_eq_some_iff] at hs
      obtain ⟨r1, hs1, hs2⟩ := hs
      obtain ⟨rfl, h2⟩ := ih1 h.2.1 hs1
      obtain ⟨h3, h4⟩ := ih2 h.2.2 hs2
      have self : ty = A → f.ty id = some A := by
        rintro rfl
        simp [File.ty, File.data, h.1]
      refine ⟨h3, fun k d hk1 hk2 hd ht => ?_⟩
      simp only [Forest.size] at hk2
      by_cases hk : k = id
      · subst hk
        rw [h.1] at hd
        cases hd
        by_cases hb : b = true
        · exact Or.inl hb
        · by_cases hty : ty = A
          · exact Or.inr ⟨k, .refl _, self hty⟩
          · exact absurd ⟨ht, by simp [hb, hty]⟩ hne
      · by_cases hk' : k < id + 1 + kids.size
        · rcases h2 k d (by omega) hk' hd ht with hb | hb
          · simp only [List.headD_cons, Bool.or_eq_true, beq_iff_eq] at hb
            rcases hb with hb | hb
            · exact Or.inl hb
            · refine Or.inr ⟨id, ?_, self hb⟩
              obtain ⟨c, hc, hd⟩ := forest_desc h.2.1 (k := k) (by omega) hk'
              exact .step ⟨_, by simp [File.children, File.data, h.1], hc⟩ hd
          · exact Or.inr hb
        · exact h4 k d (by omega) (by omega) hd ht

end

/-! ## Leaves -/

/-- `P` holds for type, offset and length of the leaves. -/
def LeavesAt (P : NodeType → Nat → Nat → Prop) : Nat → List BuilderOp → Prop
  | _, [] => True
  | pos, .leaf ty len :: ops => P ty pos len ∧ LeavesAt P (pos + len) ops
  | pos, .start _ :: ops => LeavesAt P pos ops
  | pos, .finish :: ops => LeavesAt P pos ops

theorem leavesAt_append {P : NodeType → Nat → Nat → Prop} {pos : Nat} {xs ys : List BuilderOp} :
    LeavesAt P pos (xs ++ ys) ↔ LeavesAt P pos xs ∧ LeavesAt P (pos + leafLen xs) ys := by
  induction xs generalizing pos with
  | nil => simp [LeavesAt, leafLen]
  | cons o xs ih => cases o <;> simp [LeavesAt, leafLen, ih, Nat.add_assoc, and_assoc]

theorem Left.space {env : Env} {isWs : NodeType → Bool} {c : Nat} {pre suf : List Token} {t : Token}
    (h : Left env isWs c pre (t :: suf)) (ht : isWs t.ty = true) : Left env isWs c (pre ++ [t]) suf := by
  refine ⟨by simp [h.tokens], ?_⟩
  rw [h.nonWs, nonWsIndexes, if_pos ht]
  simp

theorem Left.token {env : Env} {isWs : NodeType → Bool} {c : Nat} {pre suf : List Token} {t : Token}
    (h : Left env isWs c pre (t :: suf)) (ht : isWs t.ty = false) :
    Left env isWs (c + 1) (pre ++ [t]) suf ∧ sigToken env c = some t := by
  have hd := h.nonWs
  rw [nonWsIndexes, if_neg (by simp [ht])] at hd
  have h0 : env.nonWs[c]? = some ((pre.map (·.len)).sum, pre.length) := by
    have := congrArg (·[0]?) hd
    simpa using this
  refine ⟨⟨by simp [h.tokens], ?_⟩, ?_⟩
  · have := congrArg (List.drop 1) hd
    rw [List.drop_drop] at this
    simpa using this
  · simp [sigToken, h0, h.tokens]

theorem Left.tokensAll {env : Env} {isWs : NodeType → Bool} {c : Nat} {pre raw suf : List Token}
    (h : Left env isWs c pre (raw ++ suf)) (ht : ∀ t, t ∈ raw → isWs t.ty = false) :
    Left env isWs (c + raw.length) (pre ++ raw) suf := by
  induction raw generalizing c pre with
  | nil => simpa using h
  | cons t raw ih =>
    have := ih (h.token (ht t (by simp))).1 (fun t h => ht t (by simp [h]))
    simpa [Nat.add_assoc, Nat.add_comm 1] using this

/-- The leaf is a token of the text or a string of the grammar. -/
def LeafOk (env : Env) (ty : NodeType) (pos len : Nat) : Prop :=
  (∃ pre t suf, env.tokens = pre ++ t :: suf ∧ pos = (pre.map (·.len)).sum ∧ t.ty = ty ∧ t.len = len) ∨
    ∃ i w, .contextualToken i w ∈ env.grammar.rules ∧ env.grammar.nodeTypes[i]? = some ty ∧ len = w.length ∧
      w <+: env.text.drop pos

theorem sum_raw {env : Env} {isWs : NodeType → Bool} {c len : Nat} {pre raw suf : List Token}
    (h : Left env isWs c pre (raw ++ suf)) (ht : ∀ t, t ∈ raw → isWs t.ty = false)
    (hs : sigLen env c raw.length = some len) : (raw.map (·.len)).sum = len := by
  induction raw generalizing c pre len with
  | nil => simpa [sigLen] using hs
  | cons t raw ih =>
    obtain ⟨h1, h2⟩ := h.token (ht t (by simp))
    simp only [List.length_cons, sigLen, h2, Option.bind_eq_bind, Option.bind_some, Option.bind_eq_some_iff,
      Option.some.injEq] at hs
    obtain ⟨r, hr, rfl⟩ := hs
    simp [ih h1 (fun t h => ht t (by simp [h])) hr]

theorem places_leaves {env : Env} {isWs : NodeType → Bool} {es : List Event} {suf : List Token} {ops : List BuilderOp}
    (h : Places isWs es suf ops) {c j : Nat} (hc : CoversTokens env c j (tokenEvents es)) {pre : List Token}
    (hl : Left env isWs c pre suf) :
    LeavesAt (LeafOk env) (pre.map (·.len)).sum ops := by
  induction h generalizing c pre with
  | nil => trivial
  | @space es ts ops t hw _ ih =>
    refine ⟨Or.inl ⟨pre, t, ts, hl.tokens, rfl, rfl, rfl⟩, ?_⟩
    have := ih hc (hl.space hw)
    simpa using this
  | start _ ih => exact ih (by simpa [tokenEvents] using hc) hl
  | fin _ ih => exact ih (by simpa [tokenEvents] using hc) hl
  | @token n raw es ts ops ty hn hr _ ih =>
    simp only [tokenEvents, List.filter_cons, if_true] at hc
    subst hn
    have next := hl.tokensAll hr
    generalize hrl : raw.length = n at hc
    cases hc with
    | one hs hc =>
      rw [hrl] at next
      match raw, hrl with
      | [t], _ =>
        have hs' : t.ty = ty := by
          have := (hl.token (hr t (by simp))).2
          simpa [sigTy, this] using hs
        refine ⟨Or.inl ⟨pre, t, ts, hl.tokens, rfl, hs', by simp⟩, ?_⟩
        have := ih hc next
        simpa using this
    | @text i t' c n w j es' hm hty hs hc =>
      rw [hrl] at next
      have hlen := sum_raw hl hr (by rw [hrl]; exact hs.2)
      refine ⟨Or.inr ⟨i, w, hm, hty, hlen, ?_⟩, ?_⟩
      · obtain ⟨⟨st, k, h1, h2⟩, _⟩ := hs
        match raw, hrl with
        | [], _ =>
          have : w = [] := by simpa using hlen.symm
          rw [this]
          exact List.nil_prefix
        | t :: raw, _ =>
          obtain ⟨ws, x, rest, h3, h4, h5, h6, _⟩ := hl.next h1
          cases ws with
          | nil =>
            simp at h6
            rwa [h6] at h2
          | cons a ws =>
            simp only [List.cons_append, List.cons.injEq] at h3
            have := hr t (by simp)
            rw [h3.1, h4 a (by simp)] at this
            cases this
      · have := ih hc next
        simpa using this
  | cached _ ih => exact ih (by simpa [tokenEvents] using hc) hl

theorem forest_leaves {N : List NodeData} {P : NodeType → Nat → Nat → Prop} {p : Option Nat} {id pos : Nat} {F : Forest}
    (h : Repr N p id pos F) (hl : LeavesAt P pos F.ops) : ∀ k d, id ≤ k → k < id + F.size → N[k]? = some d →
      d.children = [] →
      (d.range.start = d.range.stop ∧ .start d.ty ∈ F.ops) ∨ P d.ty d.range.start (d.range.stop - d.range.start) := by
  induction F generalizing p id pos with
  | nil => exact fun k d h1 h2 => by simp [Forest.size] at h2; omega
  | leaf ty len rest ih =>
    intro k d h1 h2 hd hc
    simp only [Forest.size] at h2
    by_cases hk : k = id
    · subst hk
      rw [h.1] at hd
      cases hd
      exact Or.inr (by simpa using hl.1)
    · exact (ih h.2 hl.2 k d (by omega) (by omega) hd hc).imp_left fun h => ⟨h.1, by simp [Forest.ops, h.2]⟩
  | node ty kids rest ih1 ih2 =>
    intro k d h1 h2 hd hc
    simp only [Forest.size] at h2
    simp only [Forest.ops, LeavesAt, leavesAt_append, Forest.leafLen_ops] at hl
    by_cases hk : k = id
    · subst hk
      rw [h.1] at hd
      cases hd
      left
      cases kids <;> simp_all [Forest.rootIds, Forest.len, Forest.ops]
    · by_cases hk' : k < id + 1 + kids.size
      · exact (ih1 h.2.1 hl.1 k d (by omega) hk' hd hc).imp_left fun h => ⟨h.1, by simp [Forest.ops, h.2]⟩
      · exact (ih2 h.2.2 hl.2 k d (by omega) (by omega) hd hc).imp_left fun h => ⟨h.1, by simp [Forest.ops, h.2]⟩

theorem forest_starts {N : List NodeData} {p : Option Nat} {id pos : Nat} {F : Forest} (h : Repr N p id pos F) :
    ∀ k d, id ≤ k → k < id + F.size → N[k]? = some d → d.children ≠ [] → .start d.ty ∈ F.ops := by
  induction F generalizing p id pos with
  | nil => exact fun k d h1 h2 => by simp [Forest.size] at h2; omega
  | leaf ty len rest ih =>
    intro k d h1 h2 hd hc
    simp only [Forest.size] at h2
    by_cases hk : k = id
    · subst hk
      rw [h.1] at hd
      cases hd
      exact absurd rfl hc
    · simp [Forest.ops, ih h.2 k d (by omega) (by omega) hd hc]
  | node ty kids rest ih1 ih2 =>
    intro k d h1 h2 hd hc
    simp only [Forest.size] at h2
    by_cases hk : k = id
    · subst hk
      rw [h.1] at hd
      cases hd
      simp [Forest.ops]
    · by_cases hk' : k < id + 1 + kids.size
      · simp [Forest.ops, ih1 h.2.1 k d (by omega) hk' hd hc]
      · simp [Forest.ops, ih2 h.2.2 k d (by omega) (by omega) hd hc]

/-! ## Types of nodes -/

namespace Spec.Items

/-- `P` holds for the types of all nodes. -/
def Types (P : NodeType → Prop) : Items → Prop
  | nil => True
  | tok _ _ rest => rest.Types P
  | cached _ body rest => body.Types P ∧ rest.Types P
  | node ty body rest => P ty ∧ body.Types P ∧ rest.Types P
  | link ty body mids rest => P ty ∧ body.Types P ∧ mids.Types P ∧ rest.Types P
  | loop ty body rest => P ty ∧ body.Types P ∧ rest.Types P

variable {P : NodeType → Prop}

theorem Types.append {I J : Items} (hI : I.Types P) (hJ : J.Types P) : (I.append J).Types P := by
  induction I <;> simp_all [Items.append, Types]

theorem Types.under {I J : Items} (hI : I.Types P) (hJ : J.Types P) : (I.under J).Types P := by
  cases I with
  | link => exact ⟨hI.1, hI.2.1, hI.2.2.1.append hI.2.2.2, hJ⟩
  | _ => simp_all [Items.under, Types, Items.append, Types.append]

theorem Types.resolve {I : Items} {fe : List Event} (hI : I.Types P) (hf : ∀ ty fp, .start ty fp ∈ fe → P ty) :
    ∀ ty fp, .start ty fp ∈ I.resolveWith fe → P ty := by
  induction I generalizing fe with
  | nil => exact hf
  | tok _ _ _ ih =>
    intro ty fp h
    simp only [resolveWith, List.mem_append, List.mem_cons, reduceCtorEq, false_or] at h
    exact h.elim (hf ty fp) (ih hI (by simp) ty fp)
  | cached _ _ _ ih1 ih2 =>
    intro ty fp h
    simp only [resolveWith, List.mem_append, List.mem_cons, reduceCtorEq, false_or] at h
    exact h.elim (hf ty fp) fun h => h.elim (ih1 hI.1 (by simp) ty fp) (ih2 hI.2 (by simp) ty fp)
  | node _ _ _ ih1 ih2 | loop _ _ _ ih1 ih2 =>
    intro ty fp h
    simp only [resolveWith, List.mem_append, List.mem_cons, reduceCtorEq, false_or, Event.start.injEq] at h
    rcases h with ⟨rfl, _⟩ | (h | h) | h
    · exact hI.1
    · exact hf ty fp h
    · exact ih1 hI.2.1 (by simp) ty fp h
    · exact ih2 hI.2.2 (by simp) ty fp h
  | link _ _ _ _ ih1 ih2 ih3 =>
    refine ih3 hI.2.2.2 fun ty fp h => ?_
    simp only [List.mem_append, List.mem_cons, reduceCtorEq, false_or, Event.start.injEq] at h
    rcases h with ⟨rfl, _⟩ | (h | h) | h
    · exact hI.1
    · exact hf ty fp h
    · exact ih1 hI.2.1 (by simp) ty fp h
    · exact ih2 hI.2.2.1 (by simp) ty fp h

end Spec.Items

theorem Spec.Derives.builds {env : Env} {args : Args} {goal : Goal} {i j : Nat} {I : Items}
    (h : Derives env args goal i j I) :
    match goal with
    | .pratt t _ => (∃ e : Nat, env.grammar.rules[e]? = some (.pratt t)) → I.Types (Builds env.grammar)
    | .operand t => (∃ e : Nat, env.grammar.rules[e]? = some (.pratt t)) → I.Types (Builds env.grammar)
    | .chain t _ lhs => (∃ e : Nat, env.grammar.rules[e]? = some (.pratt t)) → lhs.Types (Builds env.grammar) →
        I.Types (Builds env.grammar)
    | .rhs t _ => (∃ e : Nat, env.grammar.rules[e]? = some (.pratt t)) → I.Types (Builds env.grammar)
    | _ => I.Types (Builds env.grammar) := by
  have err : ∀ {x : Items}, x.Types (Builds env.grammar) → (Items.node ERROR x .nil).Types (Builds env.grammar) :=
    fun h => ⟨.error, h, trivial⟩
  induction h with
  | pub he hty _ ih => exact ⟨.pub he hty, ih, trivial⟩
  | pubReplaced he hrep hty _ ih => exact ⟨.pubReplaced he hrep hty, ih, trivial⟩
  | andCommit _ _ _ _ ih => exact ih.append (err trivial)
  | withSkipSkipped _ _ _ _ ih1 ih2 => exact ⟨.error, ih1, ih2⟩
  | layer _ _ _ _ ih => exact ih
  | layerLeftover _ _ _ _ _ _ ih1 ih2 => exact ih1.append (err ih2)
  | layerSkipped _ _ _ _ _ ih => exact err ih
  | pratt he _ ih => exact ih ⟨_, he⟩
  | inject _ _ _ ih1 ih2 => exact ih1.append ih2
  | injectLinked _ _ _ _ _ ih1 ih2 => exact ih1.under ih2
  | cached _ _ ih => exact ⟨ih, trivial⟩
  | allCons _ _ ih1 ih2 => exact ih1.append ih2
  | manyCons _ _ ih1 ih2 => exact ih1.append ih2
  | skippedCons _ _ ih => exact ih
  | prattChain _ _ ih1 ih2 => exact fun he => ih2 he (ih1 he)
  | atom _ _ ih => exact fun _ => ih
  | prefixOp hm hty _ _ ih1 ih2 => exact fun ⟨e, he⟩ => ⟨.pre he hm hty, ih1.append (ih2 ⟨e, he⟩), trivial⟩
  | chainEnd => exact fun _ h => h
  | chainOp hm _ hty _ _ _ _ ih1 ih2 ih3 =>
    exact fun ⟨e, he⟩ hl => hl.under (ih3 ⟨e, he⟩ ⟨.op he hm hty, ih1.append (ih2 ⟨e, he⟩), trivial⟩)
  | chainLoop hm _ hty _ _ _ ih1 ih2 ih3 =>
    exact fun ⟨e, he⟩ _ => ih3 ⟨e, he⟩ ⟨.op he hm hty, ih1.append (ih2 ⟨e, he⟩), trivial⟩
  | rhsNone => exact fun _ => trivial
  | rhsSome _ _ ih => exact ih
  | rhsMissing => exact fun _ => err trivial
  | _ => first | trivial | assumption

theorem places_starts {isWs : NodeType → Bool} {es : List Event} {ts : List Token} {ops : List BuilderOp}
    (h : Places isWs es ts ops) {ty : NodeType} (hs : .start ty ∈ ops) : ∃ fp, .start ty fp ∈ es := by
  induction h with
  | nil => cases hs
  | start _ ih =>
    rcases List.mem_cons.1 hs with h | h
    · cases h
      exact ⟨_, List.mem_cons_self⟩
    · obtain ⟨fp, h⟩ := ih h
      exact ⟨fp, by simp [h]⟩
  | _ =>
    rename_i ih
    obtain ⟨fp, h⟩ := ih (by simpa using hs)
    exact ⟨fp, by simp [h]⟩

/-! ## Files -/

/-- A parsed file: its nodes are those of a forest built by calls that come from a reading of the text. -/
theorem parse_reading_all {d : Definition} {ty body : Nat} (hp : Progress d.lexer)
    (hstart : d.rules[0]? = some (.pub ty body false)) (hb : BoundedBinder d.binder) (hs : SpacelessStrings d)
    (hl : Linked d.grammar) {n : Nat} {text : List Nat} {file : File Nat} {data : Definition.IncrementalData}
    (h : d.parse n text = .ok (file, data)) :
    ∃ (t : NodeType) (kids : Forest) (I : Items) (tokens : List Token), IsLexing d.lexer text tokens ∧
      Repr file.nodes none 0 0 (.node t kids .nil) ∧ file.nodes.length = (Forest.node t kids .nil).size ∧
      file.text = text ∧
      Places d.isWs (Items.node t I .nil).resolve tokens (Forest.node t kids .nil).ops ∧
      (∃ j, CoversTokens (Env.new none d.grammar d.isWs text tokens) 0 j (tokenEvents (Items.node t I .nil).resolve)) ∧
      d.nodeTypes[ty]? = some t ∧
      ∃ J k, Derives (Env.new none d.grammar d.isWs text tokens) PState.new.args (.expr body) 0 k J ∧
        (k = (Env.new none d.grammar d.isWs text tokens).nonWs.length ∧ I = J ∨ ∃ S j, Derives (Env.new none d.grammar d.isWs text tokens) PState.new.args .skipped k j S ∧
          I = J.append (.node ERROR S .nil)) := by
  obtain ⟨ts, h1, h2, h3, h4⟩ := C10_lex_tiles d.lexer hp text
  simp only [Definition.parse, h1, Result.ofOption, bind, Result.bind] at h
  cases h5 : d.parseTokens n none text ts with
  | panic => rw [h5] at h; cases h
  | timeout => rw [h5] at h; cases h
  | ok r =>
    rw [h5] at h
    obtain ⟨ops, events⟩ := r
    obtain ⟨t, kids, plain, h6, rfl, h7, h8, _, h9⟩ :=
      parseTokens_ok hstart hb h4 h3 (plainStrings_of_lexer hs h2 none) h5
    have hnodes : newFile text (Forest.node t kids .nil).ops = some ⟨text, (Forest.node t kids .nil).flatten none 0 0⟩ := by
      rw [newFile, buildNodes_roots _ rfl]
      rfl
    simp only [hnodes, pure, Result.ok.injEq, Prod.mk.injEq] at h
    obtain ⟨rfl, rfl⟩ := h
    simp only [Definition.parseTokens, bind, Result.bind] at h5
    cases hft : d.fileTy with
    | none => simp [hft, Result.ofOption] at h5
    | some fty =>
      simp only [hft, Result.ofOption] at h5
      split at h5
      · rename_i r hsyn
        obtain ⟨es, ticks⟩ := r
        simp only at h5
        split at h5
        · simp only [pure, Result.ok.injEq, Prod.mk.injEq] at h5
          obtain ⟨_, rfl⟩ := h5
          obtain ⟨t', I, k, he, ht', J, hJ, hI⟩ := Parser.synParse_reads (b := false) rfl hstart hsyn
          have ht : t' = t := by
            simp only [Env.new, Definition.grammar, Bool.false_eq_true, false_and, or_false] at ht'
            rw [h6] at ht'
            exact (Option.some.inj ht').symm
          subst ht
          have hA := Parser.passed_new (Env.new none d.grammar d.isWs text ts).grammar
          have hok : LinksOk (Env.new none d.grammar d.isWs text ts) := Linked.linksOk hl
          have hJw := hJ.wf hok hA
          have hIw : (Items.node t' I .nil).WF := by
            refine ⟨?_, trivial⟩
            rcases hI with ⟨_, rfl⟩ | ⟨S, _, hS, rfl⟩
            · exact hJw
            · exact Items.WF.append hJw ⟨hS.wf hok hA, trivial⟩
          have hplain : plain = (Items.node t' I .nil).resolve := by
            rw [he, reshuffle_encode _ hIw, Result.ok.injEq] at h7
            exact h7.symm
          subst hplain
          have hrepr := repr_single t' kids
          refine ⟨t', kids, I, ts, h2, hrepr, Forest.flatten_length _ _ _ _, rfl, h9, ?_, h6, J, k, hJ, ?_⟩
          · rw [h8, he]
            rcases hI with ⟨_, rfl⟩ | ⟨S, _, hS, rfl⟩
            · refine ⟨k, ?_⟩
              simpa [Items.encode, tokenEvents] using hJ.covers
            · have := hJ.covers.append hS.covers
              refine ⟨_, by simpa [Items.encode_append, Items.encode, tokenEvents] using this⟩
          · exact hI.imp id fun ⟨S, _, hS, e⟩ => ⟨S, _, hS, e⟩
        · cases h5
        · cases h5
      · cases h5
      · cases h5

/-- A parsed file: its nodes are those of a forest built by calls that come from a reading of the text. -/
theorem parse_reading {d : Definition} {ty body : Nat} (hp : Progress d.lexer)
    (hstart : d.rules[0]? = some (.pub ty body false)) (hb : BoundedBinder d.binder) (hs : SpacelessStrings d)
    (hl : Linked d.grammar) {n : Nat} {text : List Nat} {file : File Nat} {data : Definition.IncrementalData}
    (h : d.parse n text = .ok (file, data)) :
    ∃ (t : NodeType) (kids : Forest) (I : Items) (tokens : List Token), IsLexing d.lexer text tokens ∧
      Repr file.nodes none 0 0 (.node t kids .nil) ∧ file.nodes.length = (Forest.node t kids .nil).size ∧
      file.text = text ∧
      Places d.isWs (Items.node t I .nil).resolve tokens (Forest.node t kids .nil).ops ∧
      (∃ j, CoversTokens (Env.new none d.grammar d.isWs text tokens) 0 j (tokenEvents (Items.node t I .nil).resolve)) ∧
      d.nodeTypes[ty]? = some t ∧
      ∃ J k, Derives (Env.new none d.grammar d.isWs text tokens) PState.new.args (.expr body) 0 k J ∧
        (I = J ∨ ∃ S j, Derives (Env.new none d.grammar d.isWs text tokens) PState.new.args .skipped k j S ∧
          I = J.append (.node ERROR S .nil)) := by
  obtain ⟨t, kids, I, tokens, h1, h2, h3, h4, h5, h5', h6, J, k, h7, h8⟩ := parse_reading_all hp hstart hb hs hl h
  exact ⟨t, kids, I, tokens, h1, h2, h3, h4, h5, h5', h6, J, k, h7, h8.imp (·.2) id⟩

end Fall
