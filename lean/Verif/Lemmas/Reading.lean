import Verif.Lemmas.SynItems
import Verif.Lemmas.Reshuffle

/-!
What the static analyses of a grammar say about all readings of a text.
-/

namespace Fall

open Spec

/-- A reading without tokens is of something that can match nothing. -/
theorem Spec.Derives.nullable {env : Env} {args : Args} {goal : Goal} {i j : Nat} {I : Items}
    (h : Derives env args goal i j I) (hA : Args.Passed env.grammar args) (hij : i = j) :
    match goal with
    | .expr e => Nullable env.grammar e
    | .all ps => ∀ p, p ∈ ps → Nullable env.grammar p
    | .pratt t _ => ∃ a, a ∈ t.atoms ∧ Nullable env.grammar a
    | .operand t => ∃ a, a ∈ t.atoms ∧ Nullable env.grammar a
    | _ => True := by
  have le : ∀ {args g i j I}, Derives env args g i j I → i ≤ j := by
    intro args g i j I h
    have := h.toks
    split at this <;> exact this.1
  induction h with
  | pub he _ _ ih => exact .pub he (ih hA hij)
  | pubReplaced he _ _ _ ih => exact .pub he (ih hA hij)
  | pubReplace he _ ih => exact .pubReplace he (ih hA hij)
  | or he hp _ ih => exact .or he hp (ih hA hij)
  | and he _ ih => exact .and he fun p hp => ih hA hij p (List.mem_of_mem_take hp)
  | andCommit he hc _ _ ih =>
    refine .and he fun p hp => ih hA hij p ?_
    simp only [Option.getD_some] at hp
    rw [List.take_append_of_le_length hc] at hp
    exact List.mem_of_mem_take hp
  | token => omega
  | @contextual e ty t i n w args he _ hs =>
    obtain rfl : n = 0 := by omega
    have := hs.2
    simp only [sigLen, Option.some.injEq] at this
    obtain rfl := List.length_eq_zero_iff.1 this.symm
    exact .contextual he
  | rep he => exact .rep he
  | withSkip he _ ih => exact .withSkip he (ih hA hij)
  | withSkipSkipped _ _ _ h2 => have := le h2; omega
  | opt he => exact .opt he
  | optNone he => exact .opt he
  | not he => exact .not he
  | eof he => exact .eof he
  | any => omega
  | layer he _ _ ih => exact .layer he (ih hA hij)
  | layerLeftover he _ _ _ _ ih => exact .layer he (ih hA hij)
  | layerNone he _ ih => exact .layer he (ih hA hij)
  | layerSkipped he _ _ _ ih => exact .layer he (ih hA hij)
  | pratt he _ ih =>
    obtain ⟨a, ha, hn⟩ := ih hA hij
    exact .atom he ha hn
  | enter he _ ih => exact .enter he (ih hA hij)
  | exit he _ ih => exact .exit he (ih hA hij)
  | isIn he => exact .isIn he
  | call he hb _ ih => exact .call he (ih (bindArgs_passed he hb hA) hij)
  | var he ha _ ih => exact .var he (hA _ _ ha) (ih hA hij)
  | prevIs he => exact .prevIs he
  | inject he _ _ ih1 ih2 => exact .inject he (ih1 hA rfl) (ih2 hA hij)
  | injectLinked _ _ _ _ h2 => have := le h2; omega
  | cached he _ ih => exact .cached he (ih hA hij)
  | allNil => simp
  | allCons h1 h2 ih1 ih2 =>
    have := le h1
    have := le h2
    intro p hp
    rcases List.mem_cons.1 hp with rfl | hp
    · exact ih1 hA (by omega)
    · exact ih2 hA (by omega) p hp
  | prattChain h1 h2 ih1 _ =>
    have := le h1
    have := le h2
    exact ih1 hA (by omega)
  | atom ha _ ih => exact ⟨_, ha, ih hA hij⟩
  | prefixOp _ _ h1 h2 _ ih2 =>
    have := le h1
    have := le h2
    exact ih2 hA (by omega)
  | _ => trivial

namespace Spec.Items

/-- Nothing, or a node first. -/
def NilOrOpens (I : Items) : Prop := I = nil ∨ I.Opens

/-- Nothing, or a node first that is not linked to itself. -/
def NilOrHead (I : Items) : Prop := I = nil ∨ I.HeadNode

theorem Opens.append {I J : Items} (h : I.Opens) : (I.append J).Opens := by
  cases I <;> simp_all [Opens, Items.append]

theorem Opens.under {I J : Items} (h : I.Opens) : (I.under J).Opens := by
  cases I <;> simp_all [Opens, Items.under]

theorem HeadNode.of_opens_under {I J : Items} (h : I.Opens) : (I.under J).HeadNode := by
  cases I <;> simp_all [Opens, HeadNode, Items.under]

end Spec.Items

/-- The tokens are the only thing that is not a node. -/
theorem Spec.Derives.head_of_toks {env : Env} {args : Args} {e i j : Nat}
    (h : Derives env args (.expr e) i j .nil) : i = j := by
  have := h.expr_toks
  simp [Items.toks] at this
  exact this.symm

/-- If `e` is not loose, its readings are empty or begin with a node, which is not linked to itself if operands of
infix operators are not empty. -/
theorem Spec.Derives.opens {env : Env} {args : Args} {goal : Goal} {i j : Nat} {I : Items}
    {B : Items → Prop} (hn : B .nil) (hB : ∀ t J K, B (.node t J K)) (happ : ∀ J K : Items, J ≠ .nil → B J → B (J.append K))
    (hunder : ∀ J K : Items, J.Opens → B (J.under K))
    (hloop : ∀ (e : Nat) (t : PrattTable), env.grammar.rules[e]? = some (.pratt t) → t.infixes ≠ [] →
      (∃ a, a ∈ t.atoms ∧ Nullable env.grammar a) → ∀ ty J, B (.loop ty J .nil))
    (h : Derives env args goal i j I) (hA : Args.Passed env.grammar args) :
    match goal with
    | .expr e => ¬ Loose env.grammar e → B I
    | .all ps => (∀ before p after, ps = before ++ p :: after → (∀ q, q ∈ before → Nullable env.grammar q) →
        ¬ Loose env.grammar p) → B I
    | .many body => ¬ Loose env.grammar body → B I
    | .pratt t _ => (∃ e : Nat, env.grammar.rules[e]? = some (.pratt t)) → (∀ a, a ∈ t.atoms → ¬ Loose env.grammar a) → B I
    | .operand t => (∀ a, a ∈ t.atoms → ¬ Loose env.grammar a) → B I
    | .chain t _ lhs => (∃ e : Nat, env.grammar.rules[e]? = some (.pratt t)) →
        (lhs = .nil → ∃ a, a ∈ t.atoms ∧ Nullable env.grammar a) → B lhs → B I
    | _ => True := by
  induction h with
  | pub he _ _ ih => exact fun _ => hB _ _ _
  | pubReplaced he _ _ _ ih => exact fun _ => hB _ _ _
  | pubReplace he _ ih => exact fun hl => ih hA fun h => hl (.pubReplace he h)
  | or he hp _ ih => exact fun hl => ih hA fun h => hl (.or he hp h)
  | and he _ ih =>
    exact fun hl => ih hA fun before p after hps hb h => hl (.and (hps ▸ he) hb h)
  | @andCommit e ps qs commit args i j I he hc _ _ ih =>
    intro hl
    have hI := ih hA fun before p after hps hb h => hl (.and (after := after ++ qs) (by simpa [hps] using he) hb h)
    by_cases hnil : I = .nil
    · subst hnil
      exact hB _ _ _
    · exact happ _ _ hnil hI
  | token he => exact fun hl => absurd (.token he) hl
  | contextual he => exact fun hl => absurd (.contextual he) hl
  | rep he _ ih => exact fun hl => ih hA fun h => hl (.rep he h)
  | withSkip he _ ih => exact fun hl => ih hA fun h => hl (.withSkip he h)
  | withSkipSkipped => exact fun _ => hB _ _ _
  | opt he _ ih => exact fun hl => ih hA fun h => hl (.opt he h)
  | optNone => exact fun _ => hn
  | not => exact fun _ => hn
  | eof => exact fun _ => hn
  | any he => exact fun hl => absurd (.any he) hl
  | layer he _ _ _ ih => exact fun hl => ih hA fun h => hl (.layer he h)
  | @layerLeftover e l body args i j L k I S he _ _ _ _ _ ih =>
    intro hl
    have hI := ih hA fun h => hl (.layer he h)
    by_cases hnil : I = .nil
    · subst hnil
      exact hB _ _ _
    · exact happ _ _ hnil hI
  | layerNone => exact fun _ => hn
  | layerSkipped => exact fun _ => hB _ _ _
  | pratt he _ ih => exact fun hl => ih hA ⟨_, he⟩ fun a ha h => hl (.atom he ha h)
  | enter he _ ih => exact fun hl => ih hA fun h => hl (.enter he h)
  | exit he _ ih => exact fun hl => ih hA fun h => hl (.exit he h)
  | isIn => exact fun _ => hn
  | call he hb _ ih => exact fun hl => ih (bindArgs_passed he hb hA) fun h => hl (.call he h)
  | var he ha _ ih => exact fun hl => ih hA fun h => hl (.var he (hA _ _ ha) h)
  | prevIs => exact fun _ => hn
  | @inject e pre body args I i j J he h1 _ ih1 ih2 =>
    intro hl
    have hI := ih1 hA fun h => hl (.injected he h)
    by_cases hnil : I = .nil
    · subst hnil
      exact ih2 hA fun h => hl (.inject he (h1.nullable hA rfl) h)
    · exact happ _ _ hnil hI
  | injectLinked _ _ _ ho => exact fun _ => hunder _ _ ho
  | cached he => exact fun hl => absurd (.cached he) hl
  | allNil => exact fun _ => hn
  | @allCons args p i k I ps j J h1 _ ih1 ih2 =>
    intro hl
    have hI := ih1 hA (hl [] p ps rfl (by simp))
    by_cases hnil : I = .nil
    · subst hnil
      have hp := h1.nullable hA h1.head_of_toks
      refine ih2 hA fun before q after hps hb => hl (p :: before) q after (by simp [hps]) ?_
      intro x hx
      rcases List.mem_cons.1 hx with rfl | hx
      · exact hp
      · exact hb x hx
    · exact happ _ _ hnil hI
  | manyNil => exact fun _ => hn
  | @manyCons args body i k I j J _ _ ih1 ih2 =>
    intro hl
    by_cases hnil : I = .nil
    · subst hnil
      exact ih2 hA hl
    · exact happ _ _ hnil (ih1 hA hl)
  | @prattChain args t i k I p j J h1 _ ih1 ih2 =>
    intro he hl
    refine ih2 hA he (fun hnil => ?_) (ih1 hA hl)
    subst hnil
    have := h1.toks
    simp [Items.toks] at this
    exact h1.nullable hA (by omega)
  | atom ha _ ih => exact fun hl => ih hA (hl _ ha)
  | prefixOp => exact fun _ => hB _ _ _
  | chainEnd => exact fun _ _ h => h
  | chainOp _ _ _ _ _ ho => exact fun _ _ _ => hunder _ _ ho
  | chainLoop hix _ _ _ _ _ _ _ ih3 =>
    intro he hnil _
    refine ih3 hA he (by simp) ?_
    obtain ⟨e, he⟩ := he
    exact hloop e _ he (List.ne_nil_of_mem hix) (hnil rfl) _ _
  | _ => trivial

theorem Spec.Derives.nilOrOpens {env : Env} {args : Args} {e i j : Nat} {I : Items}
    (h : Derives env args (.expr e) i j I) (hA : Args.Passed env.grammar args) (hl : ¬ Loose env.grammar e) :
    I = .nil ∨ I.Opens :=
  h.opens (B := Items.NilOrOpens) (Or.inl rfl) (fun _ _ _ => Or.inr trivial)
    (fun _ _ hne h => Or.inr (h.resolve_left hne).append) (fun _ _ h => Or.inr h.under)
    (fun _ _ _ _ _ _ _ => Or.inr trivial) hA hl

/-- The static condition on links implies the condition on readings. -/
theorem Spec.Linked.linksOk {env : Env} (h : Linked env.grammar) : LinksOk env where
  inject pre body hm args i j I hA hd := by
    obtain ⟨e, he⟩ := List.getElem?_of_mem hm
    obtain ⟨h1, h2⟩ := h.inject e pre body he
    have := hd.opens (B := Items.NilOrHead) (Or.inl rfl) (fun _ _ _ => Or.inr trivial)
      (fun _ _ hne h => Or.inr (h.resolve_left hne).append) (fun _ _ h => Or.inr (.of_opens_under h))
      (fun e t he hi ⟨a, ha, hn⟩ => absurd hn (h.atom e a t he hi ha)) hA h1
    refine this.resolve_left ?_
    rintro rfl
    exact h2 (hd.nullable hA hd.head_of_toks)
  atom t a hm hi ha args i j I hA hd := by
    obtain ⟨e, he⟩ := List.getElem?_of_mem hm
    rintro rfl
    exact h.atom e a t he hi ha (hd.nullable hA hd.head_of_toks)

end Fall
