import Verif.Lemmas.Twin
import Verif.Lemmas.Salvage
import Verif.Lemmas.RunsCall
import Verif.Props.Runs

/-! The marks of reusable fragments among the events of a parse: each is followed by the events of a run
of the cached rule. -/

namespace Fall

open Spec

namespace Spec.Items

/-- The types of the nodes. -/
def tys : Items → List NodeType
  | nil => []
  | tok _ _ rest => rest.tys
  | cached _ body rest => body.tys ++ rest.tys
  | node ty body rest | loop ty body rest => ty :: (body.tys ++ rest.tys)
  | link ty body mids rest => ty :: (body.tys ++ (mids.tys ++ rest.tys))

/-- There are no marks. -/
def Unmarked : Items → Prop
  | nil => True
  | tok _ _ rest => rest.Unmarked
  | cached _ _ _ => False
  | node _ body rest | loop _ body rest => body.Unmarked ∧ rest.Unmarked
  | link _ body mids rest => body.Unmarked ∧ mids.Unmarked ∧ rest.Unmarked

theorem tys_append (I J : Items) : (I.append J).tys = I.tys ++ J.tys := by
  induction I <;> simp_all [append, tys]

theorem unmarked_append (I J : Items) : (I.append J).Unmarked ↔ I.Unmarked ∧ J.Unmarked := by
  induction I <;> simp_all [append, Unmarked, and_assoc]

theorem mem_tys_under {t : NodeType} (I J : Items) : t ∈ (I.under J).tys ↔ t ∈ I.tys ∨ t ∈ J.tys := by
  cases I <;> simp [under, tys, tys_append, or_assoc]

theorem unmarked_under (I J : Items) : (I.under J).Unmarked ↔ I.Unmarked ∧ J.Unmarked := by
  cases I <;> simp [under, Unmarked, unmarked_append, and_assoc]

theorem mem_tys {t : NodeType} {I : Items} (h : t ∈ I.tys) : ∃ fp, .start t fp ∈ I.encode := by
  induction I with
  | nil => cases h
  | tok ty n rest ih =>
    obtain ⟨fp, h⟩ := ih h
    exact ⟨fp, by simp [encode, h]⟩
  | cached key body rest ihb ih =>
    simp only [tys, List.mem_append] at h
    rcases h with h | h
    · obtain ⟨fp, h⟩ := ihb h
      exact ⟨fp, by simp [encode, h]⟩
    · obtain ⟨fp, h⟩ := ih h
      exact ⟨fp, by simp [encode, h]⟩
  | node ty body rest ihb ih | loop ty body rest ihb ih =>
    simp only [tys, List.mem_cons, List.mem_append] at h
    rcases h with rfl | h | h
    · exact ⟨_, by simp [encode]; exact Or.inl rfl⟩
    · obtain ⟨fp, h⟩ := ihb h
      exact ⟨fp, by simp [encode, h]⟩
    · obtain ⟨fp, h⟩ := ih h
      exact ⟨fp, by simp [encode, h]⟩
  | link ty body mids rest ihb ihm ih =>
    simp only [tys, List.mem_cons, List.mem_append] at h
    rcases h with rfl | h | h | h
    · exact ⟨_, by simp [encode]; exact Or.inl rfl⟩
    · obtain ⟨fp, h⟩ := ihb h
      exact ⟨fp, by simp [encode, h]⟩
    · obtain ⟨fp, h⟩ := ihm h
      exact ⟨fp, by simp [encode, h]⟩
    · obtain ⟨fp, h⟩ := ih h
      exact ⟨fp, by simp [encode, h]⟩

theorem Unmarked.encode {I : Items} (h : I.Unmarked) {key n : Nat} : .cached key n ∉ I.encode := by
  induction I <;> simp_all [Items.encode, Unmarked]

end Spec.Items

/-- Rules of expressions from `C` that leave no marks and read tokens with errors only in ERROR nodes. -/
def CleanRule (C : Nat → Prop) (g : Grammar) : Expr → Prop
  | .pub _ body _ | .pubReplace _ body | .rep body | .opt body | .enter _ body | .exit _ body
  | .withSkip _ body | .layer _ body => C body
  | .or ps | .and ps _ => ∀ p ∈ ps, C p
  | .token ty => g.nodeTypes[ty]? ≠ some ERROR
  | .pratt t => (∀ a ∈ t.atoms, C a) ∧ (∀ x ∈ t.prefixes, C x.op) ∧ ∀ x ∈ t.infixes, C x.op
  | .call body args => C body ∧ ∀ x ∈ args, C x.2
  | .inject a b => C a ∧ C b
  | .contextualToken _ _ | .not _ | .eof | .isIn _ | .prevIs _ | .var _ => True
  | .any | .cached _ => False

/-- All expressions of a goal are from `C`. -/
def CleanGoal (C : Nat → Prop) : Goal → Prop
  | .expr e => C e
  | .all ps => ∀ p ∈ ps, C p
  | .many body => C body
  | .skipped => True
  | .pratt t _ | .operand t | .chain t _ _ | .rhs t _ =>
    (∀ a ∈ t.atoms, C a) ∧ (∀ x ∈ t.prefixes, C x.op) ∧ ∀ x ∈ t.infixes, C x.op

/-- All arguments are from `C`. -/
def CleanArgs (C : Nat → Prop) (args : List (Option Nat)) : Prop :=
  ∀ (k a : Nat), args[k]? = some (some a) → C a

theorem CleanArgs.bind {C : Nat → Prop} {g : Grammar} {args args' : List (Option Nat)} {as : List (Nat × Nat)}
    (h : CleanArgs C args) (has : ∀ x ∈ as, C x.2) (hb : bindArgs g args as = some args') : CleanArgs C args' := by
  have key : ∀ {args : List (Option Nat)} {i a : Nat}, CleanArgs C args → C a → CleanArgs C (args.set i (some a)) := by
    intro args i a h ha k b hk
    rw [List.getElem?_set] at hk
    split at hk
    · split at hk
      · cases hk
        exact ha
      · cases hk
    · exact h k b hk
  induction as generalizing args with
  | nil => cases hb; exact h
  | cons x as ih =>
    obtain ⟨i, a⟩ := x
    simp only [bindArgs] at hb
    have ih' := fun {args} h => @ih args h fun x hx => has x (by simp [hx])
    split at hb
    · cases hb
    · split at hb
      · rename_i a' ha'
        split at hb
        · exact ih' (key h (h _ _ ha')) hb
        · cases hb
      · cases hb
    · split at hb
      · exact ih' (key h (has (i, a) (by simp))) hb
      · cases hb

/-- Structure of expressions from `C`: no marks, and tokens with errors only in ERROR nodes. -/
theorem derives_clean {C : Nat → Prop} {env : Env}
    (hC : ∀ e, C e → ∀ rule, env.grammar.rules[e]? = some rule → CleanRule C env.grammar rule)
    (bad : Nat → Prop) (hbad : ∀ i, bad i → sigTy env i = some ERROR)
    (hw : ∀ e, C e → ∀ ty w, env.grammar.rules[e]? = some (.contextualToken ty w) → ∀ i n, SpelledBy env i n w →
      ∀ m, i ≤ m → m < i + n → ¬ bad m)
    {args : List (Option Nat)} {g : Goal} {i j : Nat} {I : Items} (h : Derives env args g i j I)
    (ha : CleanArgs C args) (hg : CleanGoal C g) :
    match g with
    | .chain _ _ lhs => (lhs.Unmarked → I.Unmarked) ∧
        (ERROR ∉ I.tys → ERROR ∉ lhs.tys ∧ ∀ m, i ≤ m → m < j → ¬ bad m)
    | .skipped => I.Unmarked
    | _ => I.Unmarked ∧ (ERROR ∉ I.tys → ∀ m, i ≤ m → m < j → ¬ bad m) := by
  have gap : ∀ {i k j : Nat}, (∀ m, i ≤ m → m < k → ¬ bad m) → (∀ m, k ≤ m → m < j → ¬ bad m) →
      ∀ m, i ≤ m → m < j → ¬ bad m := by
    intro i k j h1 h2 m h3 h4
    by_cases h : m < k
    · exact h1 m h3 h
    · exact h2 m (by omega) h4
  have none : ∀ {i : Nat}, ∀ m, i ≤ m → m < i → ¬ bad m := by
    intro i m h1 h2
    omega
  have one : ∀ {i : Nat} {t : NodeType}, sigTy env i = some t → t ≠ ERROR → ∀ m, i ≤ m → m < i + 1 → ¬ bad m := by
    intro i t h1 h2 m h3 h4 h5
    obtain rfl : m = i := by omega
    rw [hbad _ h5] at h1
    exact h2 (Option.some.inj h1).symm
  induction h with
  | pub h1 h2 h3 ih | pubReplaced h1 _ h2 h3 ih =>
    obtain ⟨a, b⟩ := ih ha (hC _ hg _ h1)
    exact ⟨⟨a, trivial⟩, fun h => b fun h' => h (by simp [Items.tys, h'])⟩
  | pubReplace h1 h2 ih | opt h1 h2 ih | enter h1 h2 ih | exit h1 h2 ih | withSkip h1 h2 ih | rep h1 h2 ih
  | and h1 h2 ih | pratt h1 h2 ih => exact ih ha (hC _ hg _ h1)
  | or h1 h2 h3 ih => exact ih ha (hC _ hg _ h1 _ h2)
  | andCommit h1 h2 h3 h4 ih =>
    obtain ⟨a, b⟩ := ih ha fun p hp => hC _ hg _ h1 p (by simp [hp])
    exact ⟨(Items.unmarked_append _ _).2 ⟨a, trivial, trivial⟩, fun h => absurd (by simp [Items.tys_append, Items.tys]) h⟩
  | token h1 h2 h3 => exact ⟨trivial, fun _ => one h3 fun h => hC _ hg _ h1 (h ▸ h2)⟩
  | contextual h1 h2 h3 => exact ⟨trivial, fun _ => hw _ hg _ _ h1 _ _ h3⟩
  | withSkipSkipped h1 h2 h3 h4 ih1 ih2 =>
    exact ⟨⟨ih1 ha trivial, (ih2 ha (hC _ hg _ h1)).1⟩, fun h => absurd (by simp [Items.tys]) h⟩
  | optNone h1 | not h1 | eof h1 | isIn h1 | prevIs h1 => exact ⟨trivial, fun _ => none⟩
  | any h1 => exact (hC _ hg _ h1).elim
  | layer h1 h2 h3 ih1 ih2 => exact ih2 ha (hC _ hg _ h1)
  | layerLeftover h1 h2 h3 h4 h5 ih1 ih2 ih3 =>
    exact ⟨(Items.unmarked_append _ _).2 ⟨(ih2 ha (hC _ hg _ h1)).1, ih3 ha trivial, trivial⟩,
      fun h => absurd (by simp [Items.tys_append, Items.tys]) h⟩
  | layerNone h1 h2 ih => exact ⟨trivial, fun _ => none⟩
  | layerSkipped h1 h2 h3 h4 ih1 ih2 =>
    exact ⟨⟨ih2 ha trivial, trivial⟩, fun h => absurd (by simp [Items.tys]) h⟩
  | call h1 h2 h3 ih =>
    obtain ⟨a, b⟩ := hC _ hg _ h1
    exact ih (ha.bind b h2) a
  | var h1 h2 h3 ih => exact ih ha (ha _ _ h2)
  | inject h1 h2 h3 ih1 ih2 =>
    obtain ⟨a, b⟩ := ih1 ha (hC _ hg _ h1).1
    obtain ⟨a', b'⟩ := ih2 ha (hC _ hg _ h1).2
    refine ⟨(Items.unmarked_append _ _).2 ⟨a, a'⟩, fun h => b' fun h' => h (by simp [Items.tys_append, h'])⟩
  | injectLinked h1 h2 h3 h4 h5 ih1 ih2 =>
    obtain ⟨a, b⟩ := ih1 ha (hC _ hg _ h1).1
    obtain ⟨a', b'⟩ := ih2 ha (hC _ hg _ h1).2
    rw [Items.unmarked_under, Items.mem_tys_under]
    exact ⟨⟨a, a'⟩, fun h => gap (b fun h' => h (Or.inl h')) (b' fun h' => h (Or.inr h'))⟩
  | cached h1 => exact (hC _ hg _ h1).elim
  | allNil | manyNil => exact ⟨trivial, fun _ => none⟩
  | allCons h1 h2 ih1 ih2 =>
    obtain ⟨a, b⟩ := ih1 ha (hg _ (by simp))
    obtain ⟨a', b'⟩ := ih2 ha fun p hp => hg p (by simp [hp])
    rw [Items.unmarked_append, Items.tys_append, List.mem_append]
    exact ⟨⟨a, a'⟩, fun h => gap (b fun h' => h (Or.inl h')) (b' fun h' => h (Or.inr h'))⟩
  | manyCons h1 h2 ih1 ih2 =>
    obtain ⟨a, b⟩ := ih1 ha hg
    obtain ⟨a', b'⟩ := ih2 ha hg
    rw [Items.unmarked_append, Items.tys_append, List.mem_append]
    exact ⟨⟨a, a'⟩, fun h => gap (b fun h' => h (Or.inl h')) (b' fun h' => h (Or.inr h'))⟩
  | skippedNil => trivial
  | skippedCons h1 h2 ih => exact ih ha trivial
  | prattChain h1 h2 ih1 ih2 =>
    obtain ⟨a, b⟩ := ih1 ha hg
    obtain ⟨a', b'⟩ := ih2 ha hg
    exact ⟨a' a, fun h => gap (b (b' h).1) (b' h).2⟩
  | atom h1 h2 ih => exact ih ha (hg.1 _ h1)
  | prefixOp h1 h2 h3 h4 ih1 ih2 =>
    obtain ⟨a, b⟩ := ih1 ha (hg.2.1 _ h1)
    obtain ⟨a', b'⟩ := ih2 ha hg
    refine ⟨⟨(Items.unmarked_append _ _).2 ⟨a, a'⟩, trivial⟩, fun h => ?_⟩
    simp only [Items.tys, Items.tys_append, List.append_nil, List.mem_cons, List.mem_append, not_or] at h
    exact gap (b h.2.1) (b' h.2.2)
  | chainEnd => exact ⟨id, fun h => ⟨h, none⟩⟩
  | chainOp h1 h2 h3 h4 h5 h6 h7 ih1 ih2 ih3 =>
    obtain ⟨a, b⟩ := ih1 ha (hg.2.2 _ h1)
    obtain ⟨a', b'⟩ := ih2 ha hg
    obtain ⟨a'', b''⟩ := ih3 ha hg
    rw [Items.unmarked_under, Items.mem_tys_under]
    refine ⟨fun h => ⟨h, a'' ⟨(Items.unmarked_append _ _).2 ⟨a, a'⟩, trivial⟩⟩, fun h => ?_⟩
    simp only [not_or] at h
    obtain ⟨h8, h9⟩ := b'' h.2
    simp only [Items.tys, Items.tys_append, List.append_nil, List.mem_cons, List.mem_append, not_or] at h8
    exact ⟨h.1, gap (b h8.2.1) (gap (b' h8.2.2) h9)⟩
  | chainLoop h1 h2 h3 h4 h5 h6 ih1 ih2 ih3 =>
    obtain ⟨a, b⟩ := ih1 ha (hg.2.2 _ h1)
    obtain ⟨a', b'⟩ := ih2 ha hg
    obtain ⟨a'', b''⟩ := ih3 ha hg
    refine ⟨fun h => a'' ⟨(Items.unmarked_append _ _).2 ⟨a, a'⟩, trivial⟩, fun h => ?_⟩
    obtain ⟨h8, h9⟩ := b'' h
    simp only [Items.tys, Items.tys_append, List.append_nil, List.mem_cons, List.mem_append, not_or] at h8
    exact ⟨by simp [Items.tys], gap (b h8.2.1) (gap (b' h8.2.2) h9)⟩
  | rhsNone => exact ⟨trivial, fun _ => none⟩
  | rhsSome h1 h2 ih => exact ih ha hg
  | rhsMissing h1 => exact ⟨⟨trivial, trivial⟩, fun _ => none⟩

namespace Parser

/-- The events `frag` are what running `B` at the significant token `c` amounts to. -/
def Ran (env : Env) (B : Nat) (A0 : List (Option Nat)) (c : Nat) (frag : List Event) : Prop :=
  ∃ s s', s.predicate = false ∧ s.args = A0 ∧
    Runs env B ⟨c, env.nonWs.length⟩ s (some ⟨c + tokenCount frag, env.nonWs.length⟩) s' ∧
    s'.events = s.events ++ frag

/-- Every mark in the events `es`, which begin at the significant token `c`, is for `B` and followed by the events
of a run of `B`. -/
def Marked (env : Env) (B : Nat) (A0 : List (Option Nat)) (c : Nat) (es : List Event) : Prop :=
  ∀ pre key n rest, es = pre ++ .cached key n :: rest →
    key = B ∧ ∃ frag post, rest = frag ++ post ∧ frag.length = n ∧ Ran env B A0 (c + tokenCount pre) frag

variable {env : Env} {B : Nat} {A0 : List (Option Nat)} {c : Nat}

theorem marked_none {es : List Event} (h : ∀ key n, .cached key n ∉ es) : Marked env B A0 c es := by
  rintro pre key n rest rfl
  exact (h key n (by simp)).elim

theorem Marked.append {xs ys : List Event} (hx : Marked env B A0 c xs)
    (hy : Marked env B A0 (c + tokenCount xs) ys) : Marked env B A0 c (xs ++ ys) := by
  intro pre key n rest h
  rcases List.append_eq_append_iff.1 h with ⟨as, rfl, h2⟩ | ⟨bs, h1, h2⟩
  · obtain ⟨h3, h4⟩ := hy as key n rest h2
    rw [Items.tokenCount_append, ← Nat.add_assoc]
    exact ⟨h3, h4⟩
  · cases bs with
    | nil =>
      simp only [List.nil_append] at h2
      obtain ⟨h3, h4⟩ := hy [] key n rest h2.symm
      rw [List.append_nil] at h1
      subst h1
      exact ⟨h3, h4⟩
    | cons b bs =>
      simp only [List.cons_append, List.cons.injEq] at h2
      obtain ⟨rfl, rfl⟩ := h2
      obtain ⟨h3, frag, post, h4, h5, h6⟩ := hx pre key n bs h1
      exact ⟨h3, frag, post ++ ys, by rw [h4, List.append_assoc], h5, h6⟩

theorem Marked.cached {frag : List Event} (h : Ran env B A0 c frag) (hn : ∀ key n, .cached key n ∉ frag) :
    Marked env B A0 c (.cached B frag.length :: frag) := by
  intro pre key n rest he
  cases pre with
  | nil =>
    simp only [List.nil_append, List.cons.injEq, Event.cached.injEq] at he
    obtain ⟨⟨rfl, rfl⟩, rfl⟩ := he
    exact ⟨rfl, frag, [], by simp, rfl, by simpa [tokenCount] using h⟩
  | cons p pre =>
    simp only [List.cons_append, List.cons.injEq] at he
    exact (hn key n (by rw [he.2]; simp)).elim

/-- Running `e` outside of lookahead and layers appends events with marks for runs of `B`. -/
def MRun (env : Env) (B : Nat) (A0 : List (Option Nat)) (e : Nat) : Prop :=
  ∀ pos s q s', pos.stop = env.nonWs.length → s.predicate = false → s.args = A0 → Runs env e pos s (some q) s' →
    ∃ es, s'.events = s.events ++ es ∧ Marked env B A0 pos.cur es ∧ q = ⟨pos.cur + tokenCount es, pos.stop⟩

variable {e : Nat} {pos : Pos} {s s' : PState}

theorem runs_reads (hc : env.cache = none) {q : Pos} (h : Runs env e pos s (some q) s') :
    q.stop = pos.stop ∧ ∃ I, Derives env s.args (.expr e) pos.cur q.cur I ∧ Adv s s' I.encode := by
  obtain ⟨n, h⟩ := h
  obtain ⟨h1, h2⟩ := (parseExpr_reads hc _ _ _ _ _ h).2 _ rfl
  exact ⟨h1.stop, h2⟩

theorem mrun_clean (hc : env.cache = none) {C : Nat → Prop}
    (hC : ∀ e, C e → ∀ rule, env.grammar.rules[e]? = some rule → CleanRule C env.grammar rule)
    (hA : CleanArgs C A0) (he : C e) : MRun env B A0 e := by
  intro pos s q s' hs hp ha h
  obtain ⟨h1, I, hI, hadv⟩ := runs_reads hc h
  have hcl := (derives_clean (bad := fun _ => False) hC (by simp) (by simp) hI (ha ▸ hA) he).1
  refine ⟨I.encode, hadv.not_pred hp, marked_none fun _ _ => hcl.encode, ?_⟩
  rw [Items.tokenCount_encode, ← hI.expr_toks, ← h1]

theorem mrun_pub {ty body : Nat} {t : NodeType} (he : env.grammar.rules[e]? = some (.pub ty body false))
    (ht : env.grammar.nodeTypes[ty]? = some t) (hb : MRun env B A0 body) : MRun env B A0 e := by
  intro pos s q s' hs hp ha h
  obtain ⟨s1, h1, h2⟩ := (runs_pub he ht).1 h
  have hp' : (ticked s).predicate = false := hp
  rw [emit, if_neg (by simp [hp'])] at h1
  have hp1 : s1.predicate = false := (Runs.scope h1).1.trans hp
  obtain ⟨es, h3, h4, h5⟩ := hb pos { ticked s with events := (ticked s).events ++ [.start t none] } q s1 hs hp ha h1
  rw [if_neg (by simp), emit, if_neg (by simp [hp1])] at h2
  refine ⟨[.start t none] ++ (es ++ [.fin]), ?_, (marked_none (by simp)).append (Marked.append (by exact h4) (marked_none (by simp))), ?_⟩
  · rw [h2]
    simp only [h3]
    simp [ticked]
  · rw [h5]
    simp [Items.tokenCount_append, tokenCount]

theorem mrun_or {ps : List Nat} (he : env.grammar.rules[e]? = some (.or ps)) (hb : ∀ p ∈ ps, MRun env B A0 p) :
    MRun env B A0 e := by
  intro pos s q s' hs hp ha h
  obtain ⟨s1, h1, h2⟩ := (runs_or he).1 h
  rw [if_neg (by simp)] at h2
  subst h2
  have key : ∀ (t t' : PState) (r : Option Pos), t.predicate = false → t.args = A0 → FirstOf env ps pos t r t' → r = some q →
      ∃ es, t'.events = t.events ++ es ∧ Marked env B A0 pos.cur es ∧ q = ⟨pos.cur + tokenCount es, pos.stop⟩ := by
    clear h1 h he ha hp
    intro t t' r hp ha h hr
    induction h with
    | none => cases hr
    | found h =>
      cases hr
      exact hb _ (by simp) _ _ _ _ hs hp ha h
    | next h h' ih =>
      obtain ⟨a, b, c⟩ := Runs.scope h
      obtain ⟨es, h3⟩ := ih (fun p hp => hb p (by simp [hp])) hs (a.trans hp) (c.trans ha) hr
      rw [h.fail_events] at h3
      exact ⟨es, h3⟩
  exact key (ticked s) _ _ hp ha h1 rfl

theorem mrun_and {ps : List Nat} (he : env.grammar.rules[e]? = some (.and ps none)) (hb : ∀ p ∈ ps, MRun env B A0 p) :
    MRun env B A0 e := by
  intro pos s q s' hs hp ha h
  obtain ⟨k, q', s1, h1, h2⟩ := (runs_and he).1 h
  rcases h2 with ⟨_, h2, _⟩ | ⟨hk, h2, h3⟩
  · cases h2
  cases h2
  simp only [Option.getD_none] at hk
  rw [if_neg (by omega)] at h3
  subst h3
  have key : ∀ (pos q : Pos) (t t' : PState) (k : Nat), pos.stop = env.nonWs.length → t.predicate = false → t.args = A0 →
      InTurn env ps pos t k q t' → ps.length ≤ k →
      ∃ es, t'.events = t.events ++ es ∧ Marked env B A0 pos.cur es ∧ q = ⟨pos.cur + tokenCount es, pos.stop⟩ := by
    clear h1 h he ha hp hk hs
    intro pos q t t' k hs hp ha h hk
    induction h with
    | all => exact ⟨[], by simp, marked_none (by simp), by simp [tokenCount]⟩
    | stuck h => simp at hk
    | step h h' ih =>
      obtain ⟨a, b, c⟩ := Runs.scope h
      obtain ⟨xs, h3, h4, h5⟩ := hb _ (by simp) _ _ _ _ hs hp ha h
      obtain ⟨ys, h6, h7, h8⟩ := ih (fun p hp => hb p (by simp [hp])) (by rw [h5]; exact hs) (a.trans hp) (c.trans ha)
        (by simpa using hk)
      refine ⟨xs ++ ys, by rw [h6, h3, List.append_assoc], h4.append ?_, ?_⟩
      · rw [h5] at h7
        exact h7
      · rw [h8, h5, Items.tokenCount_append]
        simp only [Nat.add_assoc]
  exact key _ _ (ticked s) _ _ hs hp ha h1 hk

theorem mrun_rep {body : Nat} (he : env.grammar.rules[e]? = some (.rep body)) (hb : MRun env B A0 body) :
    MRun env B A0 e := by
  intro pos s q s' hs hp ha h
  obtain ⟨q', hq, h1⟩ := (runs_rep he).1 h
  cases hq
  have key : ∀ (pos q : Pos) (t t' : PState), pos.stop = env.nonWs.length → t.predicate = false → t.args = A0 →
      Repeats env body pos t q t' →
      ∃ es, t'.events = t.events ++ es ∧ Marked env B A0 pos.cur es ∧ q = ⟨pos.cur + tokenCount es, pos.stop⟩ := by
    clear h1 h he ha hp hs
    intro pos q t t' hs hp ha h
    induction h with
    | stop h => exact ⟨[], by simp [h.fail_events], marked_none (by simp), by simp [tokenCount]⟩
    | step h h' ih =>
      obtain ⟨a, b, c⟩ := Runs.scope h
      obtain ⟨xs, h3, h4, h5⟩ := hb _ _ _ _ hs hp ha h
      obtain ⟨ys, h6, h7, h8⟩ := ih (by rw [h5]; exact hs) (a.trans hp) (c.trans ha)
      refine ⟨xs ++ ys, by rw [h6, h3, List.append_assoc], h4.append ?_, ?_⟩
      · rw [h5] at h7
        exact h7
      · rw [h8, h5, Items.tokenCount_append]
        simp only [Nat.add_assoc]
  exact key _ _ (ticked s) _ hs hp ha h1

theorem mrun_withSkip (hc : env.cache = none) {first body : Nat}
    (he : env.grammar.rules[e]? = some (.withSkip first body)) (hb : MRun env B A0 body) : MRun env B A0 e := by
  intro pos s q s' hs hp ha h
  obtain ⟨s1, h1, h2⟩ := (runs_withSkip hc he).1 h
  rw [if_neg (by simp)] at h2
  subst h2
  have key : ∀ (E es : List Event) (pos : Pos) (t t' : PState) (r : Option Pos), pos.stop = env.nonWs.length →
      t.predicate = false → t.args = A0 → t.events = E ++ skippedNode es → (∀ key n, .cached key n ∉ es) →
      SkipTo env first body E es pos t r t' → r = some q →
      ∃ fs gs, t'.events = E ++ (skippedNode fs ++ gs) ∧ (∀ key n, .cached key n ∉ fs) ∧
        ∃ p : Pos, p.stop = pos.stop ∧ p.cur + tokenCount es = pos.cur + tokenCount fs ∧ Marked env B A0 p.cur gs ∧
          q = ⟨p.cur + tokenCount gs, pos.stop⟩ := by
    clear h1 h he ha hp hs
    intro E es pos t t' r hs hp ha hev hes h hr
    induction h with
    | found h =>
      cases hr
      rcases h with ⟨_, h⟩ | ⟨q', s1, h1, h2⟩
      · cases h
      · obtain ⟨a, b, c⟩ := Looks.scope h1
        obtain ⟨xs, h3, h4, h5⟩ := hb _ _ _ _ hs (a.trans hp) (c.trans ha) h2
        rw [adv_nil (looks_adv hc h1), hev, List.append_assoc] at h3
        exact ⟨_, xs, h3, hes, _, rfl, rfl, h4, h5⟩
    | exhausted => cases hr
    | skip h1 h2 h3 h4 ih =>
      obtain ⟨a, b, c⟩ := Attempt.scope h1
      have hp1 := a.trans hp
      rw [if_neg (by simp [hp1])] at ih
      obtain ⟨fs, gs, h6, h7, p, h8, h9, h10, h11⟩ := ih hs hp1 (c.trans ha)
        (by simp [skippedNode]) (by simp [hes]) hr
      refine ⟨fs, gs, h6, h7, p, h8, ?_, h10, h11⟩
      rw [Items.tokenCount_append] at h9
      simp only [tokenCount] at h9
      omega
  obtain ⟨fs, gs, h3, h4, p, h5, h6, h7, h8⟩ := key s.events [] pos (ticked s) _ _ hs hp ha
    (by simp [skippedNode, ticked]) (by simp) h1 rfl
  have htok : tokenCount (skippedNode fs) = tokenCount fs := by
    unfold skippedNode
    split
    · rename_i h
      rw [h]
    · simp [errorNode, tokenCount, Items.tokenCount_append]
  simp only [tokenCount, Nat.add_zero] at h6
  refine ⟨_, h3, Marked.append (marked_none fun key n hm => ?_) ?_, ?_⟩
  · unfold skippedNode at hm
    split at hm
    · cases hm
    · simp [errorNode, h4] at hm
  · rw [htok, ← h6]
    exact h7
  · rw [h8, h6, Items.tokenCount_append, htok, Nat.add_assoc]

theorem mrun_cached (hc : env.cache = none) (he : env.grammar.rules[e]? = some (.cached B))
    (hB : ∀ pos s q s', s.predicate = false → s.args = A0 → Runs env B pos s (some q) s' →
      ∀ es, s'.events = s.events ++ es → ∀ key n, .cached key n ∉ es) : MRun env B A0 e := by
  intro pos s q s' hs hp ha h
  obtain ⟨n, s1, h1, h2⟩ := runs_iff.1 h
  rw [if_neg (by simp)] at h2
  cases h2
  rw [inner_of he] at h1
  simp only [parseCached] at h1
  obtain ⟨m, s1, h2, h1⟩ := P.bind_ok.1 h1
  unfold startCached at h2
  obtain ⟨m', s2, h3, h2⟩ := P.bind_ok.1 h2
  obtain ⟨rfl, rfl⟩ := mark_ok h3
  obtain ⟨_, s3, h4, h2⟩ := P.bind_ok.1 h2
  obtain ⟨rfl, h9⟩ := P.pure_ok.1 h2
  rw [h9] at h4
  have a1 := event_adv h4
  obtain ⟨r, s4, h5, h1⟩ := P.bind_ok.1 h1
  have h5' : parseExpr env n B pos s1 = .ok r s4 := by
    unfold cachedOrParse getFromCache at h5
    rw [hc] at h5
    exact h5
  cases r with
  | none => simp [P.pure_ok] at h1
  | some q' =>
    have hp1 : s1.predicate = false := a1.predicate.trans hp
    have ha1 : s1.args = A0 := a1.args.trans ha
    obtain ⟨h6, I, hI, a2⟩ := runs_reads hc ⟨n, h5'⟩
    obtain ⟨_, s5, h7, h1⟩ := P.bind_ok.1 h1
    obtain ⟨h1, rfl⟩ := P.pure_ok.1 h1
    cases h1
    have hq : q = ⟨pos.cur + tokenCount I.encode, pos.stop⟩ := by
      rw [Items.tokenCount_encode, ← hI.expr_toks, ← h6]
    have hev := a2.not_pred hp1
    have hno := hB _ _ _ _ hp1 ha1 ⟨n, h5'⟩ _ hev
    refine ⟨.cached B I.encode.length :: I.encode, ?_, Marked.cached ⟨s1, s4, hp1, ha1, ?_, hev⟩ hno, ?_⟩
    · unfold finishCached at h7
      rw [if_neg (by rw [a2.predicate, hp1]; simp), hev, a1.not_pred hp] at h7
      simp only [List.append_assoc, List.cons_append, List.nil_append, get_mark, set_mark] at h7
      cases h7
      simp [ticked]
      omega
    · rw [hq, hs] at h5'
      have : pos = ⟨pos.cur, env.nonWs.length⟩ := by rw [← hs]
      rw [this] at h5'
      exact ⟨n, h5'⟩
    · rw [hq]
      simp [tokenCount]

/-- All events of a parse. -/
theorem synParse_marked {n ty body : Nat} {t : NodeType}
    (hs : env.grammar.rules[env.grammar.startRule]? = some (.pub ty body false))
    (ht : env.grammar.nodeTypes[ty]? = some t) (hb : MRun env B PState.new.args body) {es : List Event} {ticks : Nat}
    (h : synParse env n = .ok (es, ticks)) : Marked env B PState.new.args 0 es := by
  unfold synParse at h
  split at h
  case h_2 => cases h
  case h_3 => cases h
  rename_i u s hm
  simp only [Result.ok.injEq, Prod.mk.injEq] at h
  obtain ⟨rfl, _⟩ := h
  unfold parseMain at hm
  obtain ⟨r, s1, h1, h⟩ := P.bind_ok.1 hm
  obtain ⟨p, s2, h2, h'⟩ := P.bind_ok.1 h
  obtain ⟨rfl, h12⟩ := P.lift_ok.1 h2
  rw [← h12] at h'
  obtain ⟨s3, h3, h4⟩ := (runs_pub hs ht).1 ⟨n, h1⟩
  rw [emit, if_neg (by simp [ticked, PState.new])] at h3
  obtain ⟨xs, h5, h6, h7⟩ := hb _ { ticked .new with events := (ticked .new).events ++ [.start t none] } _ _ rfl rfl
    rfl h3
  have hp3 : s3.predicate = false := (Runs.scope h3).1
  rw [if_neg (by simp), emit, if_neg (by simp [hp3])] at h4
  have hev : s1.events = (.start t none :: xs) ++ [.fin] := by
    rw [h4]
    simp only [h5]
    simp [ticked, PState.new]
  have hmark : Marked env B PState.new.args 0 (.start t none :: xs) :=
    (marked_none (es := [.start t none]) (by simp)).append h6
  have hadv : Adv .new s1 ((.start t none :: xs) ++ [.fin]) :=
    ⟨by rw [h4]; exact hp3, by rw [h4]; exact (Runs.scope h3).2.2, by rw [hev]; rfl⟩
  rcases cond_ok h' with ⟨_, h⟩ | ⟨_, h⟩
  · obtain ⟨_, s4, h8, h⟩ := P.bind_ok.1 h
    have a3 := reopen_adv hadv h8
    obtain ⟨_, s5, h9, h⟩ := P.bind_ok.1 h
    obtain ⟨_, s6, h10, h⟩ := P.bind_ok.1 h
    obtain ⟨_, S, hS, a5⟩ := bumpAllN_adv (args := PState.new.args) h10
    obtain ⟨_, s7, h11, h⟩ := P.bind_ok.1 h
    have a := (((a3.trans (startError_adv h9)).trans a5).trans (event_adv h11)).trans (event_adv h)
    have hS' : S.Unmarked := derives_clean (C := fun _ => False) (bad := fun _ => False) (by simp) (by simp) (by simp) hS
      (fun k a h => by
        have := List.mem_of_getElem? h
        simp [PState.new] at this) trivial
    rw [a.not_pred rfl]
    simp only [PState.new, List.nil_append, List.append_assoc]
    refine hmark.append (marked_none ?_)
    intro key n
    simp [hS'.encode]
  · rw [h, hev]
    exact hmark.append (marked_none (by simp))

end Parser

end Fall
