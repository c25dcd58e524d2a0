import Verif.Lemmas.Replaced

/-!
What a successful part of the parser appends to the events.
-/

namespace Fall

open Spec

namespace Spec.Items

theorem encode_append (I J : Items) : (I.append J).encode = I.encode ++ J.encode := by
  induction I with
  | nil => rfl
  | tok ty n rest ih => simp [append, encode, ih]
  | cached key body rest _ ih => simp [append, encode, ih]
  | node ty body rest _ ih => simp [append, encode, ih]
  | link ty body mids rest _ _ ih => simp [append, encode, ih]
  | loop ty body rest _ ih => simp [append, encode, ih]

theorem toks_append (I J : Items) : (I.append J).toks = I.toks + J.toks := by
  induction I with
  | nil => simp [append, toks]
  | tok ty n rest ih => simp [append, toks, ih]; omega
  | cached key body rest _ ih => simp [append, toks, ih]; omega
  | node ty body rest _ ih => simp [append, toks, ih]; omega
  | link ty body mids rest _ _ ih => simp [append, toks, ih]; omega
  | loop ty body rest _ ih => simp [append, toks, ih]; omega

theorem append_nil (I : Items) : I.append .nil = I := by
  induction I with
  | nil => rfl
  | tok ty n rest ih => simp [append, ih]
  | cached key body rest _ ih => simp [append, ih]
  | node ty body rest _ ih => simp [append, ih]
  | link ty body mids rest _ _ ih => simp [append, ih]
  | loop ty body rest _ ih => simp [append, ih]

theorem encode_eq_nil {I : Items} (h : I.encode = []) : I = .nil := by
  cases I <;> simp_all [encode]

/-- Setting the link of the first event is `under`. -/
theorem encode_under {I : Items} {ty : NodeType} {fp : Option Nat} {tl : List Event}
    (h : I.encode = .start ty fp :: tl) (J : Items) :
    (I.under J).encode = .start ty (some I.encode.length) :: (tl ++ J.encode) := by
  cases I with
  | nil => simp [encode] at h
  | tok ty n rest => simp [encode] at h
  | cached key body rest => simp [encode] at h
  | node ty body rest =>
    simp only [encode, List.cons.injEq, Event.start.injEq] at h
    obtain ⟨⟨rfl, _⟩, rfl⟩ := h
    simp [under, encode, Nat.add_assoc]
  | link ty body mids rest =>
    simp only [encode, List.cons.injEq, Event.start.injEq] at h
    obtain ⟨⟨rfl, _⟩, rfl⟩ := h
    simp [under, encode, encode_append]
    omega
  | loop ty body rest =>
    simp only [encode, List.cons.injEq, Event.start.injEq] at h
    obtain ⟨⟨rfl, _⟩, rfl⟩ := h
    simp [under, encode, Nat.add_assoc]

theorem opens_of_encode {I : Items} {ty : NodeType} {fp : Option Nat} {tl : List Event}
    (h : I.encode = .start ty fp :: tl) : I.Opens := by
  cases I <;> simp_all [encode, Opens]

theorem encode_of_opens {I : Items} (h : I.Opens) : ∃ ty fp tl, I.encode = .start ty fp :: tl := by
  cases I <;> simp_all [encode, Opens]

theorem toks_under (I J : Items) : (I.under J).toks = I.toks + J.toks := by
  cases I <;> simp [under, toks, toks_append, append] <;> omega

/-- The encoding of any items is properly nested. -/
theorem nest_encode (I : Items) (d : Nat) (es : List Event) :
    nest d (I.encode ++ es) = nest d es := by
  induction I generalizing d es with
  | nil => rfl
  | tok ty n rest ih => simp [encode, nest, ih]
  | cached key body rest ihb ih => simp [encode, nest, List.append_assoc, ihb, ih]
  | node ty body rest ihb ih => simp [encode, nest, List.append_assoc, ihb, ih]
  | link ty body mids rest ihb ihm ih => simp [encode, nest, List.append_assoc, ihb, ihm, ih]
  | loop ty body rest ihb ih => simp [encode, nest, List.append_assoc, ihb, ih]

theorem nested_encode (I : Items) : Nested I.encode := by
  have := nest_encode I 0 []
  simpa [Nested, nest] using this

theorem tokenCount_append (a b : List Event) : tokenCount (a ++ b) = tokenCount a + tokenCount b := by
  induction a with
  | nil => simp [tokenCount]
  | cons e a ih => cases e <;> simp [tokenCount, ih]; omega

theorem tokenCount_encode (I : Items) : tokenCount I.encode = I.toks := by
  induction I with
  | nil => rfl
  | tok ty n rest ih => simp [encode, tokenCount, toks, ih]
  | cached key body rest ihb ih => simp [encode, tokenCount, tokenCount_append, toks, ihb, ih]
  | node ty body rest ihb ih => simp [encode, tokenCount, tokenCount_append, toks, ihb, ih]
  | link ty body mids rest ihb ihm ih =>
    simp [encode, tokenCount, tokenCount_append, toks, ihb, ihm, ih]; omega
  | loop ty body rest ihb ih => simp [encode, tokenCount, tokenCount_append, toks, ihb, ih]

end Spec.Items

/-- The structure of a piece of input has as many tokens as the input. -/
theorem Spec.Derives.toks {env : Env} {args : List (Option Nat)} {g : Goal} {i j : Nat} {I : Items}
    (h : Derives env args g i j I) :
    match g with
    | .chain _ _ lhs => i ≤ j ∧ I.toks = lhs.toks + (j - i)
    | _ => i ≤ j ∧ I.toks = j - i := by
  induction h <;>
    simp_all [Items.toks, Items.toks_append, Items.toks_under] <;> omega

theorem Spec.Derives.expr_toks {env : Env} {args : List (Option Nat)} {e i j : Nat} {I : Items}
    (h : Derives env args (.expr e) i j I) : j = i + I.toks := by
  have := h.toks
  simp at this
  omega

namespace Parser

/-- The events after appending `es`, which happens only outside of lookahead. -/
def app (s : PState) (es : List Event) : List Event :=
  if s.predicate then s.events else s.events ++ es

/-- From `s` to `s'` the events `es` are appended. -/
structure Adv (s s' : PState) (es : List Event) : Prop where
  predicate : s'.predicate = s.predicate
  args : s'.args = s.args
  events : s'.events = app s es

theorem Adv.refl (s : PState) : Adv s s [] := ⟨rfl, rfl, by simp [app]⟩

theorem Adv.trans {s s1 s2 : PState} {X Y : List Event} (h : Adv s s1 X) (h' : Adv s1 s2 Y) :
    Adv s s2 (X ++ Y) := by
  refine ⟨h'.predicate.trans h.predicate, h'.args.trans h.args, ?_⟩
  rw [h'.events, app, h.predicate, h.events]
  unfold app
  cases s.predicate <;> simp

theorem Adv.nil_trans {s s1 s2 : PState} {Y : List Event} (h : Adv s s1 []) (h' : Adv s1 s2 Y) :
    Adv s s2 Y := h.trans h'

theorem Adv.trans_nil {s s1 s2 : PState} {X : List Event} (h : Adv s s1 X) (h' : Adv s1 s2 []) :
    Adv s s2 X := by
  simpa using h.trans h'

theorem Adv.of_eq {s s1 : PState} (h1 : s1.predicate = s.predicate) (h2 : s1.args = s.args)
    (h3 : s1.events = s.events) : Adv s s1 [] := ⟨h1, h2, by simp [app, h3]⟩

theorem Adv.not_pred {s s1 : PState} {es : List Event} (h : Adv s s1 es)
    (hp : s.predicate = false) : s1.events = s.events ++ es := by
  rw [h.events, app, hp]; simp

theorem Adv.pred {s s1 : PState} {es : List Event} (h : Adv s s1 es)
    (hp : s.predicate = true) : s1.events = s.events := by
  rw [h.events, app, hp]; simp

theorem Adv.setPrev {s s1 : PState} {es : List Event} (h : Adv s s1 es) {p : Option NodeType} :
    Adv s { s1 with prev := p } es := ⟨h.predicate, h.args, h.events⟩

/-- Moving from `pos` to `p'`. -/
structure Moves (pos p' : Pos) : Prop where
  stop : p'.stop = pos.stop
  le : pos.cur ≤ pos.stop → p'.cur ≤ pos.stop

theorem Moves.refl (pos : Pos) : Moves pos pos := ⟨rfl, id⟩

theorem Moves.trans {p q r : Pos} (h : Moves p q) (h' : Moves q r) : Moves p r :=
  ⟨h'.stop.trans h.stop, fun hp => by
    have := h'.le (by rw [h.stop]; exact h.le hp)
    rw [h.stop] at this
    exact this⟩

/-- From `s` and `pos` to `s'` and `p'` the tokens between are read as `g`. -/
structure Reads (env : Env) (g : Goal) (s : PState) (pos : Pos) (s' : PState) (p' : Pos) : Prop where
  moves : Moves pos p'
  items : ∃ I, Derives env s.args g pos.cur p'.cur I ∧ Adv s s' I.encode

/-- `parse_expr` reads expressions. -/
def RecReads (env : Env) (rec : Rec) : Prop :=
  ∀ e pos s r s', rec e pos s = .ok r s' →
    (r = none → Adv s s' []) ∧ ∀ p', r = some p' → Reads env (.expr e) s pos s' p'

theorem event_adv {e : Event} {s s' : PState} {u : Unit} (h : event e s = .ok u s') :
    Adv s s' [e] := by
  obtain rfl := P.modify_ok.1 h
  by_cases hp : s.predicate = true
  · rw [if_pos hp]; exact ⟨rfl, rfl, by simp [app, hp]⟩
  · rw [if_neg hp]; exact ⟨rfl, rfl, by simp [app, hp]⟩

theorem tick_adv {s s' : PState} {u : Unit} (h : tick s = .ok u s') : Adv s s' [] := by
  obtain rfl := P.modify_ok.1 h
  exact Adv.of_eq rfl rfl rfl

theorem mark_ok {s s' : PState} {m : Nat} (h : mark s = .ok m s') :
    m = s.events.length ∧ s' = s := by
  obtain ⟨a, s1, h1, h2⟩ := P.bind_ok.1 h
  obtain ⟨rfl, rfl⟩ := P.get_ok.1 h1
  obtain ⟨rfl, rfl⟩ := P.pure_ok.1 h2
  exact ⟨rfl, rfl⟩

theorem startTy_adv {ty : NodeType} {s s' : PState} {m : Nat} (h : startTy ty s = .ok m s') :
    m = s.events.length ∧ Adv s s' [.start ty none] := by
  obtain ⟨m', s1, h1, h⟩ := P.bind_ok.1 h
  obtain ⟨rfl, rfl⟩ := mark_ok h1
  obtain ⟨_, s2, h2, h⟩ := P.bind_ok.1 h
  obtain ⟨rfl, rfl⟩ := P.pure_ok.1 h
  exact ⟨rfl, event_adv h2⟩

theorem start_adv {env : Env} {ty : Nat} {s s' : PState} {m : Nat} (h : start env ty s = .ok m s') :
    ∃ t, env.grammar.nodeTypes[ty]? = some t ∧ m = s.events.length ∧ Adv s s' [.start t none] := by
  obtain ⟨t, s1, h1, h⟩ := P.bind_ok.1 h
  obtain ⟨ht, rfl⟩ := P.lift_ok.1 h1
  obtain ⟨rfl, ha⟩ := startTy_adv h
  exact ⟨t, ht, rfl, ha⟩

theorem startError_adv {s s' : PState} {u : Unit} (h : startError s = .ok u s') :
    Adv s s' [.start ERROR none] := by
  obtain ⟨m, s1, h1, h⟩ := P.bind_ok.1 h
  obtain ⟨_, rfl⟩ := P.pure_ok.1 h
  exact (startTy_adv h1).2

theorem errorNode_adv {s s' : PState} {u : Unit} (h : (do startError; finish : P Unit) s = .ok u s') :
    Adv s s' (Items.node ERROR .nil .nil).encode := by
  obtain ⟨m, s1, h1, h⟩ := P.bind_ok.1 h
  exact (startError_adv h1).trans (event_adv h)

theorem bump_adv {env : Env} {pos : Pos} {s s' : PState} {r : Option (NodeType × Pos)}
    (h : bump env pos s = .ok r s') :
    (r = none → pos.cur = pos.stop ∧ s' = s) ∧ ∀ t p', r = some (t, p') →
      pos.cur ≠ pos.stop ∧ p' = pos.next ∧ sigTy env pos.cur = some t ∧ Adv s s' [.token t 1] := by
  unfold bump at h
  by_cases he : pos.isEmpty = true
  · rw [if_pos he] at h
    obtain ⟨rfl, rfl⟩ := P.pure_ok.1 h
    simpa [Pos.isEmpty] using he
  · rw [if_neg he] at h
    obtain ⟨t, s1, h1, h⟩ := P.bind_ok.1 h
    obtain ⟨ht, rfl⟩ := P.lift_ok.1 h1
    obtain ⟨_, s2, h2, h⟩ := P.bind_ok.1 h
    obtain ⟨rfl, rfl⟩ := P.pure_ok.1 h
    refine ⟨by simp, ?_⟩
    rintro t' p' h'
    simp only [Option.some.injEq, Prod.mk.injEq] at h'
    obtain ⟨rfl, rfl⟩ := h'
    refine ⟨by simpa [Pos.isEmpty] using he, rfl, ?_, event_adv h2⟩
    unfold sigTy sigToken
    cases hn : env.nonWs[pos.cur]? with
    | none => simp [hn] at ht
    | some x =>
      simp only [hn, Option.bind_eq_bind, Option.bind_some] at ht ⊢
      rw [ht]; rfl

theorem moves_next {pos : Pos} (h : pos.cur ≠ pos.stop) : Moves pos pos.next :=
  ⟨rfl, fun hl => by simp only [Pos.next]; omega⟩

theorem bumpAllN_adv {env : Env} {args : List (Option Nat)} {n : Nat} {pos : Pos} {s s' : PState}
    {u : Unit} (h : bumpAllN env n pos s = .ok u s') :
    pos.cur ≤ pos.stop ∧
    ∃ S, Derives env args .skipped pos.cur pos.stop S ∧ Adv s s' S.encode := by
  induction n generalizing pos s with
  | zero => exact (P.panic_ok.1 h).elim
  | succ n ih =>
    unfold bumpAllN at h
    obtain ⟨r, s1, h1, h⟩ := P.bind_ok.1 h
    obtain ⟨hn, hs⟩ := bump_adv h1
    cases r with
    | none =>
      obtain ⟨_, rfl⟩ := P.pure_ok.1 h
      obtain ⟨he, rfl⟩ := hn rfl
      rw [he]
      exact ⟨Nat.le_refl _, .nil, .skippedNil, Adv.refl _⟩
    | some x =>
      obtain ⟨t, p'⟩ := x
      obtain ⟨hne, rfl, ht, ha⟩ := hs _ _ rfl
      obtain ⟨hle, S, hS, hA⟩ := ih h
      simp only [Pos.next] at hle hS
      exact ⟨by omega, .tok t 1 S, .skippedCons ht hS, ha.trans hA⟩

/-- The loop of a contextual token counts the tokens it passes, which have the length asked for. -/
theorem byTextLoop_ok {env : Env} {rest : List (Nat × Nat)} {l n : Nat} {pos : Pos} {s s' : PState}
    {r : Option (Nat × Pos)} (hrest : rest = env.nonWs.drop pos.cur)
    (h : byTextLoop env rest l n pos s = .ok r s') :
    s' = s ∧ ∀ m p', r = some (m, p') → n ≤ m ∧ p'.cur = pos.cur + (m - n) ∧ Moves pos p' ∧
      sigLen env pos.cur (m - n) = some l := by
  have done : ∀ (s : PState), l = 0 → (s = s ∧ ∀ m p', some (n, pos) = some (m, p') →
      n ≤ m ∧ p'.cur = pos.cur + (m - n) ∧ Moves pos p' ∧
      sigLen env pos.cur (m - n) = some l) := by
    rintro s rfl
    refine ⟨rfl, ?_⟩
    rintro m p' h'
    simp only [Option.some.injEq, Prod.mk.injEq] at h'
    obtain ⟨rfl, rfl⟩ := h'
    refine ⟨Nat.le_refl _, by omega, Moves.refl _, ?_⟩
    rw [Nat.sub_self]
    rfl
  induction rest generalizing l n pos with
  | nil =>
    unfold byTextLoop at h
    split at h
    · rename_i hl
      obtain ⟨rfl, rfl⟩ := P.pure_ok.1 h
      exact done _ hl
    · split at h
      · obtain ⟨rfl, rfl⟩ := P.pure_ok.1 h
        exact ⟨rfl, by simp⟩
      · exact (P.panic_ok.1 h).elim
  | cons x rest ih =>
    unfold byTextLoop at h
    split at h
    · rename_i hl
      obtain ⟨rfl, rfl⟩ := P.pure_ok.1 h
      exact done _ hl
    · split at h
      · obtain ⟨rfl, rfl⟩ := P.pure_ok.1 h
        exact ⟨rfl, by simp⟩
      · rename_i hne
        obtain ⟨t, s1, h1, h⟩ := P.bind_ok.1 h
        obtain ⟨ht, rfl⟩ := P.lift_ok.1 h1
        split at h
        · obtain ⟨rfl, rfl⟩ := P.pure_ok.1 h
          exact ⟨rfl, by simp⟩
        · rename_i hlt
          have hx : env.nonWs[pos.cur]? = some x := by
            rw [← List.head?_drop, ← hrest]; rfl
          have hrest' : rest = env.nonWs.drop pos.next.cur := by
            simp only [Pos.next]
            rw [← List.tail_drop, ← hrest]; rfl
          obtain ⟨hs, hr⟩ := ih hrest' h (by
            rintro s hl
            refine ⟨rfl, ?_⟩
            rintro m p' h'
            simp only [Option.some.injEq, Prod.mk.injEq] at h'
            obtain ⟨rfl, rfl⟩ := h'
            refine ⟨Nat.le_refl _, by omega, Moves.refl _, ?_⟩
            rw [Nat.sub_self, hl]
            rfl)
          refine ⟨hs, fun m p' h' => ?_⟩
          obtain ⟨h1, h2, h3, h4⟩ := hr m p' h'
          have hne' : pos.cur ≠ pos.stop := by simpa [Pos.isEmpty] using hne
          refine ⟨by omega, ?_, (moves_next hne').trans h3, ?_⟩
          · rw [h2]; simp only [Pos.next]; omega
          · have : m - n = (m - (n + 1)) + 1 := by omega
            rw [this]
            simp only [Pos.next] at h4
            simp only [sigLen, sigToken, hx, Option.bind_eq_bind, Option.bind_some, ht, h4,
              Option.some.injEq]
            omega

variable {env : Env} {rec : Rec} {pos : Pos} {s s' : PState} {r : Option Pos} {p' : Pos}

theorem setArgs_bind {args : List (Nat × Nat)} : ∀ s u s', setArgs env args s = .ok u s' →
    bindArgs env.grammar s.args args = some s'.args := by
  induction args with
  | nil =>
    intro s u s' h
    obtain ⟨_, rfl⟩ := P.pure_ok.1 h
    rfl
  | cons x args ih =>
    intro s u s' h
    obtain ⟨argPos, arg⟩ := x
    unfold setArgs at h
    rw [P.bind_ok] at h
    obtain ⟨arg', s2, h2, h⟩ := h
    obtain rfl := resolveArg_state h2
    unfold resolveArg at h2
    obtain ⟨s0, s1, h1, h2⟩ := P.bind_ok.1 h2
    obtain ⟨rfl, rfl⟩ := P.get_ok.1 h1
    obtain ⟨e, s3, h3, h2⟩ := P.bind_ok.1 h2
    obtain ⟨he, rfl⟩ := P.lift_ok.1 h3
    rw [P.bind_ok] at h
    obtain ⟨s3, s4, h3, h⟩ := h
    obtain ⟨rfl, rfl⟩ := P.get_ok.1 h3
    split at h
    · rename_i hlt
      obtain ⟨_, s5, h5, h⟩ := P.bind_ok.1 h
      obtain rfl := P.modify_ok.1 h5
      have := ih _ _ _ h
      unfold bindArgs
      rw [he]
      split at h2
      · have hj := (P.lift_ok.1 h2).1
        rename_i i
        cases hi : s3.args[i]? with
        | none => simp [hi] at hj
        | some o =>
          cases o with
          | none => simp [hi] at hj
          | some b =>
            simp [hi] at hj
            subst hj
            simp [hi, hlt]
            exact this
      · obtain ⟨rfl, _⟩ := P.pure_ok.1 h2
        split
        · simp_all
        · simp_all
        · simp only [hlt, if_true]; exact this
    · exact (P.panic_ok.1 h).elim

theorem parseExprPred_adv (hr : RecReads env rec) {e : Nat}
    (h : parseExprPred rec e pos s = .ok r s') :
    Adv s s' [] ∧ ∀ p', r = some p' →
      Moves pos p' ∧ pos.cur ≤ p'.cur ∧ ∃ I, Derives env s.args (.expr e) pos.cur p'.cur I := by
  unfold parseExprPred at h
  obtain ⟨s0, s1, h1, hs⟩ := P.bind_ok.1 h
  obtain ⟨rfl, rfl⟩ := P.get_ok.1 h1
  obtain ⟨_, s2, h2, hs⟩ := P.bind_ok.1 hs
  obtain rfl := P.modify_ok.1 h2
  obtain ⟨r, s3, h3, hs⟩ := P.bind_ok.1 hs
  obtain ⟨_, s4, h4, hs⟩ := P.bind_ok.1 hs
  obtain rfl := P.modify_ok.1 h4
  obtain ⟨rfl, rfl⟩ := P.pure_ok.1 hs
  obtain ⟨ha, hb⟩ := hr _ _ _ _ _ h3
  cases r with
  | none =>
    have := ha rfl
    exact ⟨Adv.of_eq rfl this.args (by simpa [app] using this.events), by simp⟩
  | some q =>
    obtain ⟨hm, I, hI, hA⟩ := hb q rfl
    refine ⟨Adv.of_eq rfl hA.args (by simpa [app] using hA.events), ?_⟩
    rintro _ ⟨⟩
    exact ⟨hm, by have := hI.expr_toks; omega, I, hI⟩

theorem set_mark {E : List Event} {a b : Event} {tl : List Event} :
    (E ++ a :: tl).set E.length b = E ++ b :: tl := by
  rw [List.set_append_right _ _ (Nat.le_refl _)]
  simp

theorem get_mark {E : List Event} {a : Event} {tl : List Event} :
    (E ++ a :: tl)[E.length]? = some a := by
  simp

/-- Replacing the type of the node started at `m`. -/
theorem applyReplacement_adv {b : Bool} {t : NodeType} {s0 : PState} {es : List Event} {u : Unit}
    (hA : Adv s0 s (.start t none :: es))
    (h : applyReplacement env s0.events.length b s = .ok u s') :
    ∃ t', Adv s0 s' (.start t' none :: es) ∧
      (t' = t ∨ (b = true ∧ ∃ k : Nat, s.replacement = some k ∧ env.grammar.nodeTypes[k]? = some t')) := by
  unfold applyReplacement at h
  obtain ⟨s1, s2, h1, h⟩ := P.bind_ok.1 h
  obtain ⟨rfl, rfl⟩ := P.get_ok.1 h1
  cases b with
  | false =>
    obtain ⟨_, rfl⟩ := P.pure_ok.1 h
    exact ⟨t, hA, Or.inl rfl⟩
  | true =>
    cases hrep : s1.replacement with
    | none =>
      rw [hrep] at h
      obtain ⟨_, rfl⟩ := P.pure_ok.1 h
      exact ⟨t, hA, Or.inl rfl⟩
    | some k =>
      rw [hrep] at h
      obtain ⟨_, s2, h2, h⟩ := P.bind_ok.1 h
      obtain rfl := P.modify_ok.1 h2
      unfold replace at h
      obtain ⟨t', s3, h3, h⟩ := P.bind_ok.1 h
      obtain ⟨ht, rfl⟩ := P.lift_ok.1 h3
      simp only at h
      by_cases hp : s0.predicate = true
      · rw [hA.pred hp] at h
        simp at h
      · simp only [Bool.not_eq_true] at hp
        rw [hA.not_pred hp] at h
        simp only [get_mark, set_mark] at h
        cases h
        exact ⟨t', ⟨hA.predicate, hA.args, by simp [app, hp]⟩, Or.inr ⟨rfl, k, rfl, ht⟩⟩

theorem parsePub_reads (hr : RecReads env rec) (hst : RecStays env.grammar rec) {e ty body : Nat} {b : Bool}
    (he : env.grammar.rules[e]? = some (.pub ty body b))
    (h : parsePub env rec pos ty body b s = .ok (some p') s') :
    Reads env (.expr e) s pos s' p' := by
  unfold parsePub at h
  obtain ⟨_, s1, h1, h⟩ := P.bind_ok.1 h
  obtain h1 := P.modify_ok.1 h1
  have a1 : Adv s s1 [] := by
    rw [h1]; split <;> exact Adv.of_eq rfl rfl rfl
  have hp1 : b = true → Proper env.grammar s1 := by
    rintro rfl
    rw [h1]
    rintro _ ⟨⟩
  clear h1
  obtain ⟨m, s2, h2, h⟩ := P.bind_ok.1 h
  obtain ⟨t, ht, rfl, a2⟩ := start_adv h2
  obtain ⟨r, s3, h3, h⟩ := P.bind_ok.1 h
  cases r with
  | none => simp [P.pure_ok] at h
  | some ts =>
    obtain ⟨hm, I, hI, a3⟩ := (hr _ _ _ _ _ h3).2 _ rfl
    obtain ⟨_, s4, h4, h⟩ := P.bind_ok.1 h
    obtain ⟨t', a4, ht'⟩ := applyReplacement_adv (a2.trans a3) h4
    obtain ⟨_, s5, h5, h⟩ := P.bind_ok.1 h
    have a5 := event_adv h5
    obtain ⟨_, s6, h6, h⟩ := P.bind_ok.1 h
    obtain ⟨_, rfl⟩ := P.lift_ok.1 h6
    obtain ⟨_, s7, h7, h⟩ := P.bind_ok.1 h
    obtain rfl := P.modify_ok.1 h7
    obtain ⟨h, rfl⟩ := P.pure_ok.1 h
    cases h
    have hargs : s2.args = s.args := (a1.trans a2).args
    refine ⟨hm, .node t' I .nil, ?_, ?_⟩
    · rw [hargs] at hI
      rcases ht' with rfl | ⟨rfl, k, hrep, hk⟩
      · exact .pub he ht hI
      · exact .pubReplaced he (hst _ _ _ _ _ h3 (start_stays _ _ _ h2 (hp1 rfl)) k hrep) hk hI
    · refine a1.nil_trans ?_
      refine Adv.setPrev ?_
      simpa [Items.encode] using a4.trans a5

theorem parsePubReplace_reads (hr : RecReads env rec) {e ty body : Nat}
    (he : env.grammar.rules[e]? = some (.pubReplace ty body))
    (h : parsePubReplace rec pos ty body s = .ok (some p') s') :
    Reads env (.expr e) s pos s' p' := by
  unfold parsePubReplace at h
  obtain ⟨r, s1, h1, h⟩ := P.bind_ok.1 h
  cases r with
  | none => simp [P.pure_ok] at h
  | some ts =>
    obtain ⟨hm, I, hI, a1⟩ := (hr _ _ _ _ _ h1).2 _ rfl
    obtain ⟨_, s2, h2, h⟩ := P.bind_ok.1 h
    obtain rfl := P.modify_ok.1 h2
    obtain ⟨h, rfl⟩ := P.pure_ok.1 h
    cases h
    exact ⟨hm, I, .pubReplace he hI, a1.trans_nil (Adv.of_eq rfl rfl rfl)⟩

theorem parseOr_reads (hr : RecReads env rec) {parts : List Nat}
    (h : parseOr rec pos parts s = .ok r s') :
    (r = none → Adv s s' []) ∧ ∀ p', r = some p' →
      Moves pos p' ∧ ∃ e I, e ∈ parts ∧ Derives env s.args (.expr e) pos.cur p'.cur I ∧
        Adv s s' I.encode := by
  induction parts generalizing s with
  | nil =>
    obtain ⟨rfl, rfl⟩ := P.pure_ok.1 h
    exact ⟨fun _ => Adv.refl _, by simp⟩
  | cons o os ih =>
    unfold parseOr at h
    obtain ⟨r1, s1, h1, h⟩ := P.bind_ok.1 h
    cases r1 with
    | some ts =>
      obtain ⟨rfl, rfl⟩ := P.pure_ok.1 h
      obtain ⟨hm, I, hI, a1⟩ := (hr _ _ _ _ _ h1).2 _ rfl
      refine ⟨by simp, ?_⟩
      rintro _ ⟨⟩
      exact ⟨hm, o, I, by simp, hI, a1⟩
    | none =>
      have a1 := (hr _ _ _ _ _ h1).1 rfl
      obtain ⟨h2, h3⟩ := ih h
      refine ⟨fun hn => a1.nil_trans (h2 hn), fun p' hp' => ?_⟩
      obtain ⟨hm, e, I, hmem, hI, a2⟩ := h3 p' hp'
      rw [a1.args] at hI
      exact ⟨hm, e, I, by simp [hmem], hI, a1.nil_trans a2⟩

/-- The loop of a sequence reads the first parts. -/
theorem andLoop_reads (hr : RecReads env rec) {parts : List Nat} {c c' : Nat}
    (h : andLoop rec parts c pos s = .ok (c', p') s') :
    ∃ ps qs, parts = ps ++ qs ∧ c' = c + ps.length ∧ Moves pos p' ∧
      ∃ I, Derives env s.args (.all ps) pos.cur p'.cur I ∧ Adv s s' I.encode := by
  induction parts generalizing s pos c with
  | nil =>
    obtain ⟨h, rfl⟩ := P.pure_ok.1 h
    cases h
    exact ⟨[], [], rfl, rfl, Moves.refl _, .nil, .allNil, Adv.refl _⟩
  | cons o os ih =>
    unfold andLoop at h
    obtain ⟨r1, s1, h1, h⟩ := P.bind_ok.1 h
    cases r1 with
    | some ts =>
      obtain ⟨hm, I, hI, a1⟩ := (hr _ _ _ _ _ h1).2 _ rfl
      obtain ⟨ps, qs, rfl, rfl, hm2, J, hJ, a2⟩ := ih h
      rw [a1.args] at hJ
      refine ⟨o :: ps, qs, rfl, by simp; omega, hm.trans hm2, I.append J, .allCons hI hJ, ?_⟩
      rw [Items.encode_append]
      exact a1.trans a2
    | none =>
      have a1 := (hr _ _ _ _ _ h1).1 rfl
      obtain ⟨h, rfl⟩ := P.pure_ok.1 h
      cases h
      exact ⟨[], o :: os, rfl, rfl, Moves.refl _, .nil, .allNil, a1⟩

theorem cond_ok {c : Bool} {m : P Unit} {u : Unit} (h : P.cond c m s = .ok u s') :
    (c = true ∧ m s = .ok u s') ∨ (c = false ∧ s' = s) := by
  unfold P.cond at h
  cases c with
  | true => exact Or.inl ⟨rfl, h⟩
  | false =>
    obtain ⟨_, rfl⟩ := P.pure_ok.1 h
    exact Or.inr ⟨rfl, rfl⟩

theorem parseAnd_reads (hr : RecReads env rec) {e : Nat} {parts : List Nat} {commit : Option Nat}
    (he : env.grammar.rules[e]? = some (.and parts commit))
    (h : parseAnd rec pos parts commit s = .ok (some p') s') :
    Reads env (.expr e) s pos s' p' := by
  unfold parseAnd at h
  obtain ⟨⟨c, q⟩, s1, h1, h⟩ := P.bind_ok.1 h
  obtain ⟨ps, qs, rfl, rfl, hm, I, hI, a1⟩ := andLoop_reads hr h1
  dsimp only at h
  split at h
  · simp [P.pure_ok] at h
  · rename_i hc
    obtain ⟨u, s2, h2, h⟩ := P.bind_ok.1 h
    obtain ⟨h, rfl⟩ := P.pure_ok.1 h
    cases h
    rcases cond_ok h2 with ⟨hlt, h2⟩ | ⟨hlt, rfl⟩
    · simp only [decide_eq_true_eq, List.length_append] at hlt
      have hq : qs ≠ [] := by intro h; simp [h] at hlt
      cases commit with
      | none => simp only [Option.getD_none, List.length_append] at hc; omega
      | some cm =>
        simp only [Option.getD_some] at hc
        refine ⟨hm, _, .andCommit he (by omega) hq hI, ?_⟩
        rw [Items.encode_append]
        exact a1.trans (errorNode_adv h2)
    · simp only [decide_eq_false_iff_not, List.length_append] at hlt
      have hq : qs = [] := by
        rw [← List.length_eq_zero_iff]; omega
      subst hq
      rw [List.append_nil] at he
      exact ⟨hm, I, .and he hI, a1⟩

theorem parseToken_reads {e ty : Nat} (he : env.grammar.rules[e]? = some (.token ty))
    (h : parseToken env pos ty s = .ok (some p') s') : Reads env (.expr e) s pos s' p' := by
  unfold parseToken at h
  obtain ⟨r, s1, h1, h⟩ := P.bind_ok.1 h
  obtain ⟨_, hs⟩ := bump_adv h1
  cases r with
  | none => simp [P.pure_ok] at h
  | some x =>
    obtain ⟨t, q⟩ := x
    obtain ⟨hne, rfl, ht, a1⟩ := hs _ _ rfl
    obtain ⟨t', s2, h2, h⟩ := P.bind_ok.1 h
    obtain ⟨ht', rfl⟩ := P.lift_ok.1 h2
    split at h
    · simp [P.pure_ok] at h
    · rename_i heq
      obtain ⟨h, rfl⟩ := P.pure_ok.1 h
      cases h
      simp only [ne_eq, Decidable.not_not] at heq
      subst heq
      exact ⟨moves_next hne, _, .token he ht' ht, a1⟩

theorem bumpByText_reads {e ty : Nat} {text : List Nat}
    (he : env.grammar.rules[e]? = some (.contextualToken ty text))
    (h : bumpByText env pos text ty s = .ok (some p') s') : Reads env (.expr e) s pos s' p' := by
  unfold bumpByText at h
  split at h
  · simp [P.pure_ok] at h
  · obtain ⟨⟨start, k⟩, s1, h1, h⟩ := P.bind_ok.1 h
    obtain ⟨hk, rfl⟩ := P.lift_ok.1 h1
    dsimp only at h
    split at h
    · exact (P.panic_ok.1 h).elim
    · split at h
      · simp [P.pure_ok] at h
      · rename_i hpre
        obtain ⟨r, s2, h2, h⟩ := P.bind_ok.1 h
        obtain ⟨rfl, hr⟩ := byTextLoop_ok rfl h2
        cases r with
        | none => simp [P.pure_ok] at h
        | some y =>
          obtain ⟨n, q⟩ := y
          obtain ⟨_, hq, hm, hlen⟩ := hr _ _ rfl
          obtain ⟨t, s3, h3, h⟩ := P.bind_ok.1 h
          obtain ⟨ht, rfl⟩ := P.lift_ok.1 h3
          obtain ⟨_, s4, h4, h⟩ := P.bind_ok.1 h
          obtain ⟨h, rfl⟩ := P.pure_ok.1 h
          cases h
          refine ⟨hm, .tok t n .nil, ?_, event_adv h4⟩
          rw [hq, Nat.sub_zero]
          rw [Nat.sub_zero] at hlen
          exact .contextual he ht ⟨⟨start, k, hk, by simpa using hpre⟩, hlen⟩

theorem parseOpt_reads (hr : RecReads env rec) {e body : Nat}
    (he : env.grammar.rules[e]? = some (.opt body))
    (h : parseOpt rec pos body s = .ok (some p') s') : Reads env (.expr e) s pos s' p' := by
  unfold parseOpt at h
  obtain ⟨r, s1, h1, h⟩ := P.bind_ok.1 h
  obtain ⟨h, rfl⟩ := P.pure_ok.1 h
  obtain ⟨hn, hs⟩ := hr _ _ _ _ _ h1
  cases r with
  | none =>
    cases h
    exact ⟨Moves.refl _, .nil, .optNone he, hn rfl⟩
  | some ts =>
    cases h
    obtain ⟨hm, I, hI, a1⟩ := hs _ rfl
    exact ⟨hm, I, .opt he hI, a1⟩

theorem parseNot_reads (hr : RecReads env rec) {e body : Nat}
    (he : env.grammar.rules[e]? = some (.not body))
    (h : parseNot rec pos body s = .ok (some p') s') : Reads env (.expr e) s pos s' p' := by
  unfold parseNot at h
  obtain ⟨r, s1, h1, h⟩ := P.bind_ok.1 h
  have a1 := (parseExprPred_adv hr h1).1
  cases r with
  | none =>
    obtain ⟨h, rfl⟩ := P.pure_ok.1 h
    cases h
    exact ⟨Moves.refl _, .nil, .not he, a1⟩
  | some ts => simp [P.pure_ok] at h

theorem parseLayer_reads (hr : RecReads env rec) {e l body : Nat}
    (he : env.grammar.rules[e]? = some (.layer l body))
    (h : parseLayer env rec pos l body s = .ok (some p') s') : Reads env (.expr e) s pos s' p' := by
  unfold parseLayer at h
  obtain ⟨r, s1, h1, h⟩ := P.bind_ok.1 h
  obtain ⟨a1, hl⟩ := parseExprPred_adv hr h1
  cases r with
  | none => simp [P.pure_ok] at h
  | some rest =>
    obtain ⟨hm, hle, L, hL⟩ := hl _ rfl
    obtain ⟨r2, s2, h2, h⟩ := P.bind_ok.1 h
    obtain ⟨hn, hs⟩ := hr _ _ _ _ _ h2
    obtain ⟨_, s3, h3, h⟩ := P.bind_ok.1 h
    obtain ⟨h, rfl⟩ := P.pure_ok.1 h
    cases h
    -- the end of what the body read
    have key : ∃ k I, (Derives env s.args (.expr body) pos.cur k I ∨ (k = pos.cur ∧ I = .nil)) ∧
        Adv s s2 I.encode ∧ r2.getD (cutSuffix pos p') = ⟨k, p'.cur⟩ ∧ k ≤ p'.cur := by
      cases r2 with
      | none => exact ⟨pos.cur, .nil, Or.inr ⟨rfl, rfl⟩, a1.nil_trans (hn rfl), rfl, hle⟩
      | some ts =>
        obtain ⟨hm2, I, hI, a2⟩ := hs _ rfl
        rw [a1.args] at hI
        refine ⟨ts.cur, I, Or.inl hI, a1.nil_trans a2, ?_, hm2.le hle⟩
        have := hm2.stop
        simp only [cutSuffix] at this
        simp only [Option.getD_some, ← this]
    obtain ⟨k, I, hI, a2, hk, hkle⟩ := key
    rw [hk] at h3
    refine ⟨hm, ?_⟩
    rcases cond_ok h3 with ⟨hne, h3⟩ | ⟨hne, rfl⟩
    · obtain ⟨_, s4, h4, h3⟩ := P.bind_ok.1 h3
      obtain ⟨_, s5, h5, h3⟩ := P.bind_ok.1 h3
      obtain ⟨_, S, hS, a5⟩ := bumpAllN_adv (args := s.args) h5
      have hlt : k < p'.cur := by
        simp [Pos.isEmpty] at hne
        omega
      have hadv := (((a2.trans (startError_adv h4)).trans a5).trans (event_adv h3))
      rcases hI with hI | ⟨rfl, rfl⟩
      · refine ⟨_, .layerLeftover he hL hI hlt hS, ?_⟩
        simpa [Items.encode_append, Items.encode] using hadv
      · refine ⟨_, .layerSkipped he hL hlt hS, ?_⟩
        simpa [Items.encode] using hadv
    · have hk' : k = p'.cur := by simpa [Pos.isEmpty] using hne
      subst hk'
      rcases hI with hI | ⟨hk, rfl⟩
      · exact ⟨I, .layer he hL hI, a2⟩
      · rw [hk] at hL ⊢
        exact ⟨.nil, .layerNone he hL, a2⟩

theorem repLoop_reads (hr : RecReads env rec) {body n : Nat}
    (h : repLoop rec body n pos s = .ok (some p') s') : Reads env (.many body) s pos s' p' := by
  induction n generalizing pos s with
  | zero => exact (P.timeout_ok.1 h).elim
  | succ n ih =>
    unfold repLoop at h
    obtain ⟨r, s1, h1, h⟩ := P.bind_ok.1 h
    obtain ⟨hn, hs⟩ := hr _ _ _ _ _ h1
    cases r with
    | none =>
      obtain ⟨h, rfl⟩ := P.pure_ok.1 h
      cases h
      exact ⟨Moves.refl _, .nil, .manyNil, hn rfl⟩
    | some ts =>
      obtain ⟨hm, I, hI, a1⟩ := hs _ rfl
      obtain ⟨hm2, J, hJ, a2⟩ := ih h
      rw [a1.args] at hJ
      refine ⟨hm.trans hm2, I.append J, .manyCons hI hJ, ?_⟩
      rw [Items.encode_append]
      exact a1.trans a2

theorem withSkipTry_reads (hr : RecReads env rec) {first body : Nat}
    (h : withSkipTry rec pos first body s = .ok r s') :
    (r = none → Adv s s' []) ∧ ∀ p', r = some p' → Reads env (.expr body) s pos s' p' := by
  unfold withSkipTry at h
  obtain ⟨r1, s1, h1, h⟩ := P.bind_ok.1 h
  have a1 := (parseExprPred_adv hr h1).1
  cases r1 with
  | none =>
    obtain ⟨rfl, rfl⟩ := P.pure_ok.1 h
    exact ⟨fun _ => a1, by simp⟩
  | some ts =>
    obtain ⟨hn, hs⟩ := hr _ _ _ _ _ h
    refine ⟨fun h => a1.nil_trans (hn h), fun p' hp' => ?_⟩
    obtain ⟨hm, I, hI, a2⟩ := hs p' hp'
    rw [a1.args] at hI
    exact ⟨hm, I, hI, a1.nil_trans a2⟩

/-- `reopen` undoes `finish`. -/
theorem reopen_adv {s1 : PState} {es : List Event} {u : Unit} (ha : Adv s s1 (es ++ [.fin]))
    (h : reopen s1 = .ok u s') : Adv s s' es := by
  unfold reopen at h
  by_cases hp : s.predicate = true
  · have hp1 : s1.predicate = true := ha.predicate.trans hp
    rw [if_pos hp1] at h
    cases h
    exact ⟨ha.predicate, ha.args, by rw [ha.pred hp]; simp [app, hp]⟩
  · have hp1 : ¬s1.predicate = true := by rw [ha.predicate]; exact hp
    rw [if_neg hp1] at h
    have hp' : s.predicate = false := by simpa using hp
    rw [ha.not_pred hp', ← List.append_assoc] at h
    simp only [List.getLast?_concat, List.dropLast_concat] at h
    cases h
    exact ⟨ha.predicate, ha.args, by simp [app, hp']⟩

/-- The skipping loop once something was skipped. -/
theorem withSkipLoop_skipped (hr : RecReads env rec) {first body n : Nat}
    (h : withSkipLoop env rec first body n true pos s = .ok (some p') s') :
    Moves pos p' ∧ ∃ k S I, Derives env s.args .skipped pos.cur k S ∧
      Derives env s.args (.expr body) k p'.cur I ∧ Adv s s' (S.encode ++ .fin :: I.encode) := by
  induction n generalizing pos s with
  | zero => exact (P.timeout_ok.1 h).elim
  | succ n ih =>
    unfold withSkipLoop at h
    obtain ⟨u, s1, h1, h⟩ := P.bind_ok.1 h
    have a1 : Adv s s1 [.fin] := event_adv h1
    obtain ⟨r, s2, h2, h⟩ := P.bind_ok.1 h
    obtain ⟨hn, hs⟩ := withSkipTry_reads hr h2
    cases r with
    | some ts =>
      obtain ⟨h, rfl⟩ := P.pure_ok.1 h
      cases h
      obtain ⟨hm, I, hI, a2⟩ := hs _ rfl
      rw [a1.args] at hI
      exact ⟨hm, pos.cur, .nil, I, .skippedNil, hI, a1.trans a2⟩
    | none =>
      obtain ⟨u, s3, h3, h⟩ := P.bind_ok.1 h
      have a3 : Adv s s3 [] := reopen_adv (es := []) (a1.trans_nil (hn rfl)) h3
      obtain ⟨r, s4, h4, h⟩ := P.bind_ok.1 h
      obtain ⟨_, hs⟩ := bump_adv h4
      cases r with
      | none => simp [P.pure_ok] at h
      | some x =>
        obtain ⟨t, q⟩ := x
        obtain ⟨hne, rfl, ht, a4⟩ := hs _ _ rfl
        obtain ⟨hm, k, S, I, hS, hI, a5⟩ := ih h
        have hargs : s4.args = s.args := (a3.trans a4).args
        rw [hargs] at hS hI
        refine ⟨(moves_next hne).trans hm, k, .tok t 1 S, I, .skippedCons ht hS, hI, ?_⟩
        exact a3.nil_trans (a4.trans a5)

theorem withSkipLoop_reads (hr : RecReads env rec) {e first body n : Nat}
    (he : env.grammar.rules[e]? = some (.withSkip first body))
    (h : withSkipLoop env rec first body n false pos s = .ok (some p') s') :
    Reads env (.expr e) s pos s' p' := by
  cases n with
  | zero => exact (P.timeout_ok.1 h).elim
  | succ n =>
    unfold withSkipLoop at h
    rw [P.bind_ok] at h
    obtain ⟨u, s1, h1, h⟩ := h
    rcases cond_ok h1 with ⟨h1, _⟩ | ⟨_, rfl⟩
    · simp at h1
    rw [P.bind_ok] at h
    obtain ⟨r, s2, h2, h⟩ := h
    obtain ⟨hn, hs⟩ := withSkipTry_reads hr h2
    cases r with
    | some ts =>
      obtain ⟨h, rfl⟩ := P.pure_ok.1 h
      cases h
      obtain ⟨hm, I, hI, a2⟩ := hs _ rfl
      exact ⟨hm, I, .withSkip he hI, a2⟩
    | none =>
      obtain ⟨u, s3, h3, h⟩ := P.bind_ok.1 h
      have a3 := (hn rfl).nil_trans (startError_adv h3)
      obtain ⟨r, s4, h4, h⟩ := P.bind_ok.1 h
      obtain ⟨_, hs⟩ := bump_adv h4
      cases r with
      | none => simp [P.pure_ok] at h
      | some x =>
        obtain ⟨t, q⟩ := x
        obtain ⟨hne, rfl, ht, a4⟩ := hs _ _ rfl
        obtain ⟨hm, k, S, I, hS, hI, a5⟩ := withSkipLoop_skipped hr h
        have hargs : s4.args = s1.args := (a3.trans a4).args
        rw [hargs] at hS hI
        have hk := hS.toks
        simp only [Pos.next] at hk
        refine ⟨(moves_next hne).trans hm, _,
          .withSkipSkipped he (by omega) (.skippedCons ht hS) hI, ?_⟩
        have := a3.trans (a4.trans a5)
        simpa [Items.encode] using this

theorem parseWithContext_reads (hr : RecReads env rec) {ctx body : Nat} {v : Bool}
    (h : parseWithContext rec pos ctx body v s = .ok (some p') s') :
    Reads env (.expr body) s pos s' p' := by
  unfold parseWithContext at h
  obtain ⟨s0, s1, h1, hs⟩ := P.bind_ok.1 h
  obtain ⟨rfl, rfl⟩ := P.get_ok.1 h1
  obtain ⟨old, s2, h2, hs⟩ := P.bind_ok.1 hs
  obtain ⟨ho, rfl⟩ := P.lift_ok.1 h2
  obtain ⟨_, s3, h3, hs⟩ := P.bind_ok.1 hs
  obtain rfl := P.modify_ok.1 h3
  obtain ⟨r, s4, h4, hs⟩ := P.bind_ok.1 hs
  obtain ⟨_, s5, h5, hs⟩ := P.bind_ok.1 hs
  obtain rfl := P.modify_ok.1 h5
  obtain ⟨rfl, rfl⟩ := P.pure_ok.1 hs
  obtain ⟨hm, I, hI, a⟩ := (hr _ _ _ _ _ h4).2 _ rfl
  exact ⟨hm, I, hI, ⟨a.predicate, a.args, a.events⟩⟩

theorem parseIsIn_reads {e ctx : Nat} (he : env.grammar.rules[e]? = some (.isIn ctx))
    (h : parseIsIn pos ctx s = .ok (some p') s') : Reads env (.expr e) s pos s' p' := by
  unfold parseIsIn at h
  obtain ⟨s0, s1, h1, hs⟩ := P.bind_ok.1 h
  obtain ⟨rfl, rfl⟩ := P.get_ok.1 h1
  rw [P.bind_ok] at hs
  obtain ⟨b, s2, h2, hs⟩ := hs
  obtain ⟨ho, rfl⟩ := P.lift_ok.1 h2
  split at hs
  · obtain ⟨hq, rfl⟩ := P.pure_ok.1 hs
    cases hq
    exact ⟨Moves.refl _, .nil, .isIn he, Adv.refl _⟩
  · simp [P.pure_ok] at hs

theorem parseCall_reads (hr : RecReads env rec) {e body : Nat} {as : List (Nat × Nat)}
    (he : env.grammar.rules[e]? = some (.call body as))
    (h : parseCall env rec pos body as s = .ok (some p') s') : Reads env (.expr e) s pos s' p' := by
  unfold parseCall at h
  obtain ⟨s0, s1, h1, hs⟩ := P.bind_ok.1 h
  obtain ⟨rfl, rfl⟩ := P.get_ok.1 h1
  obtain ⟨_, s2, h2, hs⟩ := P.bind_ok.1 hs
  have hb := setArgs_bind _ _ _ h2
  obtain ⟨a, rfl⟩ := setArgs_state _ _ _ h2
  obtain ⟨r, s3, h3, hs⟩ := P.bind_ok.1 hs
  obtain ⟨_, s4, h4, hs⟩ := P.bind_ok.1 hs
  obtain rfl := P.modify_ok.1 h4
  obtain ⟨rfl, rfl⟩ := P.pure_ok.1 hs
  obtain ⟨hm, I, hI, a⟩ := (hr _ _ _ _ _ h3).2 _ rfl
  exact ⟨hm, I, .call he hb hI, ⟨a.predicate, rfl, a.events⟩⟩

theorem parseVar_reads (hr : RecReads env rec) {e i : Nat}
    (he : env.grammar.rules[e]? = some (.var i))
    (h : parseVar rec pos i s = .ok (some p') s') : Reads env (.expr e) s pos s' p' := by
  unfold parseVar at h
  obtain ⟨s0, s1, h1, hs⟩ := P.bind_ok.1 h
  obtain ⟨rfl, rfl⟩ := P.get_ok.1 h1
  obtain ⟨b, s2, h2, hs⟩ := P.bind_ok.1 hs
  obtain ⟨ho, rfl⟩ := P.lift_ok.1 h2
  obtain ⟨hm, I, hI, a⟩ := (hr _ _ _ _ _ hs).2 _ rfl
  have : s0.args[i]? = some (some b) := by
    cases hi : s0.args[i]? with
    | none => simp [hi] at ho
    | some o => simp [hi] at ho; rw [ho]
  exact ⟨hm, I, .var he this hI, a⟩

theorem prevIsLoop_ok {p : NodeType} {tys : List Nat}
    (h : prevIsLoop env p pos tys s = .ok r s') : s' = s ∧ ∀ p', r = some p' → p' = pos := by
  induction tys with
  | nil =>
    obtain ⟨rfl, rfl⟩ := P.pure_ok.1 h
    exact ⟨rfl, by simp⟩
  | cons t tys ih =>
    unfold prevIsLoop at h
    obtain ⟨t, s1, h1, h⟩ := P.bind_ok.1 h
    obtain ⟨_, rfl⟩ := P.lift_ok.1 h1
    split at h
    · obtain ⟨rfl, rfl⟩ := P.pure_ok.1 h
      exact ⟨rfl, by simp⟩
    · exact ih h

theorem parsePrevIs_reads {e : Nat} {tys : List Nat}
    (he : env.grammar.rules[e]? = some (.prevIs tys))
    (h : parsePrevIs env pos tys s = .ok (some p') s') : Reads env (.expr e) s pos s' p' := by
  unfold parsePrevIs at h
  obtain ⟨s0, s1, h1, h⟩ := P.bind_ok.1 h
  obtain ⟨rfl, rfl⟩ := P.get_ok.1 h1
  cases hprev : s0.prev with
  | some q =>
    rw [hprev] at h
    obtain ⟨rfl, hp⟩ := prevIsLoop_ok h
    obtain rfl := hp _ rfl
    exact ⟨Moves.refl _, .nil, .prevIs he, Adv.refl _⟩
  | none =>
    rw [hprev] at h
    simp [P.pure_ok] at h

/-- Linking the node at the beginning of `I` to what comes after `I`. -/
theorem forwardParent_adv {s0 s1 : PState} {I : Items} {J : List Event} {u : Unit} {k : Nat}
    (ha : Adv s0 s1 (I.encode ++ J)) (hI : I ≠ .nil)
    (hk : s0.predicate = false → k = s0.events.length + I.encode.length)
    (h : forwardParent s0.events.length k s1 = .ok u s') :
    s0.predicate = false ∧ ∃ ty fp tl, I.encode = .start ty fp :: tl ∧
      Adv s0 s' (.start ty (some I.encode.length) :: (tl ++ J)) := by
  unfold forwardParent at h
  by_cases hp : s0.predicate = true
  · rw [ha.pred hp] at h
    simp at h
  · have hp' : s0.predicate = false := by simpa using hp
    rw [ha.not_pred hp'] at h
    cases hE : I.encode with
    | nil => exact absurd (Items.encode_eq_nil hE) hI
    | cons ev tl =>
      rw [hE] at h
      simp only [List.cons_append, get_mark, set_mark] at h
      cases ev with
      | start ty fp =>
        simp only at h
        split at h
        · cases h
          refine ⟨hp', ty, fp, tl, rfl, ha.predicate, ha.args, ?_⟩
          simp only [app, hp']
          rw [hk hp', hE]
          simp
        · cases h
      | token ty n => simp at h
      | fin => simp at h
      | cached k n => simp at h

theorem parseInject_reads (hr : RecReads env rec) {e pre body : Nat}
    (he : env.grammar.rules[e]? = some (.inject pre body))
    (h : parseInject rec pos pre body s = .ok (some p') s') :
    Reads env (.expr e) s pos s' p' := by
  unfold parseInject at h
  obtain ⟨m, s1, h1, h⟩ := P.bind_ok.1 h
  obtain ⟨rfl, rfl⟩ := mark_ok h1
  obtain ⟨r, s2, h2, h⟩ := P.bind_ok.1 h
  cases r with
  | none => simp [P.pure_ok] at h
  | some q =>
    obtain ⟨hm, I, hI, a2⟩ := (hr _ _ _ _ _ h2).2 _ rfl
    obtain ⟨m, s3, h3, h⟩ := P.bind_ok.1 h
    obtain ⟨rfl, rfl⟩ := mark_ok h3
    obtain ⟨r, s4, h4, h⟩ := P.bind_ok.1 h
    cases r with
    | none => simp [P.pure_ok] at h
    | some q' =>
      obtain ⟨hm2, J, hJ, a4⟩ := (hr _ _ _ _ _ h4).2 _ rfl
      rw [a2.args] at hJ
      obtain ⟨u, s5, h5, h⟩ := P.bind_ok.1 h
      obtain ⟨h, rfl⟩ := P.pure_ok.1 h
      cases h
      refine ⟨hm.trans hm2, ?_⟩
      have hcur := hI.expr_toks
      rcases cond_ok h5 with ⟨hne, h5⟩ | ⟨hne, rfl⟩
      · have hlt : pos.cur < q.cur := by
          rcases Nat.lt_or_ge pos.cur q.cur with h | h
          · exact h
          · exfalso
            have h1 : q.cur = pos.cur := by omega
            have h2 := hm.stop
            have : q = pos := by
              cases q; cases pos; simp_all
            simp [this] at hne
        have hIn : I ≠ .nil := by
          rintro rfl
          simp [Items.toks] at hcur
          omega
        have hk : s1.predicate = false → s3.events.length = s1.events.length + I.encode.length := by
          intro hp
          rw [a2.not_pred hp, List.length_append]
        obtain ⟨hp, ty, fp, tl, hE, a5⟩ := forwardParent_adv (a2.trans a4) hIn hk h5
        refine ⟨I.under J, .injectLinked he hlt hI (Items.opens_of_encode hE) hJ, ?_⟩
        rw [Items.encode_under hE]
        exact a5
      · have hq : q = pos := by simpa using hne
        subst hq
        refine ⟨I.append J, .inject he hI hJ, ?_⟩
        rw [Items.encode_append]
        exact a2.trans a4

theorem parseCached_reads (hr : RecReads env rec) (hc : env.cache = none) {e body : Nat}
    (he : env.grammar.rules[e]? = some (.cached body))
    (h : parseCached env rec pos body s = .ok (some p') s') :
    Reads env (.expr e) s pos s' p' := by
  unfold parseCached at h
  obtain ⟨m, s1, h1, h⟩ := P.bind_ok.1 h
  unfold startCached at h1
  obtain ⟨m', s2, h2, h1⟩ := P.bind_ok.1 h1
  obtain ⟨rfl, rfl⟩ := mark_ok h2
  obtain ⟨_, s3, h3, h1⟩ := P.bind_ok.1 h1
  obtain ⟨rfl, rfl⟩ := P.pure_ok.1 h1
  have a1 := event_adv h3
  obtain ⟨r, s4, h4, h⟩ := P.bind_ok.1 h
  have h4' : rec body pos s3 = .ok r s4 := by
    unfold cachedOrParse getFromCache at h4
    rw [hc] at h4
    exact h4
  cases r with
  | none => simp [P.pure_ok] at h
  | some q =>
    obtain ⟨hm, I, hI, a2⟩ := (hr _ _ _ _ _ h4').2 _ rfl
    rw [a1.args] at hI
    obtain ⟨_, s5, h5, h⟩ := P.bind_ok.1 h
    obtain ⟨h, rfl⟩ := P.pure_ok.1 h
    cases h
    refine ⟨hm, .cached body I .nil, .cached he hI, ?_⟩
    have a := a1.trans a2
    unfold finishCached at h5
    by_cases hp : s2.predicate = true
    · have hp4 : s4.predicate = true := a.predicate.trans hp
      rw [if_pos hp4] at h5
      cases h5
      exact ⟨a.predicate, a.args, by rw [a.events]; simp [app, hp]⟩
    · have hp4 : ¬s4.predicate = true := by rw [a.predicate]; exact hp
      have hp' : s2.predicate = false := by simpa using hp
      rw [if_neg hp4, a.not_pred hp'] at h5
      simp only [List.cons_append, List.nil_append, get_mark, set_mark] at h5
      cases h5
      refine ⟨a.predicate, a.args, ?_⟩
      simp only [app, hp', Items.encode, List.append_nil]
      simp
      omega

/-- What `pratt_go` reads. -/
def GoReads (env : Env) (table : PrattTable) (go : Pos → Nat → P (Option Pos)) : Prop :=
  ∀ pos p s r s', go pos p s = .ok r s' →
    (r = none → Adv s s' []) ∧ ∀ p', r = some p' → Reads env (.pratt table p) s pos s' p'

variable {go : Pos → Nat → P (Option Pos)} {table : PrattTable}

theorem prattRhs_reads (hg : GoReads env table go) {ix : Infix}
    (h : prattRhs go ix pos s = .ok p' s') : Reads env (.rhs table ix) s pos s' p' := by
  unfold prattRhs at h
  split at h
  · rename_i hrhs
    obtain ⟨r, s1, h1, h⟩ := P.bind_ok.1 h
    obtain ⟨hn, hs⟩ := hg _ _ _ _ _ h1
    cases r with
    | some q =>
      obtain ⟨rfl, rfl⟩ := P.pure_ok.1 h
      obtain ⟨hm, I, hI, a⟩ := hs _ rfl
      exact ⟨hm, I, .rhsSome hrhs hI, a⟩
    | none =>
      obtain ⟨_, s2, h2, h⟩ := P.bind_ok.1 h
      obtain ⟨_, s3, h3, h⟩ := P.bind_ok.1 h
      obtain ⟨rfl, rfl⟩ := P.pure_ok.1 h
      exact ⟨Moves.refl _, _, .rhsMissing hrhs,
        (hn rfl).nil_trans ((startError_adv h2).trans (event_adv h3))⟩
  · rename_i hrhs
    obtain ⟨rfl, rfl⟩ := P.pure_ok.1 h
    exact ⟨Moves.refl _, .nil, .rhsNone (by simpa using hrhs), Adv.refl _⟩

/-- `rollback` to the mark taken in `s0`. -/
theorem rollback_adv {s0 s1 : PState} {es : List Event} {u : Unit} (ha : Adv s0 s1 es)
    (h : rollback s0.events.length s1 = .ok u s') : Adv s0 s' [] := by
  unfold rollback at h
  split at h
  · cases h
    refine ⟨ha.predicate, ha.args, ?_⟩
    simp only [ha.events, app]
    cases s0.predicate <;> simp
  · cases h

/-- One round of the operator loop. `s0` is the state in which the operand `lhs` started. -/
theorem prattInfixes_reads (hr : RecReads env rec) (hg : GoReads env table go) {minPrior : Nat}
    {ixs : List Infix} (hix : ∀ ix ∈ ixs, ix ∈ table.infixes ∧ minPrior ≤ ix.priority)
    {s0 : PState} {lhs : Items} (ha : Adv s0 s lhs.encode) {r : Option (Nat × Pos)}
    (h : prattInfixes env rec go s0.events.length pos ixs s = .ok r s') :
    (r = none → Adv s s' []) ∧ ∀ l q, r = some (l, q) →
      s0.predicate = false ∧ Moves pos q ∧
      ∃ ix t k A B, (ix ∈ table.infixes ∧ minPrior ≤ ix.priority) ∧
        env.grammar.nodeTypes[ix.ty]? = some t ∧
        Derives env s0.args (.expr ix.op) pos.cur k A ∧
        Derives env s0.args (.rhs table ix) k q.cur B ∧
        ((lhs = .nil ∧ l = s0.events.length ∧ Adv s0 s' (Items.loop t (A.append B) .nil).encode) ∨
          ∃ ty fp tl, lhs.encode = .start ty fp :: tl ∧ l = s0.events.length + lhs.encode.length ∧
            Adv s0 s' (.start ty (some lhs.encode.length) ::
              (tl ++ (Items.node t (A.append B) .nil).encode))) := by
  induction ixs generalizing s with
  | nil =>
    obtain ⟨rfl, rfl⟩ := P.pure_ok.1 h
    exact ⟨fun _ => Adv.refl _, by simp⟩
  | cons ix ixs ih =>
    unfold prattInfixes at h
    obtain ⟨nl, s1, h1, h⟩ := P.bind_ok.1 h
    obtain ⟨rfl, rfl⟩ := mark_ok h1
    obtain ⟨m, s2, h2, h⟩ := P.bind_ok.1 h
    obtain ⟨t, ht, rfl, a2⟩ := start_adv h2
    obtain ⟨r1, s3, h3, h⟩ := P.bind_ok.1 h
    obtain ⟨hn, hs⟩ := hr _ _ _ _ _ h3
    cases r1 with
    | none =>
      obtain ⟨_, s4, h4, h⟩ := P.bind_ok.1 h
      have a4 := rollback_adv (a2.trans_nil (hn rfl)) h4
      obtain ⟨h5, h6⟩ := ih (fun ix h => hix ix (List.mem_cons_of_mem _ h)) (ha.trans_nil a4) h
      exact ⟨fun hr => a4.nil_trans (h5 hr), h6⟩
    | some q1 =>
      obtain ⟨hm, A, hA, a3⟩ := hs _ rfl
      obtain ⟨_, s4, h4, h⟩ := P.bind_ok.1 h
      obtain ⟨q2, s5, h5, h⟩ := P.bind_ok.1 h
      obtain ⟨hm2, B, hB, a5⟩ := prattRhs_reads hg h5
      obtain ⟨_, s6, h6, h⟩ := P.bind_ok.1 h
      obtain ⟨_, rfl⟩ := P.lift_ok.1 h6
      obtain ⟨_, s7, h7, h⟩ := P.bind_ok.1 h
      obtain rfl := P.modify_ok.1 h7
      obtain ⟨_, s8, h8, h⟩ := P.bind_ok.1 h
      have a8 := event_adv h8
      obtain ⟨rfl, rfl⟩ := P.pure_ok.1 h
      refine ⟨by simp, ?_⟩
      rintro l q h
      simp only [Option.some.injEq, Prod.mk.injEq] at h
      obtain ⟨rfl, rfl⟩ := h
      have aopen := ha.trans (a2.trans a3)
      have hargs2 : s2.args = s0.args := a2.args.trans ha.args
      rw [hargs2] at hA
      by_cases hp : s0.predicate = true
      · -- in lookahead there is no event to link
        exfalso
        unfold forwardParent at h4
        rw [aopen.pred hp] at h4
        simp at h4
      have hp' : s0.predicate = false := by simpa using hp
      have hlen : s1.events.length = s0.events.length + lhs.encode.length := by
        rw [ha.not_pred hp', List.length_append]
      -- the state after linking
      have key : (lhs = .nil ∧ Adv s0 s4 (.start t (some 0) :: A.encode)) ∨
          ∃ ty fp tl, lhs.encode = .start ty fp :: tl ∧ Adv s0 s4 (.start ty
            (some lhs.encode.length) :: (tl ++ .start t none :: A.encode)) := by
        by_cases hl : lhs = .nil
        · left
          subst hl
          refine ⟨rfl, ?_⟩
          unfold forwardParent at h4
          rw [aopen.not_pred hp'] at h4
          simp only [Items.encode, List.nil_append, List.cons_append, get_mark, set_mark] at h4
          simp only [Items.encode, List.length_nil, Nat.add_zero] at hlen
          rw [hlen] at h4
          simp only [Nat.le_refl, if_true, Nat.sub_self] at h4
          cases h4
          exact ⟨aopen.predicate, aopen.args, by simp [app, hp']⟩
        · right
          obtain ⟨_, ty, fp, tl, hE, a4⟩ := forwardParent_adv aopen hl (fun _ => hlen) h4
          exact ⟨ty, fp, tl, hE, a4⟩
      refine ⟨hp', hm.trans hm2, ix, t, q1.cur, A, B, hix ix (by simp), ht, hA, ?_⟩
      rcases key with ⟨rfl, a4⟩ | ⟨ty, fp, tl, hE, a4⟩
      · have hargs : s4.args = s0.args := a4.args
        rw [hargs] at hB
        refine ⟨hB, Or.inl ⟨rfl, by simp [hlen, Items.encode], ?_⟩⟩
        have := (a4.trans a5).setPrev.trans a8
        simpa [Items.encode, Items.encode_append] using this
      · have hargs : s4.args = s0.args := a4.args
        rw [hargs] at hB
        refine ⟨hB, Or.inr ⟨ty, fp, tl, hE, hlen, ?_⟩⟩
        have := (a4.trans a5).setPrev.trans a8
        simpa [Items.encode, Items.encode_append] using this

theorem prattLoop_reads (hr : RecReads env rec) (hg : GoReads env table go) {minPrior n : Nat}
    {s0 : PState} {lhs : Items} (ha : Adv s0 s lhs.encode)
    (h : prattLoop env rec go table minPrior n s0.events.length pos s = .ok (some p') s') :
    Moves pos p' ∧ ∃ J, Derives env s0.args (.chain table minPrior lhs) pos.cur p'.cur J ∧
      Adv s0 s' J.encode := by
  induction n generalizing s s0 lhs pos with
  | zero => exact (P.timeout_ok.1 h).elim
  | succ n ih =>
    unfold prattLoop at h
    obtain ⟨r, s1, h1, h⟩ := P.bind_ok.1 h
    have hix : ∀ ix ∈ table.infixesFrom minPrior, ix ∈ table.infixes ∧ minPrior ≤ ix.priority := by
      intro ix hix
      simpa [PrattTable.infixesFrom] using hix
    obtain ⟨hn, hs⟩ := prattInfixes_reads hr hg hix ha h1
    cases r with
    | none =>
      obtain ⟨h, rfl⟩ := P.pure_ok.1 h
      cases h
      exact ⟨Moves.refl _, lhs, .chainEnd, ha.trans_nil (hn rfl)⟩
    | some x =>
      obtain ⟨l, q⟩ := x
      obtain ⟨hp, hm, ix, t, k, A, B, ⟨hmem, hprior⟩, ht, hA, hB, hcase⟩ := hs _ _ rfl
      rcases hcase with ⟨rfl, rfl, a1⟩ | ⟨ty, fp, tl, hE, rfl, a1⟩
      · obtain ⟨hm2, J, hJ, a2⟩ := ih a1 h
        exact ⟨hm.trans hm2, J, .chainLoop hmem hprior ht hA hB hJ, a2⟩
      · -- the state in which the operator's node started
        let F : List Event := .start ty (some lhs.encode.length) :: tl
        let s2 : PState := { s0 with events := s0.events ++ F }
        have hF : lhs.encode.length = F.length := by simp [F, hE]
        have a1' : Adv s2 s1 (Items.node t (A.append B) .nil).encode := by
          refine ⟨a1.predicate, a1.args, ?_⟩
          rw [a1.events]
          simp [app, hp, s2, F]
        have hl : s0.events.length + lhs.encode.length = s2.events.length := by
          simp [s2, hF]
        rw [hl] at h
        obtain ⟨hm2, J, hJ, a2⟩ := ih a1' h
        refine ⟨hm.trans hm2, lhs.under J,
          .chainOp hmem hprior ht hA hB (Items.opens_of_encode hE) hJ, ?_⟩
        rw [Items.encode_under hE]
        refine ⟨a2.predicate, a2.args, ?_⟩
        rw [a2.events]
        simp [app, hp, s2, F]

theorem prattPrefixes_reads (hr : RecReads env rec) (hg : GoReads env table go) {pfs : List Prefix}
    (hpf : ∀ pf ∈ pfs, pf ∈ table.prefixes)
    (h : prattPrefixes env rec go pos pfs s = .ok r s') :
    (r = none → Adv s s' []) ∧ ∀ p', r = some p' → Reads env (.operand table) s pos s' p' := by
  induction pfs generalizing s with
  | nil =>
    obtain ⟨rfl, rfl⟩ := P.pure_ok.1 h
    exact ⟨fun _ => Adv.refl _, by simp⟩
  | cons pf pfs ih =>
    unfold prattPrefixes at h
    obtain ⟨m, s1, h1, h⟩ := P.bind_ok.1 h
    obtain ⟨t, ht, rfl, a1⟩ := start_adv h1
    obtain ⟨r1, s2, h2, h⟩ := P.bind_ok.1 h
    unfold prattOperand at h2
    obtain ⟨r2, s3, h3, h2⟩ := P.bind_ok.1 h2
    obtain ⟨hn, hs⟩ := hr _ _ _ _ _ h3
    have hnone : ∀ es, Adv s s2 es → r1 = none → (r = none → Adv s s' []) ∧
        ∀ p', r = some p' → Reads env (.operand table) s pos s' p' := by
      rintro es a rfl
      obtain ⟨_, s4, h4, h⟩ := P.bind_ok.1 h
      have a4 := rollback_adv a h4
      obtain ⟨h5, h6⟩ := ih (fun pf h => hpf pf (List.mem_cons_of_mem _ h)) h
      refine ⟨fun hr => a4.nil_trans (h5 hr), fun p' hp' => ?_⟩
      obtain ⟨hm, I, hI, a5⟩ := h6 p' hp'
      rw [a4.args] at hI
      exact ⟨hm, I, hI, a4.nil_trans a5⟩
    cases r2 with
    | none =>
      obtain ⟨hr1, rfl⟩ := P.pure_ok.1 h2
      exact hnone _ (a1.trans_nil (hn rfl)) hr1.symm
    | some q =>
      obtain ⟨hm, I, hI, a3⟩ := hs _ rfl
      obtain ⟨hgn, hgs⟩ := hg _ _ _ _ _ h2
      cases r1 with
      | none => exact hnone _ ((a1.trans a3).trans_nil (hgn rfl)) rfl
      | some q2 =>
        obtain ⟨hm2, J, hJ, a4⟩ := hgs _ rfl
        obtain ⟨_, s6, h6, h⟩ := P.bind_ok.1 h
        obtain ⟨_, rfl⟩ := P.lift_ok.1 h6
        obtain ⟨_, s7, h7, h⟩ := P.bind_ok.1 h
        obtain rfl := P.modify_ok.1 h7
        obtain ⟨_, s8, h8, h⟩ := P.bind_ok.1 h
        have a8 := event_adv h8
        obtain ⟨rfl, rfl⟩ := P.pure_ok.1 h
        refine ⟨by simp, ?_⟩
        rintro _ ⟨⟩
        have hargs1 : s1.args = s.args := a1.args
        have hargs2 : s3.args = s.args := (a1.trans a3).args
        rw [hargs1] at hI
        rw [hargs2] at hJ
        refine ⟨hm.trans hm2, _, .prefixOp (hpf pf (by simp)) ht hI hJ, ?_⟩
        have := (a1.trans (a3.trans a4)).setPrev.trans a8
        simpa [Items.encode, Items.encode_append] using this

theorem prattGo_reads (hr : RecReads env rec) {n : Nat} : GoReads env table (prattGo env rec table n) := by
  induction n with
  | zero => exact fun _ _ _ _ _ h => (P.timeout_ok.1 h).elim
  | succ n ih =>
    intro pos minPrior s r s' h
    unfold prattGo at h
    obtain ⟨m, s1, h1, h⟩ := P.bind_ok.1 h
    obtain ⟨rfl, rfl⟩ := mark_ok h1
    obtain ⟨r1, s2, h2, h⟩ := P.bind_ok.1 h
    unfold prattPrefix at h2
    obtain ⟨r3, s3, h3, h2⟩ := P.bind_ok.1 h2
    obtain ⟨hn, hs⟩ := parseOr_reads hr h3
    have key : (r1 = none → Adv s1 s2 []) ∧
        ∀ p', r1 = some p' → Reads env (.operand table) s1 pos s2 p' := by
      cases r3 with
      | some q =>
        obtain ⟨rfl, rfl⟩ := P.pure_ok.1 h2
        refine ⟨by simp, ?_⟩
        rintro _ ⟨⟩
        obtain ⟨hm, e, I, hmem, hI, a⟩ := hs _ rfl
        exact ⟨hm, I, .atom hmem hI, a⟩
      | none =>
        have a := hn rfl
        obtain ⟨h5, h6⟩ := prattPrefixes_reads hr ih (fun _ h => h) h2
        refine ⟨fun hr => a.nil_trans (h5 hr), fun p' hp' => ?_⟩
        obtain ⟨hm, I, hI, a5⟩ := h6 p' hp'
        rw [a.args] at hI
        exact ⟨hm, I, hI, a.nil_trans a5⟩
    cases r1 with
    | none =>
      obtain ⟨rfl, rfl⟩ := P.pure_ok.1 h
      exact ⟨fun _ => key.1 rfl, by simp⟩
    | some q =>
      obtain ⟨hm, I, hI, a⟩ := key.2 _ rfl
      cases r with
      | none =>
        exfalso
        exact prattLoop_some h
      | some p' =>
        refine ⟨by simp, ?_⟩
        rintro _ ⟨⟩
        obtain ⟨hm2, J, hJ, a2⟩ := prattLoop_reads hr ih a h
        exact ⟨hm.trans hm2, J, .prattChain hI hJ, a2⟩
where
  prattLoop_some {table : PrattTable} {go : Pos → Nat → P (Option Pos)} {p n m : Nat} {pos : Pos}
      {s s' : PState} (h : prattLoop env rec go table p n m pos s = .ok none s') : False := by
    induction n generalizing m pos s with
    | zero => exact (P.timeout_ok.1 h).elim
    | succ n ih =>
      unfold prattLoop at h
      obtain ⟨r, s1, h1, h⟩ := P.bind_ok.1 h
      cases r with
      | none => simp [P.pure_ok] at h
      | some x => exact ih h

theorem parseExprInner_reads (hr : RecReads env rec) (hst : RecStays env.grammar rec) (hc : env.cache = none) {n e : Nat}
    (h : parseExprInner env rec n e pos s = .ok (some p') s') :
    Reads env (.expr e) s pos s' p' := by
  unfold parseExprInner at h
  obtain ⟨ex, s1, h1, h⟩ := P.bind_ok.1 h
  obtain ⟨he, rfl⟩ := P.lift_ok.1 h1
  cases ex with
  | pub ty body b => exact parsePub_reads hr hst he h
  | pubReplace ty body => exact parsePubReplace_reads hr he h
  | or parts =>
    obtain ⟨hm, o, I, hmem, hI, a⟩ := (parseOr_reads hr h).2 _ rfl
    exact ⟨hm, I, .or he hmem hI, a⟩
  | and parts c => exact parseAnd_reads hr he h
  | token ty => exact parseToken_reads he h
  | contextualToken ty text => exact bumpByText_reads he h
  | rep body =>
    obtain ⟨hm, I, hI, a⟩ := repLoop_reads hr h
    exact ⟨hm, I, .rep he hI, a⟩
  | withSkip f b => exact withSkipLoop_reads hr he h
  | opt b => exact parseOpt_reads hr he h
  | not e => exact parseNot_reads hr he h
  | eof =>
    obtain ⟨hq, rfl⟩ := P.pure_ok.1 h
    cases hem : pos.isEmpty with
    | true =>
      simp only [hem, if_true, Option.some.injEq] at hq
      subst hq
      exact ⟨Moves.refl _, .nil, .eof he, Adv.refl _⟩
    | false => simp [hem] at hq
  | any =>
    obtain ⟨r, s2, h2, h⟩ := P.bind_ok.1 h
    obtain ⟨_, hs⟩ := bump_adv h2
    cases r with
    | none => simp [P.pure_ok] at h
    | some x =>
      obtain ⟨t, q⟩ := x
      obtain ⟨hne, rfl, ht, a⟩ := hs _ _ rfl
      obtain ⟨h, rfl⟩ := P.pure_ok.1 h
      cases h
      exact ⟨moves_next hne, _, .any he ht, a⟩
  | layer l e => exact parseLayer_reads hr he h
  | pratt t =>
    obtain ⟨hm, I, hI, a⟩ := (prattGo_reads hr _ _ _ _ _ h).2 _ rfl
    exact ⟨hm, I, .pratt he hI, a⟩
  | enter c e =>
    obtain ⟨hm, I, hI, a⟩ := parseWithContext_reads hr h
    exact ⟨hm, I, .enter he hI, a⟩
  | exit c e =>
    obtain ⟨hm, I, hI, a⟩ := parseWithContext_reads hr h
    exact ⟨hm, I, .exit he hI, a⟩
  | isIn c => exact parseIsIn_reads he h
  | call b args => exact parseCall_reads hr he h
  | var i => exact parseVar_reads hr he h
  | prevIs tys => exact parsePrevIs_reads he h
  | inject p b => exact parseInject_reads hr he h
  | cached b => exact parseCached_reads hr hc he h

/-- Without a cache, the parser reads what the grammar describes. -/
theorem parseExpr_reads (hc : env.cache = none) {n : Nat} : RecReads env (parseExpr env n) := by
  induction n with
  | zero => exact fun _ _ _ _ _ h => (P.timeout_ok.1 h).elim
  | succ n ih =>
    intro e pos s r s' h
    refine ⟨?_, ?_⟩
    · rintro rfl
      obtain ⟨⟨_, h2, h3⟩, _⟩ := parseExpr_keeps 0 _ _ _ _ _ (Nat.zero_le _) h
      exact Adv.of_eq h3 h2 (parseExpr_none h)
    · rintro p' rfl
      unfold parseExpr at h
      obtain ⟨_, s1, h1, h⟩ := P.bind_ok.1 h
      have a1 := tick_adv h1
      obtain ⟨m, s2, h2, h⟩ := P.bind_ok.1 h
      obtain ⟨rfl, rfl⟩ := mark_ok h2
      obtain ⟨r, s3, h3, h⟩ := P.bind_ok.1 h
      obtain ⟨_, s4, h4, h⟩ := P.bind_ok.1 h
      obtain ⟨rfl, rfl⟩ := P.pure_ok.1 h
      rcases cond_ok h4 with ⟨h4, _⟩ | ⟨_, rfl⟩
      · simp at h4
      · obtain ⟨hm, I, hI, a⟩ := parseExprInner_reads ih parseExpr_stays hc h3
        rw [a1.args] at hI
        exact ⟨hm, I, hI, a1.nil_trans a⟩

end Parser

end Fall
