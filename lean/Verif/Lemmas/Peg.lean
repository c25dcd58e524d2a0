import Verif.Spec.Peg
import Verif.Lemmas.SynRuns

/-!
The parser on the constructs of parsing expression grammars.
-/

namespace Fall

open Spec

theorem Spec.Peg.suffix {g : Grammar} {goal : PegGoal} {xs : List NodeType}
    {r : Option (List NodeType)} (h : Peg g goal xs r) : ∀ ys, r = some ys → ys <:+ xs := by
  induction h with
  | token _ _ => rintro _ ⟨⟩; exact List.suffix_cons _ _
  | any _ => rintro _ ⟨⟩; exact List.suffix_cons _ _
  | eof _ => rintro _ ⟨⟩; exact List.suffix_refl _
  | or _ _ ih => exact ih
  | and _ _ ih => exact ih
  | opt _ _ ih => exact ih
  | rep _ _ ih => exact ih
  | pub _ _ _ ih => exact ih
  | cached _ _ ih => exact ih
  | optNone _ _ _ => rintro _ ⟨⟩; exact List.suffix_refl _
  | not _ _ _ => rintro _ ⟨⟩; exact List.suffix_refl _
  | choiceFirst _ ih => exact ih
  | choiceNext _ _ _ ih => exact ih
  | seqNil => rintro _ ⟨⟩; exact List.suffix_refl _
  | starEnd _ _ => rintro _ ⟨⟩; exact List.suffix_refl _
  | seqCons _ _ ih1 ih2 => intro ys h; exact (ih2 ys h).trans (ih1 _ rfl)
  | starMore _ _ ih1 ih2 => intro ys h; exact (ih2 ys h).trans (ih1 _ rfl)
  | _ => rintro _ ⟨⟩

namespace Parser

variable {env : Env} {e : Nat} {pos : Pos} {s s' : PState} {r : Option Pos}

/-! ## Public and cached rules -/

theorem runs_pub {ty body : Nat} {t : NodeType} (he : env.grammar.rules[e]? = some (.pub ty body false))
    (ht : env.grammar.nodeTypes[ty]? = some t) :
    Runs env e pos s r s' ↔ ∃ s1, Runs env body pos (emit (ticked s) [.start t none]) r s1 ∧
      s' = if r = none then rewind s1 s else { emit s1 [.fin] with prev := some t } := by
  rw [runs_iff]
  constructor
  · rintro ⟨n, s1, h, h'⟩
    rw [inner_of he] at h
    simp only [parsePub] at h
    obtain ⟨_, s2, h1, h⟩ := P.bind_ok.1 h
    obtain rfl := P.modify_ok.1 h1
    obtain ⟨m, s3, h3, h⟩ := P.bind_ok.1 h
    obtain ⟨t', s4, h4, h3⟩ := P.bind_ok.1 h3
    obtain ⟨h5, rfl⟩ := P.lift_ok.1 h4
    cases ht.symm.trans h5
    cases (show startTy t (ticked s) = .ok (ticked s).events.length (emit (ticked s) [.start t none]) from rfl).symm.trans h3
    obtain ⟨rb, s5, h6, h⟩ := P.bind_ok.1 h
    cases rb with
    | none =>
      obtain ⟨rfl, rfl⟩ := P.pure_ok.1 h
      exact ⟨_, ⟨n, h6⟩, h'⟩
    | some q =>
      obtain ⟨_, s6, h7, h⟩ := P.bind_ok.1 h
      cases (show applyReplacement env _ false s5 = .ok () s5 from rfl).symm.trans h7
      obtain ⟨_, s7, h8, h⟩ := P.bind_ok.1 h
      cases (event_emit _ _).symm.trans h8
      obtain ⟨t', s8, h9, h⟩ := P.bind_ok.1 h
      obtain ⟨h10, rfl⟩ := P.lift_ok.1 h9
      cases ht.symm.trans h10
      obtain ⟨_, s9, h11, h⟩ := P.bind_ok.1 h
      obtain rfl := P.modify_ok.1 h11
      obtain ⟨rfl, rfl⟩ := P.pure_ok.1 h
      exact ⟨_, ⟨n, h6⟩, h'⟩
  · rintro ⟨s1, ⟨n, h⟩, rfl⟩
    cases r with
    | none =>
      refine ⟨n, s1, ?_, rfl⟩
      rw [inner_of he]
      refine P.bind_ok.2 ⟨(), ticked s, rfl, P.bind_ok.2 ⟨_, _, P.bind_ok.2 ⟨t, _, P.lift_ok.2 ⟨ht, rfl⟩, rfl⟩, ?_⟩⟩
      exact P.bind_ok.2 ⟨_, _, h, rfl⟩
    | some q =>
      refine ⟨n, _, ?_, rfl⟩
      rw [inner_of he]
      refine P.bind_ok.2 ⟨(), ticked s, rfl, P.bind_ok.2 ⟨_, _, P.bind_ok.2 ⟨t, _, P.lift_ok.2 ⟨ht, rfl⟩, rfl⟩, ?_⟩⟩
      refine P.bind_ok.2 ⟨_, _, h, P.bind_ok.2 ⟨(), s1, rfl, P.bind_ok.2 ⟨(), _, event_emit _ _, ?_⟩⟩⟩
      exact P.bind_ok.2 ⟨t, _, P.lift_ok.2 ⟨ht, rfl⟩, P.bind_ok.2 ⟨(), _, rfl, rfl⟩⟩

theorem cached_ok (hc : env.cache = none) {n body : Nat} {rb : Option Pos} {s1 : PState}
    (h : parseExpr env n body pos (emit s [.cached body 0]) = .ok rb s1) :
    ∃ s2, parseCached env (parseExpr env n) pos body s = .ok rb s2 := by
  have hcop : cachedOrParse env (parseExpr env n) pos body (emit s [.cached body 0]) = .ok rb s1 := by
    unfold cachedOrParse getFromCache
    rw [hc]
    exact h
  cases rb with
  | none => exact ⟨_, P.bind_ok.2 ⟨_, _, rfl, P.bind_ok.2 ⟨_, _, hcop, rfl⟩⟩⟩
  | some q =>
    obtain ⟨_, _, _, hA⟩ := (parseExpr_reads hc _ _ _ _ _ h).2 q rfl
    have hfin : ∃ s2, finishCached s.events.length s1 = .ok () s2 := by
      unfold finishCached
      have hp := hA.predicate
      have hev := hA.events
      by_cases hpp : s.predicate = true
      · have : s1.predicate = true := by rw [hp]; simp [emit, hpp]
        rw [if_pos this]
        exact ⟨_, rfl⟩
      · have h1 : s1.predicate = false := by rw [hp]; simp [emit, hpp]
        rw [if_neg (by simp [h1])]
        have h2 : s1.events[s.events.length]? = some (.cached body 0) := by
          rw [hev]
          simp [app, emit, hpp]
        rw [h2]
        exact ⟨_, rfl⟩
    obtain ⟨s2, h2⟩ := hfin
    exact ⟨s2, P.bind_ok.2 ⟨_, _, rfl, P.bind_ok.2 ⟨_, _, hcop, P.bind_ok.2 ⟨(), _, h2, rfl⟩⟩⟩⟩

theorem of_cached (hc : env.cache = none) {n body : Nat}
    (h : parseCached env (parseExpr env n) pos body s = .ok r s') :
    ∃ s1, parseExpr env n body pos (emit s [.cached body 0]) = .ok r s1 := by
  unfold parseCached at h
  obtain ⟨m, s2, h1, h⟩ := P.bind_ok.1 h
  cases (show startCached body s = .ok _ (emit s [.cached body 0]) from rfl).symm.trans h1
  obtain ⟨rb, s3, h3, h⟩ := P.bind_ok.1 h
  have h3 : parseExpr env n body pos (emit s [.cached body 0]) = .ok rb s3 := by
    unfold cachedOrParse getFromCache at h3
    rw [hc] at h3
    exact h3
  cases rb with
  | none => obtain ⟨rfl, rfl⟩ := P.pure_ok.1 h; exact ⟨_, h3⟩
  | some q =>
    obtain ⟨_, s4, _, h⟩ := P.bind_ok.1 h
    obtain ⟨rfl, rfl⟩ := P.pure_ok.1 h
    exact ⟨_, h3⟩

/-! ## Input -/

theorem Input.length {xs : List NodeType} (h : Input env pos xs) : pos.cur + xs.length = pos.stop := by
  induction h with
  | nil h => simpa using h
  | cons _ _ _ ih => simp at ih ⊢; omega

theorem Input.before_self {xs : List NodeType} (h : Input env pos xs) : Pos.before pos xs = pos := by
  have := Input.length h
  unfold Pos.before
  rw [← this]
  simp only [Nat.add_sub_cancel]
  rw [this]

theorem Input.suffix {xs ys : List NodeType} (h : Input env pos xs) (hs : ys <:+ xs) :
    Input env (Pos.before pos ys) ys := by
  induction h with
  | nil h =>
    obtain rfl : ys = [] := List.suffix_nil.1 hs
    exact .nil (by simp [Pos.before])
  | cons h1 h2 h3 ih =>
    rcases List.suffix_cons_iff.1 hs with rfl | hs
    · rw [Input.before_self (.cons h1 h2 h3)]
      exact .cons h1 h2 h3
    · exact ih hs

theorem before_before {xs ys : List NodeType} : Pos.before (Pos.before pos xs) ys = Pos.before pos ys := rfl

theorem before_of_input {x : NodeType} {xs : List NodeType} (h : Input env pos (x :: xs)) :
    Pos.before pos xs = pos.next := by
  cases h with
  | cons h1 h2 h3 => exact Input.before_self h3

/-! ## From matching to running -/

/-- What the parser does for each goal. -/
def PegRuns (env : Env) (pos : Pos) : PegGoal → Option (List NodeType) → Prop
  | .expr e, r => ∀ s, ∃ s', Runs env e pos s (r.map (Pos.before pos)) s'
  | .choice es, r => ∀ s, ∃ s', FirstOf env es pos s (r.map (Pos.before pos)) s'
  | .seq es, none => ∀ s, ∃ k q s', InTurn env es pos s k q s' ∧ k < es.length
  | .seq es, some ys => ∀ s, ∃ s', InTurn env es pos s es.length (Pos.before pos ys) s'
  | .star b, none => ∀ s, ∃ q s', Repeats env b pos s q s' ∧ False
  | .star b, some ys => ∀ s, ∃ s', Repeats env b pos s (Pos.before pos ys) s'

theorem Peg.runs (hc : env.cache = none) {goal : PegGoal} {xs : List NodeType}
    {r : Option (List NodeType)} (h : Peg env.grammar goal xs r) :
    ∀ pos, Input env pos xs → PegRuns env pos goal r := by
  induction h with
  | token he ht =>
    intro pos hi s
    rw [Option.map_some, before_of_input hi]
    cases hi with
    | cons h1 h2 h3 => exact ⟨_, (runs_token he).2 (Or.inr ⟨_, _, h1, h2, ht, Or.inr ⟨rfl, rfl, rfl⟩⟩)⟩
  | tokenOther he ht hne =>
    intro pos hi s
    cases hi with
    | cons h1 h2 h3 => exact ⟨_, (runs_token he).2 (Or.inr ⟨_, _, h1, h2, ht, Or.inl ⟨hne, rfl, rfl⟩⟩)⟩
  | tokenEnd he =>
    intro pos hi s
    cases hi with
    | nil h => exact ⟨_, (runs_token he).2 (Or.inl ⟨h, rfl, rfl⟩)⟩
  | any he =>
    intro pos hi s
    rw [Option.map_some, before_of_input hi]
    cases hi with
    | cons h1 h2 h3 => exact ⟨_, (runs_any he).2 (Or.inr ⟨_, h1, h2, rfl, rfl⟩)⟩
  | anyEnd he =>
    intro pos hi s
    cases hi with
    | nil h => exact ⟨_, (runs_any he).2 (Or.inl ⟨h, rfl, rfl⟩)⟩
  | eof he =>
    intro pos hi s
    rw [Option.map_some, Input.before_self hi]
    cases hi with
    | nil h => exact ⟨_, (runs_eof he).2 ⟨rfl, by rw [if_pos h]⟩⟩
  | eofOther he =>
    intro pos hi s
    cases hi with
    | cons h1 h2 h3 => exact ⟨_, (runs_eof he).2 ⟨rfl, by rw [if_neg h1]; rfl⟩⟩
  | or he _ ih =>
    intro pos hi s
    obtain ⟨s1, h1⟩ := ih pos hi (ticked s)
    exact ⟨_, (runs_or he).2 ⟨s1, h1, rfl⟩⟩
  | and he _ ih =>
    rename_i r _
    intro pos hi s
    cases r with
    | none =>
      obtain ⟨k, q, s1, h1, h2⟩ := ih pos hi (ticked s)
      exact ⟨_, (runs_and he).2 ⟨k, q, s1, h1, Or.inl ⟨h2, rfl, rfl⟩⟩⟩
    | some ys =>
      obtain ⟨s1, h1⟩ := ih pos hi (ticked s)
      exact ⟨_, (runs_and he).2 ⟨_, _, s1, h1, Or.inr ⟨Nat.le_refl _, rfl, rfl⟩⟩⟩
  | opt he _ ih =>
    intro pos hi s
    obtain ⟨s1, h1⟩ := ih pos hi (ticked s)
    exact ⟨_, (runs_opt he).2 ⟨_, h1, rfl⟩⟩
  | optNone he _ ih =>
    intro pos hi s
    obtain ⟨s1, h1⟩ := ih pos hi (ticked s)
    refine ⟨_, (runs_opt he).2 ⟨_, h1, ?_⟩⟩
    rw [Option.map_some, Input.before_self hi]
    rfl
  | rep he _ ih =>
    rename_i r _
    intro pos hi s
    cases r with
    | none => obtain ⟨_, _, _, h⟩ := ih pos hi s; exact h.elim
    | some ys =>
      obtain ⟨s1, h1⟩ := ih pos hi (ticked s)
      exact ⟨_, (runs_rep he).2 ⟨_, rfl, h1⟩⟩
  | not he _ ih =>
    intro pos hi s
    obtain ⟨s1, h1⟩ := ih pos hi { ticked s with predicate := true }
    refine ⟨_, (runs_not he).2 ⟨none, _, ⟨s1, h1, rfl⟩, Or.inl ⟨rfl, ?_, rfl⟩⟩⟩
    rw [Option.map_some, Input.before_self hi]
  | notFails he _ ih =>
    intro pos hi s
    obtain ⟨s1, h1⟩ := ih pos hi { ticked s with predicate := true }
    exact ⟨_, (runs_not he).2 ⟨_, _, ⟨s1, h1, rfl⟩, Or.inr ⟨by simp, rfl, rfl⟩⟩⟩
  | pub he ht _ ih =>
    intro pos hi s
    obtain ⟨s1, h1⟩ := ih pos hi (emit (ticked s) [.start _ none])
    exact ⟨_, (runs_pub he ht).2 ⟨s1, h1, rfl⟩⟩
  | cached he _ ih =>
    intro pos hi s
    obtain ⟨s1, n, h1⟩ := ih pos hi (emit (ticked s) [.cached _ 0])
    obtain ⟨s2, h2⟩ := cached_ok hc h1
    exact ⟨_, runs_iff.2 ⟨n, s2, by rw [inner_of he]; exact h2, rfl⟩⟩
  | choiceNone => exact fun pos hi s => ⟨s, .none⟩
  | choiceFirst _ ih =>
    intro pos hi s
    obtain ⟨s1, h1⟩ := ih pos hi s
    exact ⟨s1, .found h1⟩
  | choiceNext _ _ ih1 ih2 =>
    intro pos hi s
    obtain ⟨s1, h1⟩ := ih1 pos hi s
    obtain ⟨s2, h2⟩ := ih2 pos hi s1
    exact ⟨s2, .next h1 h2⟩
  | seqNil =>
    intro pos hi s
    rw [Input.before_self hi]
    exact ⟨s, .all⟩
  | @seqCons _ _ _ _ r hp hs ih1 ih2 =>
    intro pos hi
    have hi' := Input.suffix hi (hp.suffix _ rfl)
    cases r with
    | none =>
      intro s
      obtain ⟨s1, h1⟩ := ih1 pos hi s
      obtain ⟨k, q, s2, h2, h3⟩ := ih2 _ hi' s1
      exact ⟨k + 1, q, s2, .step h1 h2, by simpa using h3⟩
    | some zs =>
      intro s
      obtain ⟨s1, h1⟩ := ih1 pos hi s
      obtain ⟨s2, h2⟩ := ih2 _ hi' s1
      exact ⟨s2, .step h1 h2⟩
  | seqFails _ ih =>
    intro pos hi s
    obtain ⟨s1, h1⟩ := ih pos hi s
    exact ⟨0, pos, s1, .stuck h1, by simp⟩
  | starEnd _ ih =>
    intro pos hi s
    obtain ⟨s1, h1⟩ := ih pos hi s
    rw [Input.before_self hi]
    exact ⟨s1, .stop h1⟩
  | @starMore _ _ _ r hp hs ih1 ih2 =>
    intro pos hi
    have hi' := Input.suffix hi (hp.suffix _ rfl)
    cases r with
    | none =>
      intro s
      obtain ⟨_, _, _, h⟩ := ih2 _ hi' s
      exact h.elim
    | some zs =>
      intro s
      obtain ⟨s1, h1⟩ := ih1 pos hi s
      obtain ⟨s2, h2⟩ := ih2 _ hi' s1
      exact ⟨s2, .step h1 h2⟩

/-! ## From running to matching -/

theorem peg_choice {S : Nat → Prop} {rec : Rec} {xs : List NodeType} (hi : Input env pos xs)
    (hr : ∀ e, S e → ∀ s r s', rec e pos s = .ok r s' →
      ∃ r', Peg env.grammar (.expr e) xs r' ∧ r = r'.map (Pos.before pos))
    {es : List Nat} (hS : ∀ p ∈ es, S p) (h : parseOr rec pos es s = .ok r s') :
    ∃ r', Peg env.grammar (.choice es) xs r' ∧ r = r'.map (Pos.before pos) := by
  induction es generalizing s with
  | nil => obtain ⟨rfl, rfl⟩ := P.pure_ok.1 h; exact ⟨none, .choiceNone, rfl⟩
  | cons p ps ih =>
    unfold parseOr at h
    obtain ⟨r1, s1, h1, h⟩ := P.bind_ok.1 h
    obtain ⟨r', hp, rfl⟩ := hr _ (hS p (by simp)) _ _ _ h1
    cases r' with
    | some ys =>
      obtain ⟨rfl, rfl⟩ := P.pure_ok.1 h
      exact ⟨some ys, .choiceFirst hp, rfl⟩
    | none =>
      obtain ⟨r', h2, h3⟩ := ih (fun p hp => hS p (by simp [hp])) h
      exact ⟨r', .choiceNext hp h2, h3⟩

/-- What a run of an expression of the fragment says about matching. -/
def PegRec (env : Env) (S : Nat → Prop) (rec : Rec) : Prop :=
  ∀ e, S e → ∀ pos xs, Input env pos xs → ∀ s r s', rec e pos s = .ok r s' →
    ∃ r', Peg env.grammar (.expr e) xs r' ∧ r = r'.map (Pos.before pos)

theorem peg_seq {S : Nat → Prop} {rec : Rec} (hr : PegRec env S rec) {xs : List NodeType}
    (hi : Input env pos xs) {es : List Nat} (hS : ∀ p ∈ es, S p) {k k' : Nat} {q : Pos}
    (h : andLoop rec es k pos s = .ok (k', q) s') :
    (Peg env.grammar (.seq es) xs none ∧ k' < k + es.length) ∨
      ∃ ys, Peg env.grammar (.seq es) xs (some ys) ∧ k' = k + es.length ∧ q = Pos.before pos ys := by
  induction es generalizing s k pos xs with
  | nil =>
    obtain ⟨h, rfl⟩ := P.pure_ok.1 h
    cases h
    exact Or.inr ⟨xs, .seqNil, rfl, (Input.before_self hi).symm⟩
  | cons p ps ih =>
    unfold andLoop at h
    obtain ⟨r1, s1, h1, h⟩ := P.bind_ok.1 h
    obtain ⟨r', hp, rfl⟩ := hr _ (hS p (by simp)) _ _ hi _ _ _ h1
    cases r' with
    | some ys =>
      rcases ih (Input.suffix hi (hp.suffix _ rfl)) (fun p hp => hS p (by simp [hp])) h with
        ⟨h2, h3⟩ | ⟨zs, h2, h3, h4⟩
      · exact Or.inl ⟨.seqCons hp h2, by simp; omega⟩
      · exact Or.inr ⟨zs, .seqCons hp h2, by simp; omega, h4⟩
    | none =>
      obtain ⟨h, rfl⟩ := P.pure_ok.1 h
      cases h
      exact Or.inl ⟨.seqFails hp, by simp⟩

theorem peg_star {S : Nat → Prop} {rec : Rec} (hr : PegRec env S rec) {xs : List NodeType}
    (hi : Input env pos xs) {body : Nat} (hS : S body) {m : Nat}
    (h : repLoop rec body m pos s = .ok r s') :
    ∃ ys, Peg env.grammar (.star body) xs (some ys) ∧ r = some (Pos.before pos ys) := by
  induction m generalizing pos s xs with
  | zero => exact (P.timeout_ok.1 h).elim
  | succ m ih =>
    unfold repLoop at h
    obtain ⟨r1, s1, h1, h⟩ := P.bind_ok.1 h
    obtain ⟨r', hp, rfl⟩ := hr _ hS _ _ hi _ _ _ h1
    cases r' with
    | some ys =>
      obtain ⟨zs, h2, rfl⟩ := ih (Input.suffix hi (hp.suffix _ rfl)) h
      exact ⟨zs, .starMore hp h2, rfl⟩
    | none =>
      obtain ⟨rfl, rfl⟩ := P.pure_ok.1 h
      exact ⟨xs, .starEnd hp, by rw [Input.before_self hi]⟩

theorem peg_rec (hc : env.cache = none) {S : Nat → Prop} (hS : PegFragment env.grammar S) (n : Nat) :
    PegRec env S (parseExpr env n) := by
  induction n with
  | zero => intro e _ pos xs _ s r s' h; exact (P.timeout_ok.1 h).elim
  | succ n ih =>
    intro e hSe pos xs hi s r s' h
    have hrun : Runs env e pos s r s' := ⟨_, h⟩
    obtain ⟨s1, h, _⟩ := parseExpr_succ_ok.1 h
    have hfr := hS e hSe
    cases he : env.grammar.rules[e]? with
    | none =>
      unfold parseExprInner at h
      rw [he] at h
      cases h
    | some rule =>
      have hfr := hfr rule he
      rw [inner_of he] at h
      cases rule with
      | token ty =>
        rcases (runs_token he).1 hrun with ⟨h1, rfl, rfl⟩ | ⟨t, t', h1, h2, h3, h4⟩
        · cases hi with
          | nil _ => exact ⟨none, .tokenEnd he, rfl⟩
          | cons h _ _ => exact absurd h1 h
        · cases hi with
          | nil h => exact absurd h h1
          | cons h5 h6 h7 =>
            cases h2.symm.trans h6
            rcases h4 with ⟨hne, rfl, rfl⟩ | ⟨rfl, rfl, rfl⟩
            · exact ⟨none, .tokenOther he h3 hne, rfl⟩
            · exact ⟨_, .token he h3, by rw [Option.map_some, before_of_input (.cons h5 h6 h7)]⟩
      | any =>
        rcases (runs_any he).1 hrun with ⟨h1, rfl, rfl⟩ | ⟨t, h1, h2, rfl, rfl⟩
        · cases hi with
          | nil _ => exact ⟨none, .anyEnd he, rfl⟩
          | cons h _ _ => exact absurd h1 h
        · cases hi with
          | nil h => exact absurd h h1
          | cons h5 h6 h7 =>
            exact ⟨_, .any he, by rw [Option.map_some, before_of_input (.cons h5 h6 h7)]⟩
      | eof =>
        obtain ⟨_, rfl⟩ := (runs_eof he).1 hrun
        cases hi with
        | nil h =>
          exact ⟨_, .eof he, by rw [if_pos h, Option.map_some, Input.before_self (.nil (env := env) h)]⟩
        | cons h _ _ => exact ⟨none, .eofOther he, by rw [if_neg h]; rfl⟩
      | or parts =>
        obtain ⟨r', h1, h2⟩ := peg_choice hi (fun e hSe s r s' h => ih e hSe pos xs hi s r s' h) hfr h
        exact ⟨r', .or he h1, h2⟩
      | and parts commit =>
        cases commit with
        | some k => exact hfr.elim
        | none =>
          simp only [parseAnd] at h
          obtain ⟨⟨k, q⟩, s2, h1, h⟩ := P.bind_ok.1 h
          rcases peg_seq ih hi hfr h1 with ⟨h2, h3⟩ | ⟨ys, h2, h3, rfl⟩
          · dsimp only at h
            rw [if_pos (by simpa using h3)] at h
            obtain ⟨rfl, rfl⟩ := P.pure_ok.1 h
            exact ⟨none, .and he h2, rfl⟩
          · dsimp only at h
            rw [if_neg (by simp; omega)] at h
            obtain ⟨_, s3, _, h⟩ := P.bind_ok.1 h
            obtain ⟨rfl, rfl⟩ := P.pure_ok.1 h
            exact ⟨some ys, .and he h2, rfl⟩
      | opt body =>
        obtain ⟨rb, s2, h1, h⟩ := P.bind_ok.1 h
        obtain ⟨rfl, rfl⟩ := P.pure_ok.1 h
        obtain ⟨r', hp, rfl⟩ := ih _ hfr _ _ hi _ _ _ h1
        cases r' with
        | none => exact ⟨_, .optNone he hp, by rw [Option.map_some, Input.before_self hi]; rfl⟩
        | some ys => exact ⟨_, .opt he hp, rfl⟩
      | rep body =>
        obtain ⟨ys, h1, rfl⟩ := peg_star ih hi hfr h
        exact ⟨_, .rep he h1, rfl⟩
      | not body =>
        simp only [parseNot] at h
        obtain ⟨rb, s2, h1, h⟩ := P.bind_ok.1 h
        obtain ⟨s3, h3, _⟩ := pred_ok.1 h1
        obtain ⟨r', hp, rfl⟩ := ih _ hfr _ _ hi _ _ _ h3
        cases r' with
        | none =>
          obtain ⟨rfl, rfl⟩ := P.pure_ok.1 h
          exact ⟨_, .not he hp, by rw [Option.map_some, Input.before_self hi]⟩
        | some ys =>
          obtain ⟨rfl, rfl⟩ := P.pure_ok.1 h
          exact ⟨none, .notFails he hp, rfl⟩
      | pub ty body rp =>
        cases rp with
        | true => exact hfr.elim
        | false =>
          have ht : ∃ t, env.grammar.nodeTypes[ty]? = some t := by
            simp only [parsePub] at h
            obtain ⟨_, s2, h1, h⟩ := P.bind_ok.1 h
            obtain ⟨m, s3, h3, h⟩ := P.bind_ok.1 h
            obtain ⟨t', s4, h4, h3⟩ := P.bind_ok.1 h3
            exact ⟨t', (P.lift_ok.1 h4).1⟩
          obtain ⟨t, ht⟩ := ht
          simp only [parsePub] at h
          obtain ⟨_, s2, h1, h⟩ := P.bind_ok.1 h
          obtain ⟨m, s3, h3, h⟩ := P.bind_ok.1 h
          obtain ⟨rb, s5, h6, h⟩ := P.bind_ok.1 h
          obtain ⟨r', hp, rfl⟩ := ih _ hfr _ _ hi _ _ _ h6
          refine ⟨r', .pub he ht hp, ?_⟩
          cases r' with
          | none => obtain ⟨rfl, rfl⟩ := P.pure_ok.1 h; rfl
          | some ys =>
            obtain ⟨_, s6, h7, h⟩ := P.bind_ok.1 h
            obtain ⟨_, s7, h8, h⟩ := P.bind_ok.1 h
            obtain ⟨t', s8, h9, h⟩ := P.bind_ok.1 h
            obtain ⟨_, s9, h11, h⟩ := P.bind_ok.1 h
            obtain ⟨rfl, rfl⟩ := P.pure_ok.1 h
            rfl
      | cached body =>
        obtain ⟨s2, h2⟩ := of_cached hc h
        obtain ⟨r', hp, rfl⟩ := ih _ hfr _ _ hi _ _ _ h2
        exact ⟨r', .cached he hp, rfl⟩
      | _ => exact hfr.elim

end Parser

end Fall
