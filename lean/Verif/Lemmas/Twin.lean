import Verif.Lemmas.SynCut

/-!
Comparing two runs of the parser on the same piece of input in different files: at different positions,
after different events, and with arguments that only agree as far as they matter.
-/

namespace Fall

open Spec

namespace Parser

/-- The position `p` of the piece in the file where the piece begins at `w`. -/
def sh (w : Nat) (p : Pos) : Pos := ⟨w + p.cur, w + p.stop⟩

/-- The two files, where the piece begins, its number of tokens, and the events before it. -/
structure Two where
  env1 : Env
  env2 : Env
  w1 : Nat
  w2 : Nat
  K : Nat
  E1 : List Event
  E2 : List Event

/-- Same grammar and same tokens. -/
structure Two.Ok (T : Two) : Prop where
  grammar : T.env1.grammar = T.env2.grammar
  tok : ∀ i, i < T.K → sigToken T.env1 (T.w1 + i) = sigToken T.env2 (T.w2 + i)

/-- States with the same events since the beginning of the piece and the same arguments `N`, which are
expressions from `A` that need no arguments. -/
structure Rel (T : Two) (A : Nat → Prop) (need : Nat → List Nat) (N : List Nat) (s1 s2 : PState) : Prop where
  events : ∃ F, s1.events = T.E1 ++ F ∧ s2.events = T.E2 ++ F
  mode : s1.predicate = s2.predicate
  args : ∀ i ∈ N, s1.args[i]? = s2.args[i]?
  fine : ∀ i ∈ N, ∀ a : Nat, s1.args[i]? = some (some a) → A a ∧ need a = []

/-- If both give a result, the results are related. -/
def Twin (T : Two) (A : Nat → Prop) (need : Nat → List Nat) (N : List Nat) (m1 m2 : P β)
    (Q : β → β → Prop) : Prop :=
  ∀ s1 s2, Rel T A need N s1 s2 → ∀ x1 s1' x2 s2', m1 s1 = .ok x1 s1' → m2 s2 = .ok x2 s2' →
    Q x1 x2 ∧ Rel T A need N s1' s2'

variable {T : Two} {A : Nat → Prop} {need : Nat → List Nat} {N : List Nat}

namespace Twin

theorem bind {m1 m2 : P β} {f1 f2 : β → P γ} {Q : β → β → Prop} {R : γ → γ → Prop}
    (hm : Twin T A need N m1 m2 Q) (hf : ∀ x1 x2, Q x1 x2 → Twin T A need N (f1 x1) (f2 x2) R) :
    Twin T A need N (m1 >>= f1) (m2 >>= f2) R := by
  intro s1 s2 hs y1 s1' y2 s2' h1 h2
  obtain ⟨x1, t1, h3, h1⟩ := P.bind_ok.1 h1
  obtain ⟨x2, t2, h4, h2⟩ := P.bind_ok.1 h2
  obtain ⟨hq, ht⟩ := hm s1 s2 hs _ _ _ _ h3 h4
  exact hf x1 x2 hq t1 t2 ht _ _ _ _ h1 h2

theorem pure {Q : β → β → Prop} {x1 x2 : β} (h : Q x1 x2) : Twin T A need N (pure x1) (pure x2) Q := by
  intro s1 s2 hs y1 s1' y2 s2' h1 h2
  obtain ⟨rfl, rfl⟩ := P.pure_ok.1 h1
  obtain ⟨rfl, rfl⟩ := P.pure_ok.1 h2
  exact ⟨h, hs⟩

theorem weaken {m1 m2 : P β} {Q R : β → β → Prop} (h : Twin T A need N m1 m2 Q)
    (hQ : ∀ x y, Q x y → R x y) : Twin T A need N m1 m2 R := by
  intro s1 s2 hs y1 s1' y2 s2' h1 h2
  obtain ⟨h3, h4⟩ := h s1 s2 hs _ _ _ _ h1 h2
  exact ⟨hQ _ _ h3, h4⟩

theorem timeout {m1 : P β} {Q : β → β → Prop} : Twin T A need N m1 P.timeout Q :=
  fun _ _ _ _ _ _ _ _ h => (P.timeout_ok.1 h).elim

theorem lift {o1 o2 : Option β} (h : o1 = o2) : Twin T A need N (P.lift o1) (P.lift o2) Eq := by
  intro s1 s2 hs y1 s1' y2 s2' h1 h2
  obtain ⟨h3, rfl⟩ := P.lift_ok.1 h1
  obtain ⟨h4, rfl⟩ := P.lift_ok.1 h2
  rw [h, h4] at h3
  exact ⟨(Option.some.inj h3).symm, hs⟩

theorem cond {c1 c2 : Bool} (hc : c1 = c2) {m1 m2 : P Unit} (h : Twin T A need N m1 m2 (fun _ _ => True)) :
    Twin T A need N (P.cond c1 m1) (P.cond c2 m2) (fun _ _ => True) := by
  subst hc
  unfold P.cond
  split
  · exact h
  · exact pure trivial

end Twin

theorem Rel.withEvents {s1 s2 : PState} (h : Rel T A need N s1 s2) (F : List Event) :
    Rel T A need N { s1 with events := T.E1 ++ F } { s2 with events := T.E2 ++ F } :=
  ⟨⟨F, rfl, rfl⟩, h.mode, h.args, h.fine⟩

theorem Rel.mono {M : List Nat} {s1 s2 : PState} (h : Rel T A need N s1 s2) (hM : ∀ i ∈ M, i ∈ N) :
    Rel T A need M s1 s2 :=
  ⟨h.events, h.mode, fun i hi => h.args i (hM i hi), fun i hi => h.fine i (hM i hi)⟩

theorem tick_tw : Twin T A need N tick tick (fun _ _ => True) := by
  intro s1 s2 hs y1 s1' y2 s2' h1 h2
  obtain rfl := P.modify_ok.1 h1
  obtain rfl := P.modify_ok.1 h2
  exact ⟨trivial, hs.events, hs.mode, hs.args, hs.fine⟩

theorem setPrev_tw {t1 t2 : Option NodeType} :
    Twin T A need N (P.modify fun s => { s with prev := t1 }) (P.modify fun s => { s with prev := t2 })
      (fun _ _ => True) := by
  intro s1 s2 hs y1 s1' y2 s2' h1 h2
  obtain rfl := P.modify_ok.1 h1
  obtain rfl := P.modify_ok.1 h2
  exact ⟨trivial, hs.events, hs.mode, hs.args, hs.fine⟩

theorem event_tw {e : Event} : Twin T A need N (event e) (event e) (fun _ _ => True) := by
  intro s1 s2 hs y1 s1' y2 s2' h1 h2
  cases (event_emit _ _).symm.trans h1
  cases (event_emit _ _).symm.trans h2
  refine ⟨trivial, ?_⟩
  unfold emit
  have hm := hs.mode
  split
  · rename_i h
    rw [if_pos (hm ▸ h)]
    exact hs
  · rename_i h
    rw [if_neg (hm ▸ h)]
    obtain ⟨F, h3, h4⟩ := hs.events
    refine ⟨⟨F ++ [e], ?_, ?_⟩, ?_, hs.args, hs.fine⟩
    · simp [h3]
    · simp [h4]
    · exact hs.mode

/-- The same mark, from the beginning of the piece. -/
def SameMark (T : Two) (m1 m2 : Nat) : Prop := ∃ m, m1 = T.E1.length + m ∧ m2 = T.E2.length + m

theorem mark_tw : Twin T A need N mark mark (SameMark T) := by
  intro s1 s2 hs y1 s1' y2 s2' h1 h2
  obtain ⟨rfl, rfl⟩ := mark_ok h1
  obtain ⟨rfl, rfl⟩ := mark_ok h2
  obtain ⟨F, h3, h4⟩ := hs.events
  exact ⟨⟨F.length, by rw [h3, List.length_append], by rw [h4, List.length_append]⟩, hs⟩

theorem nodeType_tw (hT : T.Ok) {ty : Nat} :
    Twin T A need N (nodeType T.env1 ty) (nodeType T.env2 ty) Eq := by
  unfold nodeType
  exact Twin.lift (by rw [hT.grammar])

theorem startTy_tw {t : NodeType} : Twin T A need N (startTy t) (startTy t) (SameMark T) := by
  unfold startTy
  exact Twin.bind mark_tw fun _ _ h => Twin.bind event_tw fun _ _ _ => Twin.pure h

theorem start_tw (hT : T.Ok) {ty : Nat} :
    Twin T A need N (start T.env1 ty) (start T.env2 ty) (SameMark T) := by
  unfold start
  refine Twin.bind (nodeType_tw hT) fun t1 t2 h => ?_
  subst h
  exact startTy_tw

theorem startError_tw : Twin T A need N startError startError (fun _ _ => True) := by
  unfold startError
  exact Twin.bind startTy_tw fun _ _ _ => Twin.pure trivial

theorem finish_tw : Twin T A need N finish finish (fun _ _ => True) := event_tw

theorem rollback_tw {m1 m2 : Nat} (h : SameMark T m1 m2) :
    Twin T A need N (rollback m1) (rollback m2) (fun _ _ => True) := by
  obtain ⟨m, rfl, rfl⟩ := h
  intro s1 s2 hs y1 s1' y2 s2' h1 h2
  unfold rollback at h1 h2
  split at h1
  · split at h2
    · cases h1
      cases h2
      obtain ⟨F, h3, h4⟩ := hs.events
      refine ⟨trivial, ?_⟩
      rw [h3, h4, List.take_length_add_append, List.take_length_add_append]
      exact hs.withEvents _
    · cases h2
  · cases h1

theorem forwardParent_tw {c1 c2 p1 p2 : Nat} (hc : SameMark T c1 c2) (hp : SameMark T p1 p2) :
    Twin T A need N (forwardParent c1 p1) (forwardParent c2 p2) (fun _ _ => True) := by
  obtain ⟨c, rfl, rfl⟩ := hc
  obtain ⟨p, rfl, rfl⟩ := hp
  intro s1 s2 hs y1 s1' y2 s2' h1 h2
  unfold forwardParent at h1 h2
  obtain ⟨F, h3, h4⟩ := hs.events
  split at h1
  · rename_i ty fp he1
    split at h1
    · cases h1
      split at h2
      · rename_i ty' fp' he2
        split at h2
        · cases h2
          refine ⟨trivial, ?_⟩
          rw [h3, List.getElem?_append_right (Nat.le_add_right _ _)] at he1
          rw [h4, List.getElem?_append_right (Nat.le_add_right _ _)] at he2
          rw [Nat.add_sub_cancel_left] at he1 he2
          rw [he1] at he2
          cases he2
          rw [h3, h4, List.set_append_right _ _ (Nat.le_add_right _ _),
            List.set_append_right _ _ (Nat.le_add_right _ _), Nat.add_sub_cancel_left, Nat.add_sub_cancel_left,
            show T.E1.length + p - (T.E1.length + c) = p - c by omega,
            show T.E2.length + p - (T.E2.length + c) = p - c by omega]
          exact hs.withEvents _
        · cases h2
      · cases h2
    · cases h1
  · cases h1

/-- The same result, as positions of the piece. -/
def Res (T : Two) (p : Pos) (r1 r2 : Option Pos) : Prop :=
  ∃ r : Option Pos, After p r ∧ r1 = r.map (sh T.w1) ∧ r2 = r.map (sh T.w2)

theorem Res.none {p : Pos} : Res T p none none := ⟨.none, After.none, rfl, rfl⟩

theorem Res.self {p : Pos} (hp : Within T.K true p) : Res T p (some (sh T.w1 p)) (some (sh T.w2 p)) :=
  ⟨some p, After.self hp, rfl, rfl⟩

theorem Res.cases {p : Pos} {r1 r2 : Option Pos} (h : Res T p r1 r2) (hp : Within T.K true p) :
    (r1 = Option.none ∧ r2 = Option.none) ∨
      ∃ q, r1 = some (sh T.w1 q) ∧ r2 = some (sh T.w2 q) ∧ After p (some q) ∧ Within T.K true q := by
  obtain ⟨r, h1, rfl, rfl⟩ := h
  cases r with
  | none => exact Or.inl ⟨rfl, rfl⟩
  | some q => exact Or.inr ⟨q, rfl, rfl, h1, h1.within rfl hp⟩

theorem Res.trans {p q : Pos} {r1 r2 : Option Pos} (h : After p (some q)) (h' : Res T q r1 r2) :
    Res T p r1 r2 := by
  obtain ⟨r, h1, h2, h3⟩ := h'
  exact ⟨r, h.trans h1, h2, h3⟩

theorem sh_isEmpty (w : Nat) (p : Pos) : (sh w p).isEmpty = p.isEmpty := by
  rw [Bool.eq_iff_iff]
  simp [sh, Pos.isEmpty]

variable {p : Pos}

theorem bump_tw (hT : T.Ok) (hp : Within T.K true p) :
    Twin T A need N (bump T.env1 (sh T.w1 p)) (bump T.env2 (sh T.w2 p))
      (fun r1 r2 => r1.map (·.1) = r2.map (·.1) ∧ Res T p (r1.map (·.2)) (r2.map (·.2))) := by
  unfold bump
  rw [sh_isEmpty, sh_isEmpty]
  split
  · exact Twin.pure ⟨rfl, Res.none⟩
  · rename_i h
    have hlt : p.cur < p.stop := by
      have := hp.1
      have : p.cur ≠ p.stop := by simpa [Pos.isEmpty] using h
      omega
    have htok : tokenAt T.env1 (sh T.w1 p) = tokenAt T.env2 (sh T.w2 p) :=
      congrArg P.lift (hT.tok p.cur (by have := hp.2.1; omega))
    rw [htok]
    refine Twin.bind (Twin.lift rfl) fun t1 t2 ht => ?_
    subst ht
    unfold token
    refine Twin.bind event_tw fun _ _ _ => Twin.pure ⟨rfl, some p.next, After.next hlt, ?_, ?_⟩ <;> rfl

theorem bumpAllN_tw (hT : T.Ok) {n1 n2 : Nat} (hp : Within T.K true p) :
    Twin T A need N (bumpAllN T.env1 n1 (sh T.w1 p)) (bumpAllN T.env2 n2 (sh T.w2 p)) (fun _ _ => True) := by
  induction n1 generalizing n2 p with
  | zero => exact fun _ _ _ _ _ _ _ h _ => (P.panic_ok.1 h).elim
  | succ n1 ih =>
    cases n2 with
    | zero => exact fun _ _ _ _ _ _ _ _ h => (P.panic_ok.1 h).elim
    | succ n2 =>
      unfold bumpAllN
      refine Twin.bind (bump_tw hT hp) fun r1 r2 hr => ?_
      obtain ⟨_, hr⟩ := hr
      rcases hr.cases hp with ⟨h1, h2⟩ | ⟨q, h1, h2, h3, h4⟩
      · obtain rfl : r1 = none := by simpa using h1
        obtain rfl : r2 = none := by simpa using h2
        exact Twin.pure trivial
      · cases r1 with
        | none => cases h1
        | some r1 =>
          cases r2 with
          | none => cases h2
          | some r2 =>
            obtain ⟨t1, q1⟩ := r1
            obtain ⟨t2, q2⟩ := r2
            simp only [Option.map_some, Option.some.injEq] at h1 h2
            subst h1 h2
            exact ih h4

theorem bumpAll_tw (hT : T.Ok) (hp : Within T.K true p) :
    Twin T A need N (bumpAll T.env1 (sh T.w1 p)) (bumpAll T.env2 (sh T.w2 p)) (fun _ _ => True) :=
  bumpAllN_tw hT hp

/-- Running the expressions from `A` with the arguments they need. -/
def RecTwin (T : Two) (A : Nat → Prop) (need : Nat → List Nat) (rec1 rec2 : Rec) : Prop :=
  ∀ e, A e → ∀ N, (∀ i ∈ need e, i ∈ N) → ∀ p, Within T.K true p →
    Twin T A need N (rec1 e (sh T.w1 p)) (rec2 e (sh T.w2 p)) (Res T p)

/-- A part that may be run where `e` may. -/
def Sub (A : Nat → Prop) (need : Nat → List Nat) (e x : Nat) : Prop := A x ∧ ∀ i ∈ need x, i ∈ need e

/-- The rules of the expressions from `A`. -/
def TwinRule (A : Nat → Prop) (need : Nat → List Nat) (g : Grammar) (e : Nat) : Expr → Prop
  | .pub _ body replaceable => replaceable = false ∧ Sub A need e body
  | .or ps | .and ps _ => ∀ x ∈ ps, Sub A need e x
  | .token _ | .eof | .any => True
  | .rep x | .opt x | .not x => Sub A need e x
  | .layer l x => Sub A need e l ∧ Sub A need e x
  | .pratt t => (∀ a ∈ t.atoms, Sub A need e a) ∧ (∀ x ∈ t.prefixes, Sub A need e x.op) ∧
      ∀ x ∈ t.infixes, Sub A need e x.op
  | .call body args => A body ∧ (∀ i ∈ need body, i ∈ need e ∨ i ∈ args.map (·.1)) ∧
      ∀ x ∈ args, ∀ rule, g.rules[x.2]? = some rule →
        (∀ j, rule = .var j → j ∈ need e) ∧ ((∀ j, rule ≠ .var j) → A x.2 ∧ need x.2 = [])
  | .var i => i ∈ need e
  | _ => False

variable {rec1 rec2 : Rec} {e : Nat}

theorem sub_tw (hr : RecTwin T A need rec1 rec2) (hN : ∀ i ∈ need e, i ∈ N) {x : Nat} (hx : Sub A need e x)
    (hp : Within T.K true p) : Twin T A need N (rec1 x (sh T.w1 p)) (rec2 x (sh T.w2 p)) (Res T p) :=
  hr x hx.1 N (fun i hi => hN i (hx.2 i hi)) p hp

theorem pred_tw (hr : RecTwin T A need rec1 rec2) (hN : ∀ i ∈ need e, i ∈ N) {x : Nat} (hx : Sub A need e x)
    (hp : Within T.K true p) :
    Twin T A need N (parseExprPred rec1 x (sh T.w1 p)) (parseExprPred rec2 x (sh T.w2 p)) (Res T p) := by
  intro s1 s2 hs r1 s1' r2 s2' h1 h2
  obtain ⟨t1, h5, rfl⟩ := pred_ok.1 h1
  obtain ⟨t2, h6, rfl⟩ := pred_ok.1 h2
  obtain ⟨h3, h4⟩ := sub_tw hr hN hx hp { s1 with predicate := true } { s2 with predicate := true }
    ⟨hs.events, rfl, hs.args, hs.fine⟩ _ _ _ _ h5 h6
  exact ⟨h3, h4.events, hs.mode, h4.args, h4.fine⟩

theorem or_tw (hr : RecTwin T A need rec1 rec2) (hN : ∀ i ∈ need e, i ∈ N) {ps : List Nat}
    (hx : ∀ x ∈ ps, Sub A need e x) (hp : Within T.K true p) :
    Twin T A need N (parseOr rec1 (sh T.w1 p) ps) (parseOr rec2 (sh T.w2 p) ps) (Res T p) := by
  induction ps with
  | nil => exact Twin.pure Res.none
  | cons x ps ih =>
    unfold parseOr
    refine Twin.bind (sub_tw hr hN (hx x (by simp)) hp) fun r1 r2 h => ?_
    rcases h.cases hp with ⟨rfl, rfl⟩ | ⟨q, rfl, rfl, h3, h4⟩
    · exact ih fun x hx' => hx x (by simp [hx'])
    · exact Twin.pure h

theorem andLoop_tw (hr : RecTwin T A need rec1 rec2) (hN : ∀ i ∈ need e, i ∈ N) {ps : List Nat}
    (hx : ∀ x ∈ ps, Sub A need e x) {k : Nat} (hp : Within T.K true p) :
    Twin T A need N (andLoop rec1 ps k (sh T.w1 p)) (andLoop rec2 ps k (sh T.w2 p))
      (fun r1 r2 => r1.1 = r2.1 ∧ Res T p (some r1.2) (some r2.2)) := by
  induction ps generalizing k p with
  | nil => exact Twin.pure ⟨rfl, Res.self hp⟩
  | cons x ps ih =>
    unfold andLoop
    refine Twin.bind (sub_tw hr hN (hx x (by simp)) hp) fun r1 r2 h => ?_
    rcases h.cases hp with ⟨rfl, rfl⟩ | ⟨q, rfl, rfl, h3, h4⟩
    · exact Twin.pure ⟨rfl, Res.self hp⟩
    · exact (ih (fun x hx' => hx x (by simp [hx'])) h4).weaken fun _ _ h => ⟨h.1, Res.trans h3 h.2⟩

theorem and_tw (hr : RecTwin T A need rec1 rec2) (hN : ∀ i ∈ need e, i ∈ N) {ps : List Nat}
    (hx : ∀ x ∈ ps, Sub A need e x) {commit : Option Nat} (hp : Within T.K true p) :
    Twin T A need N (parseAnd rec1 (sh T.w1 p) ps commit) (parseAnd rec2 (sh T.w2 p) ps commit) (Res T p) := by
  unfold parseAnd
  refine Twin.bind (andLoop_tw hr hN hx hp) fun r1 r2 h => ?_
  obtain ⟨k1, q1⟩ := r1
  obtain ⟨k2, q2⟩ := r2
  obtain ⟨hk, h⟩ := h
  simp only at hk h ⊢
  subst hk
  split
  · exact Twin.pure Res.none
  · exact Twin.bind (Twin.cond rfl (Twin.bind startError_tw fun _ _ _ => finish_tw)) fun _ _ _ => Twin.pure h

theorem token_tw (hT : T.Ok) {ty : Nat} (hp : Within T.K true p) :
    Twin T A need N (parseToken T.env1 (sh T.w1 p) ty) (parseToken T.env2 (sh T.w2 p) ty) (Res T p) := by
  unfold parseToken
  refine Twin.bind (bump_tw hT hp) fun r1 r2 h => ?_
  obtain ⟨h1, h2⟩ := h
  cases r1 with
  | none =>
    obtain rfl : r2 = none := by simpa using h1.symm
    exact Twin.pure Res.none
  | some r1 =>
    cases r2 with
    | none => cases h1
    | some r2 =>
      obtain ⟨t1, q1⟩ := r1
      obtain ⟨t2, q2⟩ := r2
      simp only [Option.map_some, Option.some.injEq] at h1 h2
      subst h1
      dsimp only
      refine Twin.bind (nodeType_tw hT) fun t t' ht => ?_
      subst ht
      split
      · exact Twin.pure Res.none
      · exact Twin.pure h2

theorem rep_tw (hr : RecTwin T A need rec1 rec2) (hN : ∀ i ∈ need e, i ∈ N) {x : Nat}
    (hx : Sub A need e x) {n : Nat} (hp : Within T.K true p) :
    Twin T A need N (repLoop rec1 x n (sh T.w1 p)) (repLoop rec2 x n (sh T.w2 p)) (Res T p) := by
  induction n generalizing p with
  | zero => exact Twin.timeout
  | succ n ih =>
    unfold repLoop
    refine Twin.bind (sub_tw hr hN hx hp) fun r1 r2 h => ?_
    rcases h.cases hp with ⟨rfl, rfl⟩ | ⟨q, rfl, rfl, h3, h4⟩
    · exact Twin.pure (Res.self hp)
    · exact (ih h4).weaken fun _ _ h => Res.trans h3 h

theorem opt_tw (hr : RecTwin T A need rec1 rec2) (hN : ∀ i ∈ need e, i ∈ N) {x : Nat}
    (hx : Sub A need e x) (hp : Within T.K true p) :
    Twin T A need N (parseOpt rec1 (sh T.w1 p) x) (parseOpt rec2 (sh T.w2 p) x) (Res T p) := by
  unfold parseOpt
  refine Twin.bind (sub_tw hr hN hx hp) fun r1 r2 h => Twin.pure ?_
  rcases h.cases hp with ⟨rfl, rfl⟩ | ⟨q, rfl, rfl, h3, h4⟩
  · exact Res.self hp
  · exact h

theorem not_tw (hr : RecTwin T A need rec1 rec2) (hN : ∀ i ∈ need e, i ∈ N) {x : Nat}
    (hx : Sub A need e x) (hp : Within T.K true p) :
    Twin T A need N (parseNot rec1 (sh T.w1 p) x) (parseNot rec2 (sh T.w2 p) x) (Res T p) := by
  unfold parseNot
  refine Twin.bind (pred_tw hr hN hx hp) fun r1 r2 h => ?_
  rcases h.cases hp with ⟨rfl, rfl⟩ | ⟨q, rfl, rfl, h3, h4⟩
  · exact Twin.pure (Res.self hp)
  · exact Twin.pure Res.none

theorem layer_tw (hT : T.Ok) (hr : RecTwin T A need rec1 rec2) (hN : ∀ i ∈ need e, i ∈ N) {l x : Nat}
    (hl : Sub A need e l) (hx : Sub A need e x) (hp : Within T.K true p) :
    Twin T A need N (parseLayer T.env1 rec1 (sh T.w1 p) l x) (parseLayer T.env2 rec2 (sh T.w2 p) l x) (Res T p) := by
  unfold parseLayer
  refine Twin.bind (pred_tw hr hN hl hp) fun r1 r2 h => ?_
  rcases h.cases hp with ⟨rfl, rfl⟩ | ⟨q, rfl, rfl, h3, h4⟩
  · exact Twin.pure Res.none
  · have hin : Within T.K true (⟨p.cur, q.cur⟩ : Pos) := by
      obtain ⟨h5, h6, h7⟩ := h3 q rfl
      have := hp.2.1
      exact ⟨h6, by simp only; omega, by simp⟩
    have e1 : ∀ w, cutSuffix (sh w p) (sh w q) = sh w ⟨p.cur, q.cur⟩ := fun _ => rfl
    dsimp only
    rw [e1, e1]
    refine Twin.bind (sub_tw hr hN hx hin) fun r1 r2 h' => ?_
    have hlo : ∃ p', Within T.K true p' ∧ r1.getD (sh T.w1 ⟨p.cur, q.cur⟩) = sh T.w1 p' ∧
        r2.getD (sh T.w2 ⟨p.cur, q.cur⟩) = sh T.w2 p' := by
      rcases h'.cases hin with ⟨rfl, rfl⟩ | ⟨p', rfl, rfl, _, h8⟩
      · exact ⟨_, hin, rfl, rfl⟩
      · exact ⟨p', h8, rfl, rfl⟩
    obtain ⟨p', h5, h6, h7⟩ := hlo
    rw [h6, h7]
    refine Twin.bind (Twin.cond (by rw [sh_isEmpty, sh_isEmpty]) ?_) fun _ _ _ => Twin.pure h
    exact Twin.bind startError_tw fun _ _ _ => Twin.bind (bumpAll_tw hT h5) fun _ _ _ => finish_tw

theorem pub_tw (hT : T.Ok) (hr : RecTwin T A need rec1 rec2) (hN : ∀ i ∈ need e, i ∈ N) {ty x : Nat}
    (hx : Sub A need e x) (hp : Within T.K true p) :
    Twin T A need N (parsePub T.env1 rec1 (sh T.w1 p) ty x false) (parsePub T.env2 rec2 (sh T.w2 p) ty x false)
      (Res T p) := by
  unfold parsePub
  refine Twin.bind (Q := fun _ _ => True) ?_ fun _ _ _ => ?_
  · intro s1 s2 hs y1 s1' y2 s2' h1 h2
    obtain rfl := P.modify_ok.1 h1
    obtain rfl := P.modify_ok.1 h2
    exact ⟨trivial, hs⟩
  · refine Twin.bind (start_tw hT) fun _ _ _ => Twin.bind (sub_tw hr hN hx hp) fun r1 r2 h => ?_
    rcases h.cases hp with ⟨rfl, rfl⟩ | ⟨q, rfl, rfl, h3, h4⟩
    · exact Twin.pure Res.none
    · refine Twin.bind (Q := fun _ _ => True) ?_ fun _ _ _ => Twin.bind finish_tw fun _ _ _ =>
        Twin.bind (nodeType_tw hT) fun _ _ _ => Twin.bind setPrev_tw fun _ _ _ => Twin.pure h
      intro s1 s2 hs y1 s1' y2 s2' h1 h2
      have ha : ∀ (env : Env) (m : Nat) (s s' : PState) (y : Unit), applyReplacement env m false s = .ok y s' → s' = s := by
        intro env m s s' y h
        unfold applyReplacement at h
        obtain ⟨s0, s1, h0, h⟩ := P.bind_ok.1 h
        obtain ⟨rfl, rfl⟩ := P.get_ok.1 h0
        exact (P.pure_ok.1 h).2.symm
      rw [ha _ _ _ _ _ h1, ha _ _ _ _ _ h2]
      exact ⟨trivial, hs⟩

theorem setArgs_tw (hT : T.Ok) {args : List (Nat × Nat)} : ∀ (N : List Nat) (s1 s2 s1' s2' : PState) (u1 u2 : Unit),
    Rel T A need N s1 s2 →
    (∀ x ∈ args, ∀ rule, T.env2.grammar.rules[x.2]? = some rule →
      (∀ j, rule = .var j → j ∈ N) ∧ ((∀ j, rule ≠ .var j) → A x.2 ∧ need x.2 = [])) →
    setArgs T.env1 args s1 = .ok u1 s1' → setArgs T.env2 args s2 = .ok u2 s2' →
    Rel T A need (args.map (·.1) ++ N) s1' s2' := by
  induction args with
  | nil =>
    intro N s1 s2 s1' s2' u1 u2 hs _ h1 h2
    obtain ⟨_, rfl⟩ := P.pure_ok.1 h1
    obtain ⟨_, rfl⟩ := P.pure_ok.1 h2
    exact hs
  | cons x args ih =>
    obtain ⟨i, a⟩ := x
    intro N s1 s2 s1' s2' u1 u2 hs hargs h1 h2
    have step : ∀ (env : Env) (s s' : PState) (u : Unit), setArgs env ((i, a) :: args) s = .ok u s' →
        ∃ a' rule, env.grammar.rules[a]? = some rule ∧ i < s.args.length ∧
          (match rule with | .var j => s.args[j]?.join | _ => some a) = some a' ∧
          setArgs env args { s with args := s.args.set i (some a') } = .ok u s' := by
      intro env s s' u h
      unfold setArgs at h
      obtain ⟨a', t, hr, hk⟩ := P.bind_ok.1 h
      have ht := resolveArg_state hr
      rw [ht] at hk
      unfold resolveArg at hr
      obtain ⟨s0, t0, hg, hr⟩ := P.bind_ok.1 hr
      obtain ⟨rfl, rfl⟩ := P.get_ok.1 hg
      obtain ⟨rule, t1, h5, hr⟩ := P.bind_ok.1 hr
      obtain ⟨hrule, rfl⟩ := P.lift_ok.1 h5
      obtain ⟨s1, t0, hg', hk⟩ := P.bind_ok.1 hk
      obtain ⟨rfl, rfl⟩ := P.get_ok.1 hg'
      split at hk
      · obtain ⟨_, t2, h6, hk⟩ := P.bind_ok.1 hk
        obtain rfl := P.modify_ok.1 h6
        refine ⟨a', rule, hrule, ‹_›, ?_, hk⟩
        split at hr
        · exact (P.lift_ok.1 hr).1
        · rename_i hv
          obtain ⟨rfl, _⟩ := P.pure_ok.1 hr
          split
          · exact absurd rfl (hv _)
          · rfl
      · exact (P.panic_ok.1 hk).elim
    obtain ⟨a1, rule1, h3, h4, h5, h6⟩ := step _ _ _ _ h1
    obtain ⟨a2, rule2, h7, h8, h9, h10⟩ := step _ _ _ _ h2
    rw [hT.grammar, h7] at h3
    cases h3
    obtain ⟨hv, hn⟩ := hargs (i, a) (by simp) rule1 h7
    have ha : a1 = a2 ∧ A a1 ∧ need a1 = [] := by
      split at h5
      · rename_i j
        have hj := hv j rfl
        rw [hs.args j hj] at h5
        simp only at h9
        rw [h5] at h9
        refine ⟨Option.some.inj h9, ?_⟩
        refine hs.fine j hj a1 ?_
        rw [hs.args j hj]
        cases ho : s2.args[j]? with
        | none => simp [ho] at h5
        | some o => simpa [ho] using h5
      · rename_i hnv
        split at h9
        · exact absurd rfl (hnv _)
        · obtain rfl := Option.some.inj h5
          exact ⟨Option.some.inj h9, hn fun j hj => hnv j hj⟩
    obtain ⟨rfl, ha1, ha2⟩ := ha
    have hs' : Rel T A need (i :: N) { s1 with args := s1.args.set i (some a1) }
        { s2 with args := s2.args.set i (some a1) } := by
      refine ⟨hs.events, hs.mode, ?_, ?_⟩
      · intro k hk
        simp only [List.getElem?_set]
        by_cases hik : i = k
        · subst hik
          rw [if_pos rfl, if_pos rfl, if_pos h4, if_pos h8]
        · rw [if_neg hik, if_neg hik]
          exact hs.args k ((List.mem_cons.1 hk).resolve_left fun h => hik h.symm)
      · intro k hk b hb
        simp only [List.getElem?_set] at hb
        by_cases hik : i = k
        · subst hik
          rw [if_pos rfl, if_pos h4] at hb
          cases hb
          exact ⟨ha1, ha2⟩
        · rw [if_neg hik] at hb
          exact hs.fine k ((List.mem_cons.1 hk).resolve_left fun h => hik h.symm) b hb
    have := ih (i :: N) _ _ _ _ _ _ hs' (fun x hx rule hr => by
      obtain ⟨h11, h12⟩ := hargs x (by simp [hx]) rule hr
      exact ⟨fun j hj => by simp [h11 j hj], h12⟩) h6 h10
    refine this.mono fun k hk => ?_
    simp only [List.map_cons, List.cons_append, List.mem_cons, List.mem_append] at hk ⊢
    rcases hk with rfl | hk | hk
    · exact Or.inr (Or.inl rfl)
    · exact Or.inl hk
    · exact Or.inr (Or.inr hk)

theorem call_tw (hT : T.Ok) (hr : RecTwin T A need rec1 rec2) (hN : ∀ i ∈ need e, i ∈ N) {x : Nat}
    {args : List (Nat × Nat)} (hx : A x) (hne : ∀ i ∈ need x, i ∈ need e ∨ i ∈ args.map (·.1))
    (hargs : ∀ y ∈ args, ∀ rule, T.env2.grammar.rules[y.2]? = some rule →
      (∀ j, rule = .var j → j ∈ need e) ∧ ((∀ j, rule ≠ .var j) → A y.2 ∧ need y.2 = []))
    (hp : Within T.K true p) :
    Twin T A need N (parseCall T.env1 rec1 (sh T.w1 p) x args) (parseCall T.env2 rec2 (sh T.w2 p) x args) (Res T p) := by
  intro s1 s2 hs r1 s1' r2 s2' h1 h2
  unfold parseCall at h1 h2
  obtain ⟨s0, t1, h3, h1⟩ := P.bind_ok.1 h1
  obtain ⟨rfl, rfl⟩ := P.get_ok.1 h3
  obtain ⟨u1, t1, h3, h1⟩ := P.bind_ok.1 h1
  obtain ⟨x1, t3, h5, h1⟩ := P.bind_ok.1 h1
  obtain ⟨_, t5, h7, h1⟩ := P.bind_ok.1 h1
  obtain rfl := P.modify_ok.1 h7
  obtain ⟨rfl, rfl⟩ := P.pure_ok.1 h1
  obtain ⟨s0, t2, h4, h2⟩ := P.bind_ok.1 h2
  obtain ⟨rfl, rfl⟩ := P.get_ok.1 h4
  obtain ⟨u2, t2, h4, h2⟩ := P.bind_ok.1 h2
  obtain ⟨x2, t4, h6, h2⟩ := P.bind_ok.1 h2
  obtain ⟨_, t6, h8, h2⟩ := P.bind_ok.1 h2
  obtain rfl := P.modify_ok.1 h8
  obtain ⟨rfl, rfl⟩ := P.pure_ok.1 h2
  have h9 := setArgs_tw hT N _ _ _ _ _ _ hs (fun y hy rule hrule => by
    obtain ⟨h10, h11⟩ := hargs y hy rule hrule
    exact ⟨fun j hj => hN j (h10 j hj), h11⟩) h3 h4
  obtain ⟨h10, h11⟩ := hr x hx (args.map (·.1) ++ N) (fun i hi => by
    rcases hne i hi with h | h
    · exact List.mem_append_right _ (hN i h)
    · exact List.mem_append_left _ h) p hp _ _ h9 _ _ _ _ h5 h6
  exact ⟨h10, h11.events, h11.mode, hs.args, hs.fine⟩

theorem var_tw (hr : RecTwin T A need rec1 rec2) {i : Nat} (hi : i ∈ N) (hp : Within T.K true p) :
    Twin T A need N (parseVar rec1 (sh T.w1 p) i) (parseVar rec2 (sh T.w2 p) i) (Res T p) := by
  intro s1 s2 hs r1 s1' r2 s2' h1 h2
  have step : ∀ (rec : Rec) (p : Pos) (s s' : PState) (r : Option Pos), parseVar rec p i s = .ok r s' →
      ∃ a : Nat, s.args[i]? = some (some a) ∧ rec a p s = .ok r s' := by
    intro rec p s s' r h
    unfold parseVar at h
    obtain ⟨s0, t1, h3, h⟩ := P.bind_ok.1 h
    obtain ⟨rfl, rfl⟩ := P.get_ok.1 h3
    obtain ⟨a1, t1, h3, h⟩ := P.bind_ok.1 h
    obtain ⟨h4, rfl⟩ := P.lift_ok.1 h3
    refine ⟨a1, ?_, h⟩
    cases ho : s0.args[i]? with
    | none => simp [ho] at h4
    | some o => simpa [ho] using h4
  obtain ⟨a1, h3, h4⟩ := step _ _ _ _ _ h1
  obtain ⟨a2, h5, h6⟩ := step _ _ _ _ _ h2
  have h7 := h3
  rw [hs.args i hi, h5] at h7
  cases h7
  obtain ⟨h8, h9⟩ := hs.fine i hi _ h3
  exact hr _ h8 N (by simp [h9]) p hp _ _ hs _ _ _ _ h4 h6

/-! Operator expressions. -/

/-- `pratt_go` in both files. -/
def GoTwin (T : Two) (A : Nat → Prop) (need : Nat → List Nat) (N : List Nat) (go1 go2 : Pos → Nat → P (Option Pos)) :
    Prop :=
  ∀ k p, Within T.K true p → Twin T A need N (go1 (sh T.w1 p) k) (go2 (sh T.w2 p) k) (Res T p)

variable {go1 go2 : Pos → Nat → P (Option Pos)}

theorem rhs_tw (hg : GoTwin T A need N go1 go2) {ix : Infix} (hp : Within T.K true p) :
    Twin T A need N (prattRhs go1 ix (sh T.w1 p)) (prattRhs go2 ix (sh T.w2 p))
      (fun q1 q2 => Res T p (some q1) (some q2)) := by
  unfold prattRhs
  split
  · refine Twin.bind (hg _ p hp) fun r1 r2 h => ?_
    rcases h.cases hp with ⟨rfl, rfl⟩ | ⟨q, rfl, rfl, h3, h4⟩
    · exact Twin.bind startError_tw fun _ _ _ => Twin.bind finish_tw fun _ _ _ => Twin.pure (Res.self hp)
    · exact Twin.pure h
  · exact Twin.pure (Res.self hp)

theorem infixes_tw (hT : T.Ok) (hr : RecTwin T A need rec1 rec2) (hN : ∀ i ∈ need e, i ∈ N)
    (hg : GoTwin T A need N go1 go2) {ixs : List Infix} (hx : ∀ x ∈ ixs, Sub A need e x.op) {l1 l2 : Nat}
    (hl : SameMark T l1 l2) (hp : Within T.K true p) :
    Twin T A need N (prattInfixes T.env1 rec1 go1 l1 (sh T.w1 p) ixs)
      (prattInfixes T.env2 rec2 go2 l2 (sh T.w2 p) ixs)
      (fun r1 r2 => (r1 = none ∧ r2 = none) ∨ ∃ m1 m2 q, r1 = some (m1, sh T.w1 q) ∧ r2 = some (m2, sh T.w2 q) ∧
        SameMark T m1 m2 ∧ After p (some q) ∧ Within T.K true q) := by
  induction ixs with
  | nil => exact Twin.pure (Or.inl ⟨rfl, rfl⟩)
  | cons ix ixs ih =>
    unfold prattInfixes
    refine Twin.bind mark_tw fun n1 n2 hn => Twin.bind (start_tw hT) fun m1 m2 hm =>
      Twin.bind (sub_tw hr hN (hx ix (by simp)) hp) fun r1 r2 h => ?_
    rcases h.cases hp with ⟨rfl, rfl⟩ | ⟨q, rfl, rfl, h3, h4⟩
    · exact Twin.bind (rollback_tw hm) fun _ _ _ => ih fun x hx' => hx x (by simp [hx'])
    · refine Twin.bind (forwardParent_tw hl hm) fun _ _ _ => Twin.bind (rhs_tw hg h4) fun q1 q2 h5 => ?_
      refine Twin.bind (nodeType_tw hT) fun _ _ _ => Twin.bind setPrev_tw fun _ _ _ =>
        Twin.bind finish_tw fun _ _ _ => Twin.pure (Or.inr ?_)
      rcases h5.cases h4 with ⟨h6, _⟩ | ⟨q', h6, h7, h8, h9⟩
      · cases h6
      · cases h6
        cases h7
        exact ⟨n1, n2, q', rfl, rfl, hn, h3.trans h8, h9⟩

theorem prattLoop_tw (hT : T.Ok) (hr : RecTwin T A need rec1 rec2) (hN : ∀ i ∈ need e, i ∈ N)
    (hg : GoTwin T A need N go1 go2) {t : PrattTable} (hx : ∀ x ∈ t.infixes, Sub A need e x.op) {k n l1 l2 : Nat}
    (hl : SameMark T l1 l2) (hp : Within T.K true p) :
    Twin T A need N (prattLoop T.env1 rec1 go1 t k n l1 (sh T.w1 p)) (prattLoop T.env2 rec2 go2 t k n l2 (sh T.w2 p))
      (Res T p) := by
  induction n generalizing l1 l2 p with
  | zero => exact Twin.timeout
  | succ n ih =>
    unfold prattLoop
    refine Twin.bind (infixes_tw hT hr hN hg (fun x hx' => hx x (List.mem_filter.1 hx').1) hl hp) fun r1 r2 h => ?_
    rcases h with ⟨rfl, rfl⟩ | ⟨m1, m2, q, rfl, rfl, h1, h2, h3⟩
    · exact Twin.pure (Res.self hp)
    · exact (ih h1 h3).weaken fun _ _ h => Res.trans h2 h

theorem prefixes_tw (hT : T.Ok) (hr : RecTwin T A need rec1 rec2) (hN : ∀ i ∈ need e, i ∈ N)
    (hg : GoTwin T A need N go1 go2) {pfs : List Prefix} (hx : ∀ x ∈ pfs, Sub A need e x.op)
    (hp : Within T.K true p) :
    Twin T A need N (prattPrefixes T.env1 rec1 go1 (sh T.w1 p) pfs) (prattPrefixes T.env2 rec2 go2 (sh T.w2 p) pfs)
      (Res T p) := by
  induction pfs with
  | nil => exact Twin.pure Res.none
  | cons pf pfs ih =>
    unfold prattPrefixes
    refine Twin.bind (start_tw hT) fun m1 m2 hm => Twin.bind (Q := Res T p) ?_ fun r1 r2 h => ?_
    · unfold prattOperand
      refine Twin.bind (sub_tw hr hN (hx pf (by simp)) hp) fun r1 r2 h => ?_
      rcases h.cases hp with ⟨rfl, rfl⟩ | ⟨q, rfl, rfl, h3, h4⟩
      · exact Twin.pure Res.none
      · exact (hg _ q h4).weaken fun _ _ h => Res.trans h3 h
    · rcases h.cases hp with ⟨rfl, rfl⟩ | ⟨q, rfl, rfl, h3, h4⟩
      · exact Twin.bind (rollback_tw hm) fun _ _ _ => ih fun x hx' => hx x (by simp [hx'])
      · exact Twin.bind (nodeType_tw hT) fun _ _ _ => Twin.bind setPrev_tw fun _ _ _ =>
          Twin.bind finish_tw fun _ _ _ => Twin.pure h

theorem go_tw (hT : T.Ok) (hr : RecTwin T A need rec1 rec2) (hN : ∀ i ∈ need e, i ∈ N) {t : PrattTable}
    (hx : (∀ a ∈ t.atoms, Sub A need e a) ∧ (∀ x ∈ t.prefixes, Sub A need e x.op) ∧
      ∀ x ∈ t.infixes, Sub A need e x.op) (n : Nat) :
    GoTwin T A need N (prattGo T.env1 rec1 t n) (prattGo T.env2 rec2 t n) := by
  induction n with
  | zero => exact fun _ _ _ => Twin.timeout
  | succ n ih =>
    intro k p hp
    unfold prattGo
    refine Twin.bind mark_tw fun l1 l2 hl => Twin.bind (Q := Res T p) ?_ fun r1 r2 h => ?_
    · unfold prattPrefix
      refine Twin.bind (or_tw hr hN hx.1 hp) fun r1 r2 h => ?_
      rcases h.cases hp with ⟨rfl, rfl⟩ | ⟨q, rfl, rfl, h3, h4⟩
      · exact prefixes_tw hT hr hN ih hx.2.1 hp
      · exact Twin.pure h
    · rcases h.cases hp with ⟨rfl, rfl⟩ | ⟨q, rfl, rfl, h3, h4⟩
      · exact Twin.pure Res.none
      · exact (prattLoop_tw hT hr hN ih hx.2.2 hl h4).weaken fun _ _ h => Res.trans h3 h

/-- The two runs of an expression from `A`. -/
theorem parseExpr_tw (hT : T.Ok)
    (hA : ∀ e, A e → ∀ rule, T.env2.grammar.rules[e]? = some rule → TwinRule A need T.env2.grammar e rule) (n : Nat) :
    RecTwin T A need (parseExpr T.env1 n) (parseExpr T.env2 n) := by
  induction n with
  | zero => exact fun _ _ _ _ _ _ => Twin.timeout
  | succ n ih =>
    intro e he N hN p hp
    unfold parseExpr
    refine Twin.bind tick_tw fun _ _ _ => Twin.bind mark_tw fun m1 m2 hm => Twin.bind (Q := Res T p) ?_
      fun r1 r2 h => Twin.bind (Twin.cond ?_ (rollback_tw hm)) fun _ _ _ => Twin.pure h
    · unfold parseExprInner
      have hl : Twin T A need N (P.lift T.env1.grammar.rules[e]?) (P.lift T.env2.grammar.rules[e]?)
          (fun x y => x = y ∧ T.env2.grammar.rules[e]? = some y) := by
        intro s1 s2 hs x1 s1' x2 s2' h1 h2
        obtain ⟨h3, h4⟩ := Twin.lift (T := T) (A := A) (need := need) (N := N) (by rw [hT.grammar]) s1 s2 hs _ _ _ _ h1 h2
        exact ⟨⟨h3, (P.lift_ok.1 h2).1⟩, h4⟩
      refine Twin.bind hl fun rule rule2 hrule => ?_
      obtain ⟨rfl, hrule⟩ := hrule
      have hok := hA e he rule hrule
      cases rule with
      | pub ty body rp =>
        obtain ⟨rfl, hok⟩ := hok
        exact pub_tw hT ih hN hok hp
      | or ps => exact or_tw ih hN hok hp
      | and ps c => exact and_tw ih hN hok hp
      | token ty => exact token_tw hT hp
      | rep x => exact rep_tw ih hN hok hp
      | opt x => exact opt_tw ih hN hok hp
      | not x => exact not_tw ih hN hok hp
      | eof =>
        refine Twin.pure ?_
        rw [sh_isEmpty, sh_isEmpty]
        split
        · exact Res.self hp
        · exact Res.none
      | any =>
        refine Twin.bind (bump_tw hT hp) fun r1 r2 h => ?_
        obtain ⟨h1, h2⟩ := h
        cases r1 with
        | none =>
          obtain rfl : r2 = none := by simpa using h1.symm
          exact Twin.pure Res.none
        | some r1 =>
          cases r2 with
          | none => cases h1
          | some r2 => exact Twin.pure h2
      | layer l x => exact layer_tw hT ih hN hok.1 hok.2 hp
      | pratt t => exact go_tw hT ih hN hok n 0 p hp
      | call x args => exact call_tw hT ih hN hok.1 hok.2.1 hok.2.2 hp
      | var i => exact var_tw ih (hN i hok) hp
      | _ => exact hok.elim
    · rcases h.cases hp with ⟨rfl, rfl⟩ | ⟨q, rfl, rfl, _, _⟩ <;> rfl

end Parser

end Fall
