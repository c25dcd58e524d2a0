import Verif.Lemmas.Twin
import Verif.Props.Balanced

/-!
A rule of a Fall file that was parsed without errors is parsed in the same way wherever else its text is
found: comparing the two runs part by part.
-/

namespace Fall

open Spec

namespace Parser

variable {T : Two} {A : Nat → Prop} {need : Nat → List Nat} {t1 t2 t1' t2' : PState}

theorem runs_le {env : Env} (hc : env.cache = none) {e : Nat} {pos q : Pos} {s s' : PState}
    (h : Runs env e pos s (some q) s') : pos.cur ≤ q.cur ∧ q.stop = pos.stop := by
  obtain ⟨n, h⟩ := h
  obtain ⟨hm, I, hI, _⟩ := (parseExpr_reads hc _ _ _ _ _ h).2 q rfl
  have := hI.expr_toks
  exact ⟨by omega, hm.stop⟩

theorem runs_grow {env : Env} (hc : env.cache = none) {e : Nat} {pos : Pos} {r : Option Pos} {s s' : PState}
    (h : Runs env e pos s r s') : s.events <+: s'.events := by
  cases r with
  | none => rw [h.fail_events]; exact List.prefix_refl _
  | some q =>
    obtain ⟨n, h⟩ := h
    obtain ⟨hm, I, hI, ha⟩ := (parseExpr_reads hc _ _ _ _ _ h).2 q rfl
    rw [ha.events, app]
    split
    · exact List.prefix_refl _
    · exact List.prefix_append _ _

theorem inTurn_grow {env : Env} (hc : env.cache = none) {ps : List Nat} {pos q : Pos} {k : Nat} {s s' : PState}
    (h : InTurn env ps pos s k q s') : s.events <+: s'.events := by
  induction h with
  | all => exact List.prefix_refl _
  | stuck h => exact runs_grow hc h
  | step h _ ih => exact (runs_grow hc h).trans ih

theorem inTurn_count {env : Env} {ps : List Nat} {pos q : Pos} {k : Nat} {s s' : PState}
    (h : InTurn env ps pos s k q s') : k ≤ ps.length := by
  induction h with
  | all => simp
  | stuck => simp
  | step _ _ ih => simpa using ih

theorem inTurn_le {env : Env} (hc : env.cache = none) {ps : List Nat} {pos q : Pos} {k : Nat} {s s' : PState}
    (h : InTurn env ps pos s k q s') : pos.cur ≤ q.cur ∧ q.stop = pos.stop := by
  induction h with
  | all => exact ⟨Nat.le_refl _, rfl⟩
  | stuck h => exact ⟨Nat.le_refl _, rfl⟩
  | step h _ ih =>
    obtain ⟨h1, h2⟩ := runs_le hc h
    exact ⟨by omega, ih.2.trans h2⟩

theorem inTurn_scope {env : Env} {ps : List Nat} {pos q : Pos} {k : Nat} {s s' : PState}
    (h : InTurn env ps pos s k q s') : SameScope s s' := by
  induction h with
  | all => exact ⟨rfl, rfl, rfl⟩
  | stuck h => exact Runs.scope h
  | step h _ ih =>
    obtain ⟨h1, h2, h3⟩ := Runs.scope h
    exact ⟨ih.1.trans h1, ih.2.1.trans h2, ih.2.2.trans h3⟩

/-- The tokens from a position on. -/
theorem input_at {env : Env} (hE : EnvOk env) {i stop : Nat} (h1 : i ≤ stop) (h2 : stop ≤ env.nonWs.length) :
    ∃ ts, Input env ⟨i, stop⟩ ts := by
  obtain ⟨d, rfl⟩ := Nat.exists_eq_add_of_le h1
  clear h1
  induction d generalizing i with
  | zero => exact ⟨[], .nil rfl⟩
  | succ d ih =>
    obtain ⟨off, k, t, _, _, h3, _⟩ := sigToken_of hE (i := i) (by omega)
    obtain ⟨ts, h4⟩ := ih (i := i + 1) (by omega)
    refine ⟨t.ty :: ts, .cons (by simp) (by simp [sigTy, h3]) ?_⟩
    rwa [show i + (d + 1) = i + 1 + d by omega]

theorem input_get {env : Env} {pos : Pos} {ts : List NodeType} (h : Input env pos ts) :
    ∀ {i : Nat}, i < ts.length → ts[i]? = sigTy env (pos.cur + i) := by
  induction h with
  | nil h => intro i hi; simp at hi
  | cons h1 h2 h3 ih =>
    intro i hi
    cases i with
    | zero => simp [h2]
    | succ i =>
      rw [List.getElem?_cons_succ, ih (by simpa using hi)]
      congr 1
      simp only
      omega

namespace Rel

theorem tick {N : List Nat} (h : Rel T A need N t1 t2) : Rel T A need N (ticked t1) (ticked t2) :=
  ⟨h.events, h.mode, h.args, h.fine⟩

theorem emit {N : List Nat} (h : Rel T A need N t1 t2) (es : List Event) :
    Rel T A need N (emit t1 es) (emit t2 es) := by
  unfold Spec.emit
  have hm := h.mode
  split
  · rename_i h'
    rw [if_pos (hm ▸ h')]
    exact h
  · rename_i h'
    rw [if_neg (hm ▸ h')]
    obtain ⟨F, h3, h4⟩ := h.events
    exact ⟨⟨F ++ es, by simp [h3], by simp [h4]⟩, h.mode, h.args, h.fine⟩

theorem of {N : List Nat} (h : Rel T A need N t1 t2) (h1 : t1'.events = t1.events) (h2 : t2'.events = t2.events)
    (h3 : t1'.predicate = t1.predicate) (h4 : t2'.predicate = t2.predicate) : Rel T A need [] t1' t2' :=
  ⟨by rw [h1, h2]; exact h.events, by rw [h3, h4]; exact h.mode, by simp, by simp⟩

theorem fail {x : Nat} {p1 p2 : Pos} (h : Rel T A need [] t1 t2) (h1 : Runs T.env1 x p1 t1 none t1')
    (h2 : Runs T.env2 x p2 t2 none t2') : Rel T A need [] t1' t2' :=
  h.of h1.fail_events h2.fail_events (Runs.scope h1).1 (Runs.scope h2).1

theorem look (hc1 : T.env1.cache = none) (hc2 : T.env2.cache = none) {x : Nat} {p1 p2 : Pos} {r1 r2 : Option Pos}
    (h : Rel T A need [] t1 t2) (h1 : Looks T.env1 x p1 t1 r1 t1')
    (h2 : Looks T.env2 x p2 t2 r2 t2') : Rel T A need [] t1' t2' :=
  h.of (adv_nil (looks_adv hc1 h1)) (adv_nil (looks_adv hc2 h2)) (looks_adv hc1 h1).predicate
    (looks_adv hc2 h2).predicate

end Rel

/-- Both files with the piece, whose parts are compared. -/
structure Piece (T : Two) (S1 S2 : Nat) : Prop where
  ok : T.Ok
  cache1 : T.env1.cache = none
  cache2 : T.env2.cache = none
  env1 : EnvOk T.env1
  env2 : EnvOk T.env2
  stop1 : S1 = T.env1.nonWs.length
  stop2 : S2 = T.env2.nonWs.length
  in1 : T.w1 + T.K ≤ S1
  in2 : T.w2 + T.K ≤ S2
  spelled : ∀ i n w, w ≠ [] → i + n ≤ T.K → SpelledBy T.env1 (T.w1 + i) n w → SpelledBy T.env2 (T.w2 + i) n w

variable {S1 S2 : Nat}

theorem Piece.sigTy (h : Piece T S1 S2) {i : Nat} (hi : i < T.K) :
    sigTy T.env1 (T.w1 + i) = sigTy T.env2 (T.w2 + i) := by
  unfold Spec.sigTy
  rw [h.ok.tok i hi]

theorem Piece.sigLen (h : Piece T S1 S2) {i n : Nat} (hi : i + n ≤ T.K) :
    sigLen T.env1 (T.w1 + i) n = sigLen T.env2 (T.w2 + i) n := by
  induction n generalizing i with
  | zero => rfl
  | succ n ih =>
    simp only [Spec.sigLen]
    rw [h.ok.tok i (by omega)]
    have := ih (i := i + 1) (by omega)
    rw [show T.w1 + (i + 1) = T.w1 + i + 1 by omega, show T.w2 + (i + 1) = T.w2 + i + 1 by omega] at this
    rw [this]

/-- The same result at the top of the files. -/
def Same (T : Two) (S1 S2 i : Nat) (r1 r2 : Option Pos) : Prop :=
  r1 = none ∧ r2 = none ∨ ∃ j, i ≤ j ∧ j ≤ T.K ∧ r1 = some ⟨T.w1 + j, S1⟩ ∧ r2 = some ⟨T.w2 + j, S2⟩

theorem rest_same (hT : T.Ok) {p : Pos} {es1 es2 : List Event} (hp : Within T.K true p)
    (h1 : Rest T.env1 (sh T.w1 p) es1) (h2 : Rest T.env2 (sh T.w2 p) es2) : es1 = es2 := by
  obtain ⟨c, stop⟩ := p
  obtain ⟨d, hd⟩ := Nat.exists_eq_add_of_le hp.1
  simp only at hd
  subst hd
  induction d generalizing c es1 es2 with
  | zero =>
    cases h1 with
    | cons h _ _ => simp [sh] at h
    | nil =>
      cases h2 with
      | cons h _ _ => simp [sh] at h
      | nil => rfl
  | succ d ih =>
    cases h1 with
    | nil h => simp [sh] at h
    | cons _ h3 h4 =>
      cases h2 with
      | nil h => simp [sh] at h
      | cons _ h5 h6 =>
        have hlt : c < T.K := by have := hp.2.1; simp only at this; omega
        simp only [sh, sigTy, hT.tok c hlt] at h3 h5
        rw [h3] at h5
        cases h5
        congr 1
        refine ih (c := c + 1) ⟨by simp, by have := hp.2.1; simp only at this ⊢; omega, by simp⟩ ?_ ?_
        · have : (sh T.w1 ⟨c + 1, c + 1 + d⟩) = ⟨(sh T.w1 ⟨c, c + (d + 1)⟩).cur + 1, (sh T.w1 ⟨c, c + (d + 1)⟩).stop⟩ := by
            simp only [sh, Pos.mk.injEq]
            omega
          rw [this]
          exact h4
        · have : (sh T.w2 ⟨c + 1, c + 1 + d⟩) = ⟨(sh T.w2 ⟨c, c + (d + 1)⟩).cur + 1, (sh T.w2 ⟨c, c + (d + 1)⟩).stop⟩ := by
            simp only [sh, Pos.mk.injEq]
            omega
          rw [this]
          exact h6

/-- The closed expressions in a layer of the piece. -/
theorem body_same (hT : T.Ok)
    (hA : ∀ e, A e → ∀ rule, T.env2.grammar.rules[e]? = some rule → TwinRule A need T.env2.grammar e rule)
    {x i j : Nat} (hx : A x ∧ need x = []) (hij : i ≤ j) (hj : j ≤ T.K) {r1 r2 : Option Pos}
    (hs : Rel T A need [] t1 t2) (h1 : Runs T.env1 x ⟨T.w1 + i, T.w1 + j⟩ t1 r1 t1')
    (h2 : Runs T.env2 x ⟨T.w2 + i, T.w2 + j⟩ t2 r2 t2') :
    Res T ⟨i, j⟩ r1 r2 ∧ Rel T A need [] t1' t2' := by
  obtain ⟨n, h1⟩ := of_runs h1
  obtain ⟨m, h2⟩ := of_runs h2
  exact parseExpr_tw hT hA (max n m) x hx.1 [] (by simp [hx.2]) ⟨i, j⟩ ⟨hij, hj, by simp⟩ _ _ hs _ _ _ _
    (h1 _ (Nat.le_max_left _ _)) (h2 _ (Nat.le_max_right _ _))

/-- A layer with the same bound. -/
theorem layer_same (hP : Piece T S1 S2)
    (hA : ∀ e, A e → ∀ rule, T.env2.grammar.rules[e]? = some rule → TwinRule A need T.env2.grammar e rule)
    {e l x i j : Nat} (he : T.env2.grammar.rules[e]? = some (.layer l x)) (hx : A x ∧ need x = [])
    (hij : i ≤ j) (hj : j ≤ T.K) {r1 r2 : Option Pos}
    (hs : Rel T A need [] t1 t2) (h1 : Runs T.env1 e ⟨T.w1 + i, S1⟩ t1 r1 t1')
    (h2 : Runs T.env2 e ⟨T.w2 + i, S2⟩ t2 r2 t2')
    (hl1 : ∀ s r s', Runs T.env1 l ⟨T.w1 + i, S1⟩ s r s' → r = some ⟨T.w1 + j, S1⟩ ∨ r1 = some ⟨T.w1 + j, S1⟩)
    (hl2 : ∀ s r s', Runs T.env2 l ⟨T.w2 + i, S2⟩ s r s' → r = some ⟨T.w2 + j, S2⟩) :
    r1 = some ⟨T.w1 + j, S1⟩ ∧ r2 = some ⟨T.w2 + j, S2⟩ ∧ Rel T A need [] t1' t2' := by
  obtain ⟨rl1, u1, hl3, h1⟩ := (runs_layer (by rw [hP.ok.grammar]; exact he)).1 h1
  obtain ⟨rl2, u2, hl4, h2⟩ := (runs_layer he).1 h2
  have hrl2 : rl2 = some ⟨T.w2 + j, S2⟩ := by
    obtain ⟨v, hv, _⟩ := hl4
    exact hl2 _ _ _ hv
  have hrl1 : rl1 = some ⟨T.w1 + j, S1⟩ := by
    obtain ⟨v, hv, _⟩ := hl3
    rcases hl1 _ _ _ hv with h | h
    · exact h
    · rcases h1 with ⟨_, h3, _⟩ | ⟨rest, _, _, _, h3, _, _, h4, _⟩
      · rw [h] at h3; cases h3
      · rw [h3, ← h4, h]
  subst hrl1 hrl2
  have hs1 := (hs.tick).look hP.cache1 hP.cache2 hl3 hl4
  rcases h1 with ⟨h, _⟩ | ⟨rest1, rb1, v1, es1, h3, h4, h5, h6, h7⟩
  · cases h
  rcases h2 with ⟨h, _⟩ | ⟨rest2, rb2, v2, es2, h8, h9, h10, h11, h12⟩
  · cases h
  cases h3
  cases h8
  subst h6 h7 h11 h12
  obtain ⟨hres, hs2⟩ := body_same hP.ok hA hx hij hj hs1 h4 h9
  refine ⟨rfl, rfl, ?_⟩
  have hin : Within T.K true (⟨i, j⟩ : Pos) := ⟨hij, hj, by simp⟩
  have hes : es1 = es2 := by
    rcases hres.cases hin with ⟨rfl, rfl⟩ | ⟨q, rfl, rfl, _, hq⟩
    · exact rest_same hP.ok hin h5 h10
    · exact rest_same hP.ok hq h5 h10
  subst hes
  exact hs2.emit _

/-- A token. -/
theorem token_same (hP : Piece T S1 S2) {x i : Nat} {t : NodeType} (hx : IsToken T.env2.grammar x t)
    {q1 : Pos} {r2 : Option Pos} (hs : Rel T A need [] t1 t2)
    (h1 : Runs T.env1 x ⟨T.w1 + i, S1⟩ t1 (some q1) t1') (hq : q1.cur ≤ T.w1 + T.K)
    (h2 : Runs T.env2 x ⟨T.w2 + i, S2⟩ t2 r2 t2') :
    i + 1 ≤ T.K ∧ q1 = ⟨T.w1 + (i + 1), S1⟩ ∧ r2 = some ⟨T.w2 + (i + 1), S2⟩ ∧
      sigTy T.env1 (T.w1 + i) = some t ∧ Rel T A need [] t1' t2' := by
  obtain ⟨ty, h3, h4⟩ := hx
  rcases (runs_token (by rw [hP.ok.grammar]; exact h3)).1 h1 with ⟨_, h, _⟩ | ⟨a, a', h5, h6, h7, h8⟩
  · cases h
  rw [hP.ok.grammar, h4] at h7
  cases h7
  rcases h8 with ⟨_, h, _⟩ | ⟨rfl, h9, rfl⟩
  · cases h
  cases h9
  simp only [Pos.next] at hq
  simp only at h6
  have hi : i < T.K := by omega
  refine ⟨hi, rfl, ?_⟩
  have h10 := h6
  rw [hP.sigTy hi] at h10
  rcases (runs_token h3).1 h2 with ⟨h, _⟩ | ⟨b, b', h11, h12, h13, h14⟩
  · have := hP.in2
    simp only at h
    omega
  rw [h4] at h13
  cases h13
  simp only at h12
  rw [h10] at h12
  cases h12
  rcases h14 with ⟨h, _⟩ | ⟨_, rfl, rfl⟩
  · exact absurd rfl h
  · exact ⟨rfl, h6, hs.tick.emit _⟩

/-- No token of this type. -/
theorem token_fails (hP : Piece T S1 S2) {x i : Nat} {t : NodeType} (hx : IsToken T.env2.grammar x t)
    (hi : i < T.K) (hne : sigTy T.env1 (T.w1 + i) ≠ some t) {r2 : Option Pos}
    (h2 : Runs T.env2 x ⟨T.w2 + i, S2⟩ t2 r2 t2') : r2 = none := by
  obtain ⟨ty, h3, h4⟩ := hx
  rw [hP.sigTy hi] at hne
  rcases (runs_token h3).1 h2 with ⟨_, h, _⟩ | ⟨b, b', h11, h12, h13, h14⟩
  · exact h
  · rcases h14 with ⟨_, h, _⟩ | ⟨rfl, _⟩
    · exact h
    · rw [h4] at h13
      cases h13
      exact absurd h12 hne

/-- A word. -/
theorem word_same (hP : Piece T S1 S2) {x i ty : Nat} {t : NodeType} {w : List Nat}
    (hx : T.env2.grammar.rules[x]? = some (.contextualToken ty w)) (ht : T.env2.grammar.nodeTypes[ty]? = some t)
    (hw : w ≠ []) (hi : i ≤ T.K) {q1 : Pos} {r2 : Option Pos} (hs : Rel T A need [] t1 t2)
    (h1 : Runs T.env1 x ⟨T.w1 + i, S1⟩ t1 (some q1) t1') (hq : q1.cur ≤ T.w1 + T.K)
    (h2 : Runs T.env2 x ⟨T.w2 + i, S2⟩ t2 r2 t2') :
    ∃ n, i + n ≤ T.K ∧ q1 = ⟨T.w1 + (i + n), S1⟩ ∧ r2 = some ⟨T.w2 + (i + n), S2⟩ ∧
      SpelledBy T.env1 (T.w1 + i) n w ∧ SpelledBy T.env2 (T.w2 + i) n w ∧ Rel T A need [] t1' t2' := by
  have p1 : PosOk T.env1 ⟨T.w1 + i, S1⟩ := ⟨by have := hP.in1; simp only; omega, Nat.le_of_eq hP.stop1⟩
  have p2 : PosOk T.env2 ⟨T.w2 + i, S2⟩ := ⟨by have := hP.in2; simp only; omega, Nat.le_of_eq hP.stop2⟩
  rcases (runs_contextual hP.env1 p1 (by rw [hP.ok.grammar]; exact hx) (by rw [hP.ok.grammar]; exact ht)).1 h1
    with ⟨n, h3, h4, rfl⟩ | ⟨_, h, _⟩
  · cases h4
    simp only at hq
    have hn : i + n ≤ T.K := by omega
    have hsp := hP.spelled i n w hw hn h3.2.1
    have hn0 : n ≠ 0 := by
      rintro rfl
      have := h3.2.1.2
      simp only [Spec.sigLen, Option.some.injEq] at this
      exact hw (List.length_eq_zero_iff.1 this.symm)
    have h5 : SpellsFrom T.env2 ⟨T.w2 + i, S2⟩ n w := by
      have := hP.in2
      refine ⟨by simp only; omega, hsp, by simp only; omega, fun m hm => ?_⟩
      have := h3.2.2.2 m hm
      simp only at this ⊢
      rwa [hP.sigLen (by omega)] at this
    refine ⟨n, hn, by simp [Nat.add_assoc], ?_⟩
    rcases (runs_contextual hP.env2 p2 hx ht).1 h2 with ⟨m, h6, rfl, rfl⟩ | ⟨h, _⟩
    · obtain rfl := SpellsFrom.unique h5 h6
      exact ⟨by simp [Nat.add_assoc], h3.2.1, hsp, hs.tick.emit _⟩
    · exact absurd h5 (h n)
  · cases h

/-- No such word where there is another one. -/
theorem word_fails {env : Env} (hE : EnvOk env) {pos : Pos} (hp : PosOk env pos) {x ty n : Nat} {t : NodeType}
    {a b : Nat} {v w : List Nat} (hx : env.grammar.rules[x]? = some (.contextualToken ty (a :: v)))
    (ht : env.grammar.nodeTypes[ty]? = some t) (hab : a ≠ b) (hw : SpelledBy env pos.cur n (b :: w)) {s s' : PState}
    {r : Option Pos} (h : Runs env x pos s r s') : r = none := by
  rcases (runs_contextual hE hp hx ht).1 h with ⟨m, h3, _⟩ | ⟨_, h, _⟩
  · obtain ⟨⟨st, k, h4, h5⟩, _⟩ := h3.2.1
    obtain ⟨⟨st', k', h6, h7⟩, _⟩ := hw
    rw [h4] at h6
    cases h6
    obtain ⟨y, hy⟩ := h5
    obtain ⟨z, hz⟩ := h7
    rw [← hz] at hy
    simp only [List.cons_append, List.cons.injEq] at hy
    exact absurd hy.1 hab
  · exact h

/-- A rule with a node. -/
theorem pub_same (hP : Piece T S1 S2) {e ty x : Nat} {t : NodeType} {p1 p2 : Pos}
    (he : T.env2.grammar.rules[e]? = some (.pub ty x false)) (ht : T.env2.grammar.nodeTypes[ty]? = some t) {i : Nat}
    {r1 r2 : Option Pos} (hs : Rel T A need [] t1 t2) (h1 : Runs T.env1 e p1 t1 r1 t1')
    (h2 : Runs T.env2 e p2 t2 r2 t2')
    (hx : ∀ u1 u2 v1 v2, Rel T A need [] u1 u2 → Runs T.env1 x p1 u1 r1 v1 → Runs T.env2 x p2 u2 r2 v2 →
      Same T S1 S2 i r1 r2 ∧ Rel T A need [] v1 v2) :
    Same T S1 S2 i r1 r2 ∧ Rel T A need [] t1' t2' := by
  have h1' := h1
  have h2' := h2
  obtain ⟨u1, h3, rfl⟩ := (runs_pub (by rw [hP.ok.grammar]; exact he) (by rw [hP.ok.grammar]; exact ht)).1 h1
  obtain ⟨u2, h4, rfl⟩ := (runs_pub he ht).1 h2
  obtain ⟨h5, h6⟩ := hx _ _ _ _ (hs.tick.emit _) h3 h4
  refine ⟨h5, ?_⟩
  rcases h5 with ⟨rfl, rfl⟩ | ⟨j, _, _, rfl, rfl⟩
  · exact hs.fail h1' h2'
  · rw [if_neg (by simp), if_neg (by simp)]
    exact (h6.emit [.fin]).of rfl rfl rfl rfl

/-- A part that may be left out. -/
theorem opt_same (hP : Piece T S1 S2) {e x i : Nat} (hi : i ≤ T.K)
    (he : T.env2.grammar.rules[e]? = some (.opt x)) {r1 r2 : Option Pos}
    (hs : Rel T A need [] t1 t2) (h1 : Runs T.env1 e ⟨T.w1 + i, S1⟩ t1 r1 t1')
    (h2 : Runs T.env2 e ⟨T.w2 + i, S2⟩ t2 r2 t2')
    (hx : ∀ u1 u2 v1 v2 r1' r2', Rel T A need [] u1 u2 → r1 = some (r1'.getD ⟨T.w1 + i, S1⟩) →
      Runs T.env1 x ⟨T.w1 + i, S1⟩ u1 r1' v1 → Runs T.env2 x ⟨T.w2 + i, S2⟩ u2 r2' v2 →
      Same T S1 S2 i r1' r2' ∧ Rel T A need [] v1 v2) :
    (∃ j, i ≤ j ∧ j ≤ T.K ∧ r1 = some ⟨T.w1 + j, S1⟩ ∧ r2 = some ⟨T.w2 + j, S2⟩) ∧ Rel T A need [] t1' t2' := by
  obtain ⟨rb1, h3, rfl⟩ := (runs_opt (by rw [hP.ok.grammar]; exact he)).1 h1
  obtain ⟨rb2, h4, rfl⟩ := (runs_opt he).1 h2
  obtain ⟨h5, h6⟩ := hx _ _ _ _ _ _ hs.tick rfl h3 h4
  refine ⟨?_, h6⟩
  rcases h5 with ⟨rfl, rfl⟩ | ⟨j, h7, h8, rfl, rfl⟩
  · exact ⟨i, Nat.le_refl _, hi, rfl, rfl⟩
  · exact ⟨j, h7, h8, rfl, rfl⟩

/-- A token at the beginning of a sequence. -/
theorem turn_token (hP : Piece T S1 S2) {x i : Nat} {t : NodeType} (hx : IsToken T.env2.grammar x t)
    {ps : List Nat} {k1 k2 : Nat} {q1 q2 : Pos} (hs : Rel T A need [] t1 t2)
    (h1 : InTurn T.env1 (x :: ps) ⟨T.w1 + i, S1⟩ t1 (k1 + 1) q1 t1') (hq : q1.cur ≤ T.w1 + T.K)
    (h2 : InTurn T.env2 (x :: ps) ⟨T.w2 + i, S2⟩ t2 k2 q2 t2') :
    ∃ k2' u1 u2, k2 = k2' + 1 ∧ InTurn T.env1 ps ⟨T.w1 + (i + 1), S1⟩ u1 k1 q1 t1' ∧
      InTurn T.env2 ps ⟨T.w2 + (i + 1), S2⟩ u2 k2' q2 t2' ∧ i + 1 ≤ T.K ∧ sigTy T.env1 (T.w1 + i) = some t ∧
      Rel T A need [] u1 u2 := by
  cases h1 with
  | step h3 h4 =>
    have := (inTurn_le hP.cache1 h4).1
    cases h2 with
    | stuck h5 =>
      obtain ⟨_, _, h6, _⟩ := token_same hP hx hs h3 (by omega) h5
      cases h6
    | step h5 h6 =>
      obtain ⟨h7, rfl, h8, h9, h10⟩ := token_same hP hx hs h3 (by omega) h5
      cases h8
      exact ⟨_, _, _, rfl, h4, h6, h7, h9, h10⟩

/-- The end of the brackets around a position. -/
theorem bound_det {env : Env} (hg : env.grammar = fallGrammar) {b : Nat × NodeType × NodeType}
    (hb : b ∈ fallBounds) {pos : Pos} {ts : List NodeType} (hi : Input env pos ts) {s s' : PState} {r : Option Pos}
    (h : Runs env b.1 pos s r s') : r = some ⟨pos.cur + closing b.2.1 b.2.2 0 ts, pos.stop⟩ := by
  have hlen : 4 ≤ s.args.length := by
    obtain ⟨_, seq, call, x, y, h1, h2, h3, h4, h5, h6⟩ := fallBounds_shape b hb
    rw [← hg] at h1 h2 h3 h4 h5 h6
    have hc := runs_and_one h2 (runs_or_one h1 h)
    obtain ⟨A, _, hA, _⟩ := (runs_call h3).1 hc
    obtain ⟨tx, hx, _⟩ := h4
    obtain ⟨ty, hy, _⟩ := h5
    have hl : (ticked (ticked s)).args = s.args := rfl
    rw [hl] at hA
    simp only [bindArgs, hx, hy, List.length_set] at hA
    split at hA
    · split at hA
      · omega
      · cases hA
    · cases hA
  obtain ⟨s1, h1⟩ := fall_bound_runs hg hb hi s hlen
  exact (h.det h1).1

/-- The matching bracket is the same. -/
theorem closing_same (hP : Piece T S1 S2) {b : Nat × NodeType × NodeType} (hb : b ∈ fallBounds) {i stop : Nat}
    {ts us : List NodeType} (hts : Input T.env1 ⟨T.w1 + i, stop⟩ ts) (hus : Input T.env2 ⟨T.w2 + i, S2⟩ us)
    (hlt : closing b.2.1 b.2.2 0 ts < ts.length) (hK : i + closing b.2.1 b.2.2 0 ts < T.K) :
    closing b.2.1 b.2.2 0 us = closing b.2.1 b.2.2 0 ts ∧ closing b.2.1 b.2.2 0 us < us.length := by
  have hne := (fallBounds_shape b hb).1
  generalize hn : closing b.2.1 b.2.2 0 ts = n at *
  have h1 := closing_closesAt hne (xs := ts)
  rw [hn] at h1
  have hl := Input.length hus
  have := hP.in2
  simp only at hl
  have hlen : n + 1 ≤ us.length := by omega
  have h2 := h1.local (ys := us) hlt (by
    apply List.ext_getElem?
    intro k
    rw [List.getElem?_take, List.getElem?_take]
    split
    · rw [input_get hus (by omega), input_get hts (by omega)]
      simp only
      rw [Nat.add_assoc, Nat.add_assoc, hP.sigTy (i := i + k) (by omega)]
    · rfl)
  have h3 := (closing_closesAt hne (xs := us)).unique hne h2
  exact ⟨h3, by omega⟩

/-- What is between brackets, and the closing bracket. -/
theorem turn_tail (hP : Piece T S1 S2) (hg : T.env2.grammar = fallGrammar)
    (hA : ∀ e, A e → ∀ rule, T.env2.grammar.rules[e]? = some rule → TwinRule A need T.env2.grammar e rule)
    {b : Nat × NodeType × NodeType} (hb : b ∈ fallBounds) {el ec x i : Nat}
    (hl : T.env2.grammar.rules[el]? = some (.layer b.1 x)) (hx : A x ∧ need x = [])
    (hc : IsToken T.env2.grammar ec b.2.2) (hi : i ≤ T.K)
    {k2 : Nat} {q1 q2 : Pos} (hs : Rel T A need [] t1 t2)
    (h1 : InTurn T.env1 [el, ec] ⟨T.w1 + i, S1⟩ t1 2 q1 t1') (hq : q1.cur ≤ T.w1 + T.K)
    (h2 : InTurn T.env2 [el, ec] ⟨T.w2 + i, S2⟩ t2 k2 q2 t2') :
    k2 = 2 ∧ ∃ j, i ≤ j ∧ j ≤ T.K ∧ q1 = ⟨T.w1 + j, S1⟩ ∧ q2 = ⟨T.w2 + j, S2⟩ ∧ Rel T A need [] t1' t2' := by
  have in1 := hP.in1
  have in2 := hP.in2
  obtain ⟨ts, hts⟩ := input_at hP.env1 (i := T.w1 + i) (stop := S1) (by omega) (Nat.le_of_eq hP.stop1)
  obtain ⟨us, hus⟩ := input_at hP.env2 (i := T.w2 + i) (stop := S2) (by omega) (Nat.le_of_eq hP.stop2)
  have hlen1 := Input.length hts
  simp only at hlen1
  cases h1 with
  | step h3 h4 =>
    rename_i p1 s1
    obtain ⟨rl1, u1, hl3, h5⟩ := (runs_layer (by rw [hP.ok.grammar]; exact hl)).1 h3
    have hr1 : ∀ s r s', Runs T.env1 b.1 ⟨T.w1 + i, S1⟩ s r s' → r = some ⟨T.w1 + (i + closing b.2.1 b.2.2 0 ts), S1⟩ := by
      intro s r s' h
      rw [bound_det (by rw [hP.ok.grammar]; exact hg) hb hts h]
      simp [Nat.add_assoc]
    have hp1 : p1 = ⟨T.w1 + (i + closing b.2.1 b.2.2 0 ts), S1⟩ := by
      obtain ⟨v, hv, _⟩ := hl3
      have := hr1 _ _ _ hv
      rcases h5 with ⟨h, _⟩ | ⟨rest, _, _, _, h6, _, _, h7, _⟩
      · rw [h] at this; cases this
      · rw [h6] at this
        cases h7
        exact Option.some.inj this
    subst hp1
    cases h4 with
    | step h6 h7 =>
      rename_i p2 s2
      cases h7
      have hcl : ts[closing b.2.1 b.2.2 0 ts]? = some b.2.2 := by
        have hd := Input.drop hts (closing_le b.2.1 b.2.2 0 ts)
        have := token_det (by rw [hP.ok.grammar]; exact hc) (pos := ⟨T.w1 + (i + closing b.2.1 b.2.2 0 ts), S1⟩)
          (by simpa only [Nat.add_assoc] using hd) h6
        rw [List.head?_drop] at this
        split at this
        · assumption
        · cases this
      have hlt := (List.getElem?_eq_some_iff.1 hcl).1
      have hcur : T.w1 + (i + closing b.2.1 b.2.2 0 ts) + 1 ≤ q1.cur := by
        obtain ⟨ty, h8, h9⟩ := hc
        rcases (runs_token (by rw [hP.ok.grammar]; exact h8)).1 h6 with ⟨_, h, _⟩ | ⟨a, a', _, _, _, h⟩
        · cases h
        · rcases h with ⟨_, h, _⟩ | ⟨_, h, _⟩
          · cases h
          · cases h
            simp [Pos.next]
      obtain ⟨hcs, hcl2⟩ := closing_same hP hb hts hus hlt (by omega)
      have hr2 : ∀ s r s', Runs T.env2 b.1 ⟨T.w2 + i, S2⟩ s r s' →
          r = some ⟨T.w2 + (i + closing b.2.1 b.2.2 0 ts), S2⟩ := by
        intro s r s' h
        rw [bound_det hg hb hus h, hcs]
        simp [Nat.add_assoc]
      have key := fun {r2 : Option Pos} {t2' : PState} (h2 : Runs T.env2 el ⟨T.w2 + i, S2⟩ t2 r2 t2') =>
        layer_same (j := i + closing b.2.1 b.2.2 0 ts) hP hA hl hx (by omega) (by omega) hs h3 h2
          (fun s r s' h => Or.inl (hr1 s r s' h)) hr2
      cases h2 with
      | stuck h8 =>
        obtain ⟨_, h9, _⟩ := key h8
        cases h9
      | step h8 h9 =>
        obtain ⟨_, h10, h11⟩ := key h8
        cases h10
        cases h9 with
        | stuck h12 =>
          obtain ⟨_, _, h13, _⟩ := token_same hP hc h11 h6 hq h12
          cases h13
        | step h12 h13 =>
          obtain ⟨h14, rfl, h15, _, h16⟩ := token_same hP hc h11 h6 hq h12
          cases h15
          cases h13
          exact ⟨rfl, _, by omega, h14, rfl, rfl, h16⟩

theorem emit_error {s s1 s' : PState} {F es rest : List Event} (hp : s1.predicate = false)
    (hpre : s.events <+: s1.events) (hs' : s'.events = (emit s1 (errorNode es)).events ++ rest)
    (hev : s'.events = s.events ++ F) (hF : ∀ fp, .start ERROR fp ∉ F) : False := by
  obtain ⟨G, hG⟩ := hpre
  unfold emit at hs'
  rw [if_neg (by simp [hp]), hev, ← hG] at hs'
  simp only [List.append_assoc, List.append_cancel_left_eq] at hs'
  refine hF none ?_
  rw [hs']
  simp [errorNode]

/-- A block without errors ends with its closing brace. -/
theorem block_full {env : Env} (hg : env.grammar = fallGrammar) (hc : env.cache = none) {pos : Pos}
    {ts : List NodeType} (hi : Input env pos ts) {s s' : PState} (hp : s.predicate = false)
    (h : Runs env 9 pos s (some ⟨pos.stop, pos.stop⟩) s') {F : List Event} (hev : s'.events = s.events ++ F)
    (hF : ∀ fp, .start ERROR fp ∉ F) : ∃ us, ts = 119 :: us ∧ closing 119 120 0 us + 1 = us.length := by
  have rule : ∀ {k : Nat} {e : Expr}, fallGrammar.rules[k]? = some e → env.grammar.rules[k]? = some e := by
    intro k e hk
    rw [hg]
    exact hk
  obtain ⟨s1, h1, hs'⟩ := (runs_pub (t := 137) (rule (k := 9) (e := .pub 38 106 false) (by decide +kernel))
    (by rw [hg]; decide +kernel)).1 h
  rw [if_neg (by simp)] at hs'
  have h2 := runs_or_one (rule (k := 106) (e := .or [105]) (by decide +kernel)) h1
  have h6 := runs_and_one (rule (k := 105) (e := .and [104] none) (by decide +kernel)) h2
  obtain ⟨A, s6, hA, h7, h8⟩ := (runs_call (rule (k := 104) (e := .call 21 [(1, 103)]) (by decide +kernel))).1 h6
  rw [if_neg (by simp)] at h8
  have h9 := runs_or_one (rule (k := 21) (e := .or [172]) (by decide +kernel)) h7
  have hp1 : s1.predicate = false := by
    rw [(Runs.scope h1).1]
    simp [emit, ticked, hp]
  have hs1 : s'.events = s6.events ++ [.fin] := by
    rw [hs']
    simp only [emit, hp1]
    rw [h8]
    simp
  obtain ⟨k, q, s7, hturn, hres⟩ := (runs_and (rule (k := 172) (e := .and [168, 170, 171] (some 1))
    (by decide +kernel))).1 h9
  have hpre : s.events <+: s7.events := by
    refine List.IsPrefix.trans ?_ (inTurn_grow hc hturn)
    simp [emit, ticked, hp]
  have hp7 : s7.predicate = false := by
    rw [(inTurn_scope hturn).1]
    simp [emit, ticked, hp]
  rcases hres with ⟨_, h10, _⟩ | ⟨_, h10, h11⟩
  · cases h10
  have hk : ¬ k < 3 := by
    intro hk
    rw [if_pos (by simpa using hk)] at h11
    refine emit_error (s := s) hp7 hpre ?_ hev hF (es := []) (rest := [.fin])
    rw [hs1, h11]
  cases hturn with
  | stuck => omega
  | step h12 h13 =>
    have hr := token_det (t := 119) ⟨20, rule (by decide +kernel), by rw [hg]; decide +kernel⟩ hi h12
    split at hr
    · rename_i hh
      obtain ⟨us, rfl⟩ : ∃ us, ts = 119 :: us := by
        cases ts with
        | nil => cases hh
        | cons t ts => exact ⟨ts, by simpa using hh⟩
      refine ⟨us, rfl, ?_⟩
      cases hr
      have hi1 : Input env pos.next us := by cases hi; assumption
      have hlen := Input.length hi1
      cases h13 with
      | stuck => omega
      | step h14 h15 =>
        obtain ⟨rl, u, ⟨v, hv, _⟩, h16⟩ := (runs_layer (rule (k := 170) (e := .layer 22 169) (by decide +kernel))).1 h14
        have hb := bound_det hg (b := (22, 119, 120)) (by decide) hi1 hv
        rcases h16 with ⟨h16, _⟩ | ⟨rest, _, _, _, h16, _, _, h17, _⟩
        · rw [h16] at hb; cases hb
        · rw [h16] at hb
          cases hb
          cases h17
          cases h15 with
          | stuck => omega
          | step h18 h19 =>
            have hr2 := token_det (t := 120) ⟨21, rule (by decide +kernel), by rw [hg]; decide +kernel⟩
              (Input.drop hi1 (closing_le _ _ _ _)) h18
            split at hr2
            · cases hr2
              cases h19
              simp only [Pos.next, Option.some.injEq, Pos.mk.injEq] at h10 hlen
              omega
            · cases hr2
    · cases hr

/-- A part in brackets. -/
theorem turn_group (hP : Piece T S1 S2) (hg : T.env2.grammar = fallGrammar)
    (hA : ∀ e, A e → ∀ rule, T.env2.grammar.rules[e]? = some rule → TwinRule A need T.env2.grammar e rule)
    {b : Nat × NodeType × NodeType} (hb : b ∈ fallBounds) {el ec x : Nat}
    (hl : T.env2.grammar.rules[el]? = some (.layer b.1 x)) (hx : A x ∧ need x = [])
    (hc : IsToken T.env2.grammar ec b.2.2) (os : List (Nat × NodeType))
    (hos : ∀ o ∈ os, IsToken T.env2.grammar o.1 o.2) : ∀ {i k2 : Nat} {q1 q2 : Pos} {t1 t2 : PState},
    i ≤ T.K → Rel T A need [] t1 t2 →
    InTurn T.env1 (os.map (·.1) ++ [el, ec]) ⟨T.w1 + i, S1⟩ t1 (os.length + 2) q1 t1' → q1.cur ≤ T.w1 + T.K →
    InTurn T.env2 (os.map (·.1) ++ [el, ec]) ⟨T.w2 + i, S2⟩ t2 k2 q2 t2' →
    k2 = os.length + 2 ∧ ∃ j, i ≤ j ∧ j ≤ T.K ∧ q1 = ⟨T.w1 + j, S1⟩ ∧ q2 = ⟨T.w2 + j, S2⟩ ∧
      Rel T A need [] t1' t2' := by
  induction os with
  | nil =>
    intro i k2 q1 q2 t1 t2 hi hs h1 hq h2
    exact turn_tail hP hg hA hb hl hx hc hi hs h1 hq h2
  | cons o os ih =>
    intro i k2 q1 q2 t1 t2 hi hs h1 hq h2
    obtain ⟨k2', u1, u2, rfl, h3, h4, h5, _, h6⟩ := turn_token hP (hos o (by simp)) hs
      (k1 := os.length + 2) (by simpa [Nat.add_right_comm] using h1) hq h2
    obtain ⟨rfl, j, h7, h8, h9, h10, h11⟩ := ih (fun o ho => hos o (by simp [ho])) h5 h6 h3 hq h4
    exact ⟨by simp, j, by omega, h8, h9, h10, h11⟩

theorem group_same (hP : Piece T S1 S2) (hg : T.env2.grammar = fallGrammar)
    (hA : ∀ e, A e → ∀ rule, T.env2.grammar.rules[e]? = some rule → TwinRule A need T.env2.grammar e rule)
    {b : Nat × NodeType × NodeType} (hb : b ∈ fallBounds) {e el ec x : Nat}
    (hl : T.env2.grammar.rules[el]? = some (.layer b.1 x)) (hx : A x ∧ need x = [])
    (hc : IsToken T.env2.grammar ec b.2.2) {o : Nat × NodeType} {os : List (Nat × NodeType)}
    (hos : ∀ x ∈ o :: os, IsToken T.env2.grammar x.1 x.2)
    (he : T.env2.grammar.rules[e]? = some (.and ((o :: os).map (·.1) ++ [el, ec]) none))
    {i : Nat} (hi : i < T.K) {r1 r2 : Option Pos} (hs : Rel T A need [] t1 t2)
    (h1 : Runs T.env1 e ⟨T.w1 + i, S1⟩ t1 r1 t1') (hq : ∀ q, r1 = some q → q.cur ≤ T.w1 + T.K)
    (h2 : Runs T.env2 e ⟨T.w2 + i, S2⟩ t2 r2 t2') (hno : r1 = none → sigTy T.env1 (T.w1 + i) ≠ some o.2) :
    Same T S1 S2 i r1 r2 ∧ Rel T A need [] t1' t2' := by
  obtain ⟨k1, q1, u1, a1, b1⟩ := (runs_and (by rw [hP.ok.grammar]; exact he)).1 h1
  obtain ⟨k2, q2, u2, a2, b2⟩ := (runs_and he).1 h2
  have hlen : (Option.none : Option Nat).getD ((o :: os).map (·.1) ++ [el, ec]).length = (o :: os).length + 2 := by simp
  rw [hlen] at b1 b2
  rcases b1 with ⟨_, rfl, _⟩ | ⟨hk1, rfl, hd1⟩
  · have hr2 : r2 = none := by
      rcases b2 with ⟨_, h, _⟩ | ⟨hk, _⟩
      · exact h
      · cases a2 with
        | stuck h => omega
        | step h _ => cases token_fails hP (hos o (by simp)) hi (hno rfl) h
    subst hr2
    exact ⟨Or.inl ⟨rfl, rfl⟩, hs.fail h1 h2⟩
  · have hk : k1 = (o :: os).length + 2 := by
      have := inTurn_count a1
      simp at this hk1 ⊢
      omega
    subst hk
    obtain ⟨rfl, j, h3, h4, rfl, rfl, h5⟩ := turn_group hP hg hA hb hl hx hc (o :: os) hos (by omega) hs.tick a1
      (hq _ rfl) a2
    have hl' : ¬ (o :: os).length + 2 < ((o :: os).map (·.1) ++ [el, ec]).length := by simp
    rw [if_neg hl'] at hd1
    rcases b2 with ⟨h, _⟩ | ⟨_, rfl, hd2⟩
    · omega
    · rw [if_neg hl'] at hd2
      subst hd1 hd2
      exact ⟨Or.inr ⟨j, h3, h4, rfl, rfl⟩, h5⟩

/-- What bounds the body of a rule is not empty. -/
theorem look_consumes {env : Env} (hg : env.grammar = fallGrammar) (hc : env.cache = none) {pos q : Pos}
    {s s' : PState} (h : Runs env 73 pos s (some q) s') : pos.cur < q.cur := by
  have rule : ∀ {k : Nat} {e : Expr}, fallGrammar.rules[k]? = some e → env.grammar.rules[k]? = some e := by
    intro k e hk
    rw [hg]
    exact hk
  have key : ∀ {e x : Nat} {ps : List Nat} {s : PState} {s' : PState}, env.grammar.rules[e]? = some (.and (x :: ps) none) →
      env.grammar.rules[x]? = some (.token 20) → Runs env e pos s (some q) s' → pos.cur < q.cur := by
    intro e x ps s s' he hx h
    obtain ⟨k, q', u, a, b⟩ := (runs_and he).1 h
    rcases b with ⟨_, h, _⟩ | ⟨hk, h, _⟩
    · cases h
    cases h
    cases a with
    | stuck => simp at hk
    | step h1 h2 =>
      have := (inTurn_le hc h2).1
      rcases (runs_token hx).1 h1 with ⟨_, h, _⟩ | ⟨_, _, _, _, _, h⟩
      · cases h
      · rcases h with ⟨_, h, _⟩ | ⟨_, h, _⟩
        · cases h
        · cases h
          simp only [Pos.next] at this
          omega
  obtain ⟨s1, h1, _⟩ := (runs_or (rule (k := 73) (e := .or [65, 72]) (by decide +kernel))).1 h
  cases h1 with
  | found h1 =>
    exact key (rule (e := .and [63, 22, 64] none) (by decide +kernel)) (rule (k := 63) (by decide +kernel)) h1
  | next _ h1 =>
    cases h1 with
    | found h1 =>
      exact key (rule (e := .and [66, 71] none) (by decide +kernel)) (rule (k := 66) (by decide +kernel)) h1
    | next _ h1 => cases h1

/-- The end of the body of a rule is its closing brace. -/
theorem look_closed {env : Env} (hg : env.grammar = fallGrammar) {pos : Pos} {us : List NodeType}
    (hi : Input env pos (119 :: us)) (hlt : closing 119 120 0 us < us.length) {s s' : PState} {r : Option Pos}
    (h : Runs env 73 pos s r s') : r = some ⟨pos.cur + closing 119 120 0 us + 2, pos.stop⟩ := by
  have rule : ∀ {k : Nat} {e : Expr}, fallGrammar.rules[k]? = some e → env.grammar.rules[k]? = some e := by
    intro k e hk
    rw [hg]
    exact hk
  have hi1 : Input env pos.next us := by cases hi; assumption
  have key : ∀ {s s' : PState} {r : Option Pos}, Runs env 65 pos s r s' →
      r = some ⟨pos.cur + closing 119 120 0 us + 2, pos.stop⟩ := by
    intro s s' r h
    obtain ⟨k, q, u, a, b⟩ := (runs_and (rule (k := 65) (e := .and [63, 22, 64] none) (by decide +kernel))).1 h
    have d1 := fun {s s' : PState} {r : Option Pos} (h : Runs env 63 pos s r s') =>
      token_det (t := 119) ⟨20, rule (by decide +kernel), by rw [hg]; decide +kernel⟩ hi h
    have d2 := fun {s s' : PState} {r : Option Pos} (h : Runs env 22 pos.next s r s') =>
      bound_det hg (b := (22, 119, 120)) (by decide) hi1 h
    have d3 := fun {s s' : PState} {r : Option Pos}
        (h : Runs env 64 ⟨pos.next.cur + closing 119 120 0 us, pos.next.stop⟩ s r s') =>
      token_det (t := 120) ⟨21, rule (by decide +kernel), by rw [hg]; decide +kernel⟩
        (Input.drop hi1 (closing_le _ _ _ _)) h
    have hn := (closing_next 0 hlt).1
    cases a with
    | stuck h1 =>
      have := d1 h1
      simp at this
    | step h1 a =>
      have := d1 h1
      rw [if_pos (by simp)] at this
      cases this
      cases a with
      | stuck h2 => cases d2 h2
      | step h2 a =>
        cases d2 h2
        cases a with
        | stuck h3 =>
          have := d3 h3
          rw [List.head?_drop, if_pos hn] at this
          cases this
        | step h3 a =>
          have := d3 h3
          rw [List.head?_drop, if_pos hn] at this
          cases this
          cases a
          rcases b with ⟨h, _⟩ | ⟨_, rfl, _⟩
          · simp at h
          · simp only [Pos.next, Option.some.injEq, Pos.mk.injEq, and_true]
            omega
  obtain ⟨s1, h1, _⟩ := (runs_or (rule (k := 73) (e := .or [65, 72]) (by decide +kernel))).1 h
  cases h1 with
  | found h1 => exact key h1
  | next h1 _ => cases key h1

/-- The body of a rule without errors. -/
theorem body_full {env : Env} (hg : env.grammar = fallGrammar) (hc : env.cache = none) (hE : EnvOk env)
    {pos q : Pos} (hq : q.cur ≤ env.nonWs.length) {s s' : PState} (hp : s.predicate = false)
    (h : Runs env 74 pos s (some q) s') {F : List Event} (hev : s'.events = s.events ++ F)
    (hF : ∀ fp, .start ERROR fp ∉ F) :
    ∃ us, Input env ⟨pos.cur, q.cur⟩ (119 :: us) ∧ closing 119 120 0 us + 1 = us.length := by
  obtain ⟨rl, s1, hl, h1⟩ := (runs_layer (e := 74) (l := 73) (body := 9) (by rw [hg]; decide +kernel)).1 h
  rcases h1 with ⟨_, h1, _⟩ | ⟨rest, rb, s2, es, rfl, h2, h3, h4, rfl⟩
  · cases h1
  cases h4
  have ha := looks_adv hc hl
  have hp1 : s1.predicate = false := ha.predicate.trans hp
  have he1 : s1.events = s.events := (adv_nil ha).trans rfl
  have hp2 : s2.predicate = false := (Runs.scope h2).1.trans hp1
  have hgr := runs_grow hc h2
  have hpre : s.events <+: s2.events := by rwa [he1] at hgr
  by_cases hes : es = []
  · subst hes
    obtain ⟨v, hv, _⟩ := hl
    have hlt := look_consumes hg hc hv
    have hr := (Rest.eq_nil h3).1 rfl
    cases rb with
    | none =>
      simp only [Option.getD_none] at hr
      omega
    | some p =>
      simp only [Option.getD_some] at hr
      obtain ⟨_, h5⟩ := runs_le hc h2
      have hp' : p = ⟨q.cur, q.cur⟩ := by
        cases p
        simp only at hr h5 ⊢
        rw [hr, h5]
      subst hp'
      obtain ⟨ts, hts⟩ := input_at hE (i := pos.cur) (stop := q.cur) (by omega) hq
      obtain ⟨us, rfl, h6⟩ := block_full hg hc hts hp1 h2 (F := F) (by
        rw [he1, ← hev]
        simp [skippedNode, emit_nil]) hF
      exact ⟨us, hts, h6⟩
  · refine (emit_error (es := es) (rest := []) hp2 hpre ?_ hev hF).elim
    simp [skippedNode, hes]

/-- A rule that was parsed without errors ends with the block that is its body. -/
theorem rule_body (hg : env.grammar = fallGrammar) (hc : env.cache = none) (hE : EnvOk env) {pos q1 : Pos}
    (hq1c : q1.cur ≤ env.nonWs.length) (hp : t1.predicate = false) (h1 : Runs env 76 pos t1 (some q1) t1')
    {F : List Event} (hev : t1'.events = t1.events ++ F) (hF : ∀ fp, .start ERROR fp ∉ F) :
    ∃ p us, pos.cur ≤ p ∧ Input env ⟨p, q1.cur⟩ (119 :: us) ∧ closing 119 120 0 us + 1 = us.length := by
  have rule1 : ∀ {k : Nat} {e : Expr}, fallGrammar.rules[k]? = some e → env.grammar.rules[k]? = some e := by
    intro k e hk
    rw [hg]
    exact hk
  have a1 := runs_or_one (rule1 (k := 76) (e := .or [75]) (by decide +kernel)) h1
  obtain ⟨k1, q2, u1, b1, c1⟩ := (runs_and (rule1 (k := 75) (e := .and [57, 59, 60, 61, 62, 74] (some 3))
    (by decide +kernel))).1 a1
  rcases c1 with ⟨_, c1, _⟩ | ⟨hk0, c1, d1⟩
  · cases c1
  clear hk0
  cases c1
  have hk1 : ¬ k1 < 6 := by
    intro hk
    rw [if_pos (by simpa using hk)] at d1
    refine emit_error (s := t1) (s1 := u1) (s' := t1') (es := []) (rest := []) ?_ ?_ ?_ hev hF
    · rw [(inTurn_scope b1).1]; exact hp
    · exact inTurn_grow (s := ticked (ticked t1)) hc b1
    · rw [d1, List.append_nil]
  rw [if_neg (by simpa using hk1)] at d1
  subst d1
  cases b1 with
  | stuck => omega
  | step e1 b1 =>
  cases b1 with
  | stuck => omega
  | step e2 b1 =>
  cases b1 with
  | stuck => omega
  | step e3 b1 =>
  cases b1 with
  | stuck => omega
  | step e4 b1 =>
  cases b1 with
  | stuck => omega
  | step e5 b1 =>
  cases b1 with
  | stuck => omega
  | step e6 b1 =>
  cases b1
  rename_i p1 v1 p2 v2 p3 v3 p4 v4 p5 v5
  have l1 := runs_le hc e1
  have l2 := runs_le hc e2
  have l3 := runs_le hc e3
  have l4 := runs_le hc e4
  have l5 := runs_le hc e5
  have hpre : t1.events <+: v5.events :=
    ((((runs_grow (s := ticked (ticked t1)) hc e1).trans (runs_grow hc e2)).trans (runs_grow hc e3)).trans
      (runs_grow hc e4)).trans (runs_grow hc e5)
  have hv5 : v5.predicate = false := by
    rw [(Runs.scope e5).1, (Runs.scope e4).1, (Runs.scope e3).1, (Runs.scope e2).1, (Runs.scope e1).1]
    exact hp
  obtain ⟨G, hG⟩ := runs_grow hc e6
  obtain ⟨us, hus, hcl⟩ := body_full hg hc hE hq1c hv5 e6 hG.symm (by
    intro fp hfp
    obtain ⟨H, hH⟩ := hpre
    refine hF fp ?_
    have : t1.events ++ F = t1.events ++ (H ++ G) := by rw [← hev, ← List.append_assoc, hH, hG]
    rw [List.append_cancel_left_eq] at this
    rw [this]
    simp [hfp])
  exact ⟨p5.cur, us, by omega, hus, hcl⟩

/-- A rule that was parsed without errors, and its text elsewhere. -/
theorem rule_same (hP : Piece T S1 S2) (hg : T.env2.grammar = fallGrammar)
    (hA : ∀ e, A e → ∀ rule, T.env2.grammar.rules[e]? = some rule → TwinRule A need T.env2.grammar e rule)
    (hattr : A 135 ∧ need 135 = []) (hpar : A 79 ∧ need 79 = []) (hblock : A 9 ∧ need 9 = [])
    (hhash : ∀ i off k, T.env1.nonWs[i]? = some (off, k) → sigTy T.env1 i = some 118 → T.env1.text[off]? = some 35)
    (hs : Rel T A need [] t1 t2) (hp : t1.predicate = false)
    (h1 : Runs T.env1 76 ⟨T.w1, S1⟩ t1 (some ⟨T.w1 + T.K, S1⟩) t1') {F : List Event}
    (hev : t1'.events = t1.events ++ F) (hF : ∀ fp, .start ERROR fp ∉ F) {r2 : Option Pos}
    (h2 : Runs T.env2 76 ⟨T.w2, S2⟩ t2 r2 t2') :
    r2 = some ⟨T.w2 + T.K, S2⟩ ∧ Rel T A need [] t1' t2' := by
  have rule2 : ∀ {k : Nat} {e : Expr}, fallGrammar.rules[k]? = some e → T.env2.grammar.rules[k]? = some e := by
    intro k e hk
    rw [hg]
    exact hk
  have hg1 : T.env1.grammar = fallGrammar := by rw [hP.ok.grammar, hg]
  have rule1 : ∀ {k : Nat} {e : Expr}, fallGrammar.rules[k]? = some e → T.env1.grammar.rules[k]? = some e := by
    intro k e hk
    rw [hg1]
    exact hk
  have ty2 : ∀ {k : Nat} {t : NodeType}, fallGrammar.nodeTypes[k]? = some t → T.env2.grammar.nodeTypes[k]? = some t := by
    intro k e hk
    rw [hg]
    exact hk
  have tok2 : ∀ {x k : Nat} {t : NodeType}, fallGrammar.rules[x]? = some (.token k) →
      fallGrammar.nodeTypes[k]? = some t → IsToken T.env2.grammar x t := fun h h' => ⟨_, rule2 h, ty2 h'⟩
  have in1 := hP.in1
  have in2 := hP.in2
  have hc1 := hP.cache1
  -- the six parts in the first file
  have a1 := runs_or_one (rule1 (k := 76) (e := .or [75]) (by decide +kernel)) h1
  have a2 := runs_or_one (rule2 (k := 76) (e := .or [75]) (by decide +kernel)) h2
  obtain ⟨k1, q1, u1, b1, c1⟩ := (runs_and (rule1 (k := 75) (e := .and [57, 59, 60, 61, 62, 74] (some 3))
    (by decide +kernel))).1 a1
  obtain ⟨k2, q2, u2, b2, c2⟩ := (runs_and (rule2 (k := 75) (e := .and [57, 59, 60, 61, 62, 74] (some 3))
    (by decide +kernel))).1 a2
  rcases c1 with ⟨_, c1, _⟩ | ⟨hk0, c1, d1⟩
  · cases c1
  clear hk0
  have hq1 := (Option.some.inj c1).symm
  clear c1
  have hk1 : ¬ k1 < 6 := by
    intro hk
    rw [if_pos (by simpa using hk)] at d1
    refine emit_error (s := t1) (s1 := u1) (s' := t1') (es := []) (rest := []) ?_ ?_ ?_ hev hF
    · rw [(inTurn_scope b1).1]; exact hp
    · exact inTurn_grow (s := ticked (ticked t1)) hc1 b1
    · rw [d1, List.append_nil]
  rw [if_neg (by simpa using hk1)] at d1
  subst d1
  cases b1 with
  | stuck => omega
  | step e1 b1 =>
  cases b1 with
  | stuck => omega
  | step e2 b1 =>
  cases b1 with
  | stuck => omega
  | step e3 b1 =>
  cases b1 with
  | stuck => omega
  | step e4 b1 =>
  cases b1 with
  | stuck => omega
  | step e5 b1 =>
  cases b1 with
  | stuck => omega
  | step e6 b1 =>
  cases b1
  rename_i p1 v1 p2 v2 p3 v3 p4 v4 p5 v5
  have l1 := runs_le hc1 e1
  have l2 := runs_le hc1 e2
  have l3 := runs_le hc1 e3
  have l4 := runs_le hc1 e4
  have l5 := runs_le hc1 e5
  have l6 := runs_le hc1 e6
  have hq1c : q1.cur = T.w1 + T.K := by rw [hq1]
  -- the body
  have hpre : t1.events <+: v5.events :=
    ((((runs_grow (s := ticked (ticked t1)) hc1 e1).trans (runs_grow hc1 e2)).trans (runs_grow hc1 e3)).trans
      (runs_grow hc1 e4)).trans (runs_grow hc1 e5)
  have hv5 : v5.predicate = false := by
    rw [(Runs.scope e5).1, (Runs.scope e4).1, (Runs.scope e3).1, (Runs.scope e2).1, (Runs.scope e1).1]
    exact hp
  obtain ⟨us, hus, hcl⟩ : ∃ us, Input T.env1 ⟨p5.cur, q1.cur⟩ (119 :: us) ∧ closing 119 120 0 us + 1 = us.length := by
    obtain ⟨G, hG⟩ := runs_grow hc1 e6
    refine body_full hg1 hc1 hP.env1 (by rw [hq1c, ← hP.stop1]; exact in1) hv5 e6 hG.symm ?_
    intro fp hfp
    obtain ⟨H, hH⟩ := hpre
    refine hF fp ?_
    have : t1.events ++ F = t1.events ++ (H ++ G) := by rw [← hev, ← List.append_assoc, hH, hG]
    rw [List.append_cancel_left_eq] at this
    rw [this]
    simp [hfp]
  have hlen := Input.length hus
  simp only [List.length_cons] at hlen
  have hbrace : sigTy T.env1 p5.cur = some 119 := (Input.head hus rfl).2
  -- the word `rule`
  have hpk1 : ∀ c, c ≤ T.w1 + T.K → PosOk T.env1 ⟨c, S1⟩ := fun c hc =>
    ⟨by simp only; omega, Nat.le_of_eq hP.stop1⟩
  obtain ⟨n, hn⟩ : ∃ n, SpelledBy T.env1 p2.cur n [114, 117, 108, 101] ∧ p2.cur + n = p3.cur := by
    have : p2 = ⟨p2.cur, S1⟩ := by
      cases p2
      simp only [Pos.mk.injEq, true_and]
      exact l2.2.trans l1.2
    rw [this] at e3
    rcases (runs_contextual hP.env1 (hpk1 _ (by omega)) (rule1 (k := 60) (e := .contextualToken 7 [114, 117, 108, 101])
      (by decide +kernel)) (t := 106) (by rw [hg1]; decide +kernel)).1 e3 with ⟨n, h3, h4, _⟩ | ⟨_, h, _⟩
    · cases h4
      exact ⟨n, h3.2.1, rfl⟩
    · cases h
  have nohash : ∀ {i n a : Nat} {w : List Nat}, SpelledBy T.env1 i n (a :: w) → a ≠ 35 → sigTy T.env1 i ≠ some 118 := by
    rintro i n a w ⟨⟨st, k, h3, ⟨y, hy⟩⟩, _⟩ ha hsig
    have := hhash i st k h3 hsig
    have h0 : (T.env1.text.drop st)[0]? = some a := by rw [← hy]; rfl
    rw [List.getElem?_drop, Nat.add_zero, this] at h0
    exact ha (Option.some.inj h0).symm
  -- attributes
  have step1 : ∀ {r2 : Option Pos} {t2' : PState}, Runs T.env2 57 ⟨T.w2 + 0, S2⟩ (ticked (ticked t2)) r2 t2' →
      (∃ j, 0 ≤ j ∧ j ≤ T.K ∧ some p1 = some (⟨T.w1 + j, S1⟩ : Pos) ∧ r2 = some ⟨T.w2 + j, S2⟩) ∧
        Rel T A need [] v1 t2' := by
    intro r2 t2' f1
    refine opt_same hP (Nat.zero_le _) (rule2 (k := 57) (e := .opt 16) (by decide +kernel)) hs.tick.tick e1 f1 ?_
    intro w1 w2 x1 x2 r1' r2' hw hr g1 g2
    refine pub_same hP (t := 144) (rule2 (k := 16) (e := .pub 45 139 false) (by decide +kernel))
      (ty2 (by decide +kernel)) hw g1 g2 ?_
    intro y1 y2 z1 z2 hy m1 m2
    refine group_same hP hg hA (b := (24, 121, 122)) (by decide) (o := (133, 118)) (os := [(134, 121)])
      (rule2 (k := 136) (e := .layer 24 135) (by decide +kernel)) hattr (tok2 (x := 137) (k := 23) (by decide +kernel)
        (by decide +kernel)) ?_ (rule2 (k := 138) (e := .and [133, 134, 136, 137] none) (by decide +kernel))
      (by simp only at l1; omega) hy.tick
      (runs_or_one (rule1 (k := 139) (e := .or [138]) (by decide +kernel)) m1) ?_
      (runs_or_one (rule2 (k := 139) (e := .or [138]) (by decide +kernel)) m2) ?_
    · intro o ho
      simp only [List.mem_cons, List.not_mem_nil, or_false] at ho
      rcases ho with rfl | rfl
      · exact tok2 (k := 19) (by decide +kernel) (by decide +kernel)
      · exact tok2 (k := 22) (by decide +kernel) (by decide +kernel)
    · rintro q rfl
      cases hr
      simp only [Option.getD_some] at l2
      omega
    · rintro rfl
      simp only [Option.getD_none, Option.some.injEq] at hr
      subst hr
      obtain ⟨rb, g3, g4⟩ := (runs_opt (rule1 (k := 59) (e := .opt 58) (by decide +kernel))).1 e2
      rcases (runs_contextual hP.env1 (hpk1 _ (by omega)) (rule1 (k := 58) (e := .contextualToken 10 [112, 117, 98])
        (by decide +kernel)) (t := 109) (by rw [hg1]; decide +kernel)).1 g3 with ⟨n', h3, _, _⟩ | ⟨_, rfl, _⟩
      · exact nohash h3.2.1 (by decide)
      · cases g4
        exact nohash hn.1 (by decide)
  cases b2 with
  | stuck f1 =>
    obtain ⟨⟨_, _, _, _, h⟩, _⟩ := step1 f1
    cases h
  | step f1 b2 =>
  obtain ⟨⟨i1, _, hi1, hj1, hj2⟩, hs1⟩ := step1 f1
  cases hj1
  cases hj2
  -- the word `pub`
  have step2 : ∀ {y : PState} {r2 : Option Pos} {t2' : PState}, Rel T A need [] v1 y →
      Runs T.env2 59 ⟨T.w2 + i1, S2⟩ y r2 t2' →
      (∃ j, i1 ≤ j ∧ j ≤ T.K ∧ some p2 = some (⟨T.w1 + j, S1⟩ : Pos) ∧ r2 = some ⟨T.w2 + j, S2⟩) ∧
        Rel T A need [] v2 t2' := by
    intro y r2 t2' hs1 f1
    refine opt_same hP hi1 (rule2 (k := 59) (e := .opt 58) (by decide +kernel)) hs1 e2 f1 ?_
    intro w1 w2 x1 x2 r1' r2' hw hr g1 g2
    cases r1' with
    | some q =>
      cases hr
      simp only [Option.getD_some] at l3
      obtain ⟨m, h3, rfl, rfl, _, _, h4⟩ := word_same hP (rule2 (k := 58) (e := .contextualToken 10 [112, 117, 98])
        (by decide +kernel)) (t := 109) (ty2 (by decide +kernel)) (by simp) hi1 hw g1 (by omega) g2
      exact ⟨Or.inr ⟨_, by omega, h3, rfl, rfl⟩, h4⟩
    | none =>
      simp only [Option.getD_none, Option.some.injEq] at hr
      subst hr
      simp only at hn
      have hsp := hP.spelled i1 n _ (by simp) (by omega) hn.1
      have : r2' = none := word_fails hP.env2 (pos := ⟨T.w2 + i1, S2⟩)
        ⟨by simp only; omega, Nat.le_of_eq hP.stop2⟩ (rule2 (k := 58) (e := .contextualToken 10 [112, 117, 98])
        (by decide +kernel)) (t := 109) (ty2 (by decide +kernel)) (by decide) hsp g2
      subst this
      exact ⟨Or.inl ⟨rfl, rfl⟩, hw.fail g1 g2⟩
  cases b2 with
  | stuck f2 =>
    obtain ⟨⟨_, _, _, _, h⟩, _⟩ := step2 hs1 f2
    cases h
  | step f2 b2 =>
  obtain ⟨⟨i2, hi12, hi2, hj1, hj2⟩, hs2⟩ := step2 hs1 f2
  cases hj1
  cases hj2
  -- the word `rule`
  have step3 := fun {y : PState} {r2 : Option Pos} {t2' : PState} (hs2 : Rel T A need [] v2 y)
      (f : Runs T.env2 60 ⟨T.w2 + i2, S2⟩ y r2 t2') =>
    word_same hP (rule2 (k := 60) (e := .contextualToken 7 [114, 117, 108, 101])
      (by decide +kernel)) (t := 106) (ty2 (by decide +kernel)) (by simp) hi2 hs2 e3 (by omega) f
  cases b2 with
  | stuck f3 =>
    obtain ⟨_, _, _, h, _⟩ := step3 hs2 f3
    cases h
  | step f3 b2 =>
  obtain ⟨n3, hi3, rfl, hj2, _, _, hs3⟩ := step3 hs2 f3
  cases hj2
  -- the name
  have step4 := fun {y : PState} {r2 : Option Pos} {t2' : PState} (hs3 : Rel T A need [] v3 y)
      (f : Runs T.env2 61 ⟨T.w2 + (i2 + n3), S2⟩ y r2 t2') =>
    token_same hP (t := 130) (tok2 (k := 31) (by decide +kernel) (by decide +kernel)) hs3 e4 (by omega) f
  cases b2 with
  | stuck f4 =>
    obtain ⟨_, _, h, _⟩ := step4 hs3 f4
    cases h
  | step f4 b2 =>
  obtain ⟨hi4, rfl, hj2, _, hs4⟩ := step4 hs3 f4
  cases hj2
  generalize i2 + n3 + 1 = i4 at *
  -- the parameters
  have step5 : ∀ {y : PState} {r2 : Option Pos} {t2' : PState}, Rel T A need [] v4 y →
      Runs T.env2 62 ⟨T.w2 + i4, S2⟩ y r2 t2' →
      (∃ j, i4 ≤ j ∧ j ≤ T.K ∧ some p5 = some (⟨T.w1 + j, S1⟩ : Pos) ∧ r2 = some ⟨T.w2 + j, S2⟩) ∧
        Rel T A need [] v5 t2' := by
    intro y r2 t2' hs4 f1
    refine opt_same hP hi4 (rule2 (k := 62) (e := .opt 4) (by decide +kernel)) hs4 e5 f1 ?_
    intro w1 w2 x1 x2 r1' r2' hw hr g1 g2
    refine pub_same hP (t := 133) (rule2 (k := 4) (e := .pub 34 83 false) (by decide +kernel))
      (ty2 (by decide +kernel)) hw g1 g2 ?_
    intro y1 y2 z1 z2 hy m1 m2
    refine group_same hP hg hA (b := (23, 125, 126)) (by decide) (o := (78, 125)) (os := [])
      (rule2 (k := 80) (e := .layer 23 79) (by decide +kernel)) hpar (tok2 (x := 81) (k := 27) (by decide +kernel)
        (by decide +kernel)) ?_ (rule2 (k := 82) (e := .and [78, 80, 81] none) (by decide +kernel))
      (by simp only at l5; omega) hy.tick
      (runs_or_one (rule1 (k := 83) (e := .or [82]) (by decide +kernel)) m1) ?_
      (runs_or_one (rule2 (k := 83) (e := .or [82]) (by decide +kernel)) m2) ?_
    · intro o ho
      simp only [List.mem_cons, List.not_mem_nil, or_false] at ho
      subst ho
      exact tok2 (k := 26) (by decide +kernel) (by decide +kernel)
    · rintro q rfl
      cases hr
      simp only [Option.getD_some] at l6
      omega
    · rintro rfl
      simp only [Option.getD_none, Option.some.injEq] at hr
      subst hr
      simp only at hbrace
      rw [hbrace]
      decide
  cases b2 with
  | stuck f5 =>
    obtain ⟨⟨_, _, _, _, h⟩, _⟩ := step5 hs4 f5
    cases h
  | step f5 b2 =>
  obtain ⟨⟨i5, hi45, hi5, hj1, hj2⟩, hs5⟩ := step5 hs4 f5
  cases hj1
  cases hj2
  -- the body
  have step6 := fun {y : PState} {r2 : Option Pos} {t2' : PState} (hs5 : Rel T A need [] v5 y)
      (f : Runs T.env2 74 ⟨T.w2 + i5, S2⟩ y r2 t2') =>
    layer_same (j := T.K) hP hA (rule2 (k := 74) (e := .layer 73 9) (by decide +kernel)) hblock hi5 (Nat.le_refl _) hs5 e6 f
      (fun _ _ _ _ => Or.inr (by rw [hq1])) (by
        intro s r s' hr
        rw [hq1c] at hus
        simp only at hlen
        obtain ⟨vs, hvs⟩ := input_at hP.env2 (i := T.w2 + i5) (stop := S2) (by omega) (Nat.le_of_eq hP.stop2)
        have hh := hbrace
        simp only at hh
        rw [hP.sigTy (by omega)] at hh
        cases hvs with
        | nil h => simp only at h; omega
        | cons h3 h4 h5 =>
          simp only at h4 h5
          rw [hh] at h4
          cases h4
          have hus1 : Input T.env1 ⟨T.w1 + (i5 + 1), T.w1 + T.K⟩ us := by cases hus; assumption
          obtain ⟨h6, h7⟩ := closing_same (i := i5 + 1) hP (b := (22, 119, 120)) (by decide) hus1 h5
            (by simp only; omega) (by simp only; omega)
          simp only at h6 h7
          rw [look_closed hg (.cons h3 hh h5) h7 hr, h6]
          simp only [Option.some.injEq, Pos.mk.injEq, and_true]
          omega)
  cases b2 with
  | stuck f6 =>
    obtain ⟨_, h, _⟩ := step6 hs5 f6
    cases h
  | step f6 b2 =>
  obtain ⟨_, h, hs6⟩ := step6 hs5 f6
  cases h
  cases b2
  rcases c2 with ⟨h, _⟩ | ⟨_, rfl, rfl⟩
  · simp at h
  · exact ⟨rfl, hs6⟩

end Parser

end Fall
