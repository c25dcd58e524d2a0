import Verif.Lemmas.SynItems

/-! What a finished parse consists of. -/

namespace Fall

open Spec

theorem Spec.CoversTokens.append {env : Env} {i k j : Nat} {A B : List Event} (h : CoversTokens env i k A)
    (h' : CoversTokens env k j B) : CoversTokens env i j (A ++ B) := by
  induction h with
  | nil => exact h'
  | one ht _ ih => exact .one ht (ih h')
  | text h1 h2 h3 _ ih => exact .text h1 h2 h3 (ih h')

theorem tokenEvents_append (a b : List Event) :
    tokenEvents (a ++ b) = tokenEvents a ++ tokenEvents b := by simp [tokenEvents]

theorem tokenEvents_under (I J : Items) :
    tokenEvents (I.under J).encode = tokenEvents I.encode ++ tokenEvents J.encode := by
  cases I <;>
    simp [Items.under, Items.encode, tokenEvents, Items.append, Items.encode_append]

/-- The tokens of a structure are those it was read from. -/
theorem Spec.Derives.covers {env : Env} {args : List (Option Nat)} {g : Goal} {i j : Nat} {I : Items}
    (h : Derives env args g i j I) :
    match g with
    | .chain _ _ lhs => ∃ T, tokenEvents I.encode = tokenEvents lhs.encode ++ T ∧ CoversTokens env i j T
    | _ => CoversTokens env i j (tokenEvents I.encode) := by
  induction h with
  | contextual he ht hs =>
    exact .text (List.mem_of_getElem? he) ht hs .nil
  | token he ht hs => exact .one hs .nil
  | any he hs => exact .one hs .nil
  | skippedCons hs _ ih =>
    simp only [Items.encode, tokenEvents, List.filter_cons_of_pos] at ih ⊢
    exact .one hs ih
  | pub _ _ _ ih => simpa [Items.encode, tokenEvents] using ih
  | pubReplaced _ _ _ _ ih => simpa [Items.encode, tokenEvents] using ih
  | cached _ _ ih => simpa [Items.encode, tokenEvents] using ih
  | andCommit _ _ _ _ ih => simpa [Items.encode_append, Items.encode, tokenEvents] using ih
  | withSkipSkipped _ _ _ _ ih1 ih2 =>
    have := ih1.append ih2
    simpa [Items.encode, tokenEvents] using this
  | layerLeftover _ _ _ _ _ _ ih1 ih2 =>
    have := ih1.append ih2
    simpa [Items.encode_append, Items.encode, tokenEvents] using this
  | layerSkipped _ _ _ _ _ ih => simpa [Items.encode, tokenEvents] using ih
  | inject _ _ _ ih1 ih2 =>
    have := ih1.append ih2
    simpa [Items.encode_append, tokenEvents] using this
  | injectLinked _ _ _ _ _ ih1 ih2 =>
    have := ih1.append ih2
    simpa [tokenEvents_under] using this
  | allCons _ _ ih1 ih2 =>
    have := ih1.append ih2
    simpa [Items.encode_append, tokenEvents] using this
  | manyCons _ _ ih1 ih2 =>
    have := ih1.append ih2
    simpa [Items.encode_append, tokenEvents] using this
  | prattChain _ _ ih1 ih2 =>
    obtain ⟨T, h1, h2⟩ := ih2
    simp only [h1]
    exact ih1.append h2
  | prefixOp _ _ _ _ ih1 ih2 =>
    have := ih1.append ih2
    simpa [Items.encode_append, Items.encode, tokenEvents] using this
  | chainEnd => exact ⟨[], by simp, .nil⟩
  | chainOp _ _ _ _ _ _ _ ih1 ih2 ih3 =>
    obtain ⟨T, h1, h2⟩ := ih3
    refine ⟨tokenEvents _ ++ tokenEvents _ ++ T, ?_, (ih1.append ih2).append h2⟩
    rw [tokenEvents_under, h1]
    simp [Items.encode_append, Items.encode, tokenEvents]
  | chainLoop _ _ _ _ _ _ ih1 ih2 ih3 =>
    obtain ⟨T, h1, h2⟩ := ih3
    refine ⟨tokenEvents _ ++ tokenEvents _ ++ T, ?_, (ih1.append ih2).append h2⟩
    rw [h1]
    simp [Items.encode_append, Items.encode, tokenEvents]
  | rhsMissing _ => exact .nil
  | _ => first | assumption | exact .nil

/-- A public rule is read as a node. -/
theorem Spec.Derives.pub_inv {env : Env} {args : List (Option Nat)} {e i j ty body : Nat} {b : Bool}
    {I : Items} (he : env.grammar.rules[e]? = some (.pub ty body b))
    (h : Derives env args (.expr e) i j I) :
    ∃ t J, I = .node t J .nil ∧
      (env.grammar.nodeTypes[ty]? = some t ∨ b = true ∧ t ∈ env.grammar.nodeTypes) ∧
      Derives env args (.expr body) i j J := by
  generalize hg : Goal.expr e = g at h
  cases h <;> cases hg
  case pub h2 h3 h1 =>
    rw [he] at h1
    cases h1
    exact ⟨_, _, rfl, Or.inl h2, h3⟩
  case pubReplaced _ h2 h3 h1 =>
    rw [he] at h1
    cases h1
    exact ⟨_, _, rfl, Or.inr ⟨rfl, List.mem_of_getElem? h2⟩, h3⟩
  all_goals
    exfalso
    simp_all

namespace Parser

/-- A finished parse of the whole input. -/
theorem parseMain_reads {env : Env} (hc : env.cache = none) {n ty body : Nat} {b : Bool}
    (hs : env.grammar.rules[env.grammar.startRule]? = some (.pub ty body b)) {s : PState} {u : Unit}
    (h : parseMain env n .new = .ok u s) :
    ∃ t I k, s.events = (Items.node t I .nil).encode ∧
      (env.grammar.nodeTypes[ty]? = some t ∨ b = true ∧ t ∈ env.grammar.nodeTypes) ∧
      ∃ J, Derives env PState.new.args (.expr body) 0 k J ∧
      ((k = env.nonWs.length ∧ I = J) ∨
        ∃ S, k < env.nonWs.length ∧ Derives env PState.new.args .skipped k env.nonWs.length S ∧
          I = J.append (.node ERROR S .nil)) := by
  unfold parseMain at h
  rw [P.bind_ok] at h
  obtain ⟨r, s1, h1, h⟩ := h
  rw [P.bind_ok] at h
  obtain ⟨p, s2, h2, h⟩ := h
  obtain ⟨rfl, rfl⟩ := P.lift_ok.1 h2
  obtain ⟨hm, I, hI, a1⟩ := (parseExpr_reads hc _ _ _ _ _ h1).2 _ rfl
  have hle : p.cur ≤ env.nonWs.length := hm.le (Nat.zero_le _)
  have hstop : p.stop = env.nonWs.length := hm.stop
  obtain ⟨t, J, rfl, ht, hJ⟩ := hI.pub_inv hs
  refine ⟨t, ?_⟩
  rcases cond_ok h with ⟨hne, h⟩ | ⟨hne, rfl⟩
  · simp [Pos.isEmpty] at hne
    have hlt : p.cur < env.nonWs.length := by omega
    obtain ⟨_, s3, h3, h⟩ := P.bind_ok.1 h
    have a3 := reopen_adv (es := .start t none :: J.encode) (by simpa [Items.encode] using a1) h3
    obtain ⟨_, s4, h4, h⟩ := P.bind_ok.1 h
    obtain ⟨_, s5, h5, h⟩ := P.bind_ok.1 h
    obtain ⟨_, S, hS, a5⟩ := bumpAllN_adv (args := PState.new.args) h5
    obtain ⟨_, s6, h6, h⟩ := P.bind_ok.1 h
    have a := (((a3.trans (startError_adv h4)).trans a5).trans (event_adv h6)).trans (event_adv h)
    refine ⟨J.append (.node ERROR S .nil), p.cur, ?_, ht, J, hJ, Or.inr ⟨S, hlt, ?_, rfl⟩⟩
    · rw [a.not_pred rfl]
      simp [Items.encode, Items.encode_append, PState.new]
    · rw [hstop] at hS
      exact hS
  · have : p.cur = p.stop := by simpa [Pos.isEmpty] using hne
    refine ⟨J, p.cur, ?_, ht, J, hJ, Or.inl ⟨by omega, rfl⟩⟩
    rw [a1.not_pred rfl]; rfl

/-- The same for `synParse`. -/
theorem synParse_reads {env : Env} (hc : env.cache = none) {n ty body : Nat} {b : Bool}
    (hs : env.grammar.rules[env.grammar.startRule]? = some (.pub ty body b)) {es : List Event}
    {ticks : Nat} (h : synParse env n = .ok (es, ticks)) :
    ∃ t I k, es = (Items.node t I .nil).encode ∧
      (env.grammar.nodeTypes[ty]? = some t ∨ b = true ∧ t ∈ env.grammar.nodeTypes) ∧
      ∃ J, Derives env PState.new.args (.expr body) 0 k J ∧
      ((k = env.nonWs.length ∧ I = J) ∨
        ∃ S, k < env.nonWs.length ∧ Derives env PState.new.args .skipped k env.nonWs.length S ∧
          I = J.append (.node ERROR S .nil)) := by
  unfold synParse at h
  split at h
  · rename_i u s hm
    simp only [Result.ok.injEq, Prod.mk.injEq] at h
    obtain ⟨rfl, rfl⟩ := h
    exact parseMain_reads hc hs hm
  · cases h
  · cases h

end Parser

end Fall
