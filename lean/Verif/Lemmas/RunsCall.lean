import Verif.Lemmas.Peg

/-!
What running calls of rules with arguments and parameters amounts to.
-/

namespace Fall

open Spec

namespace Parser

variable {env : Env} {e : Nat} {pos : Pos} {s s' : PState} {r : Option Pos}

theorem resolveArg_of {a a' : Nat} {rule : Expr} (ha : env.grammar.rules[a]? = some rule)
    (h : (match rule with | .var i => s.args[i]?.join | _ => some a) = some a') :
    resolveArg env a s = .ok a' s := by
  unfold resolveArg
  refine P.bind_ok.2 ⟨s, s, P.get_ok.2 ⟨rfl, rfl⟩, P.bind_ok.2 ⟨rule, s, P.lift_ok.2 ⟨ha, rfl⟩, ?_⟩⟩
  split
  · exact P.lift_ok.2 ⟨h, rfl⟩
  · rename_i hv
    split at h
    · exact absurd rfl (hv _)
    · cases h
      rfl

theorem setArgs_of {args : List (Nat × Nat)} : ∀ (s : PState) (A : List (Option Nat)),
    bindArgs env.grammar s.args args = some A → setArgs env args s = .ok () { s with args := A } := by
  induction args with
  | nil =>
    intro s A h
    cases h
    rfl
  | cons x args ih =>
    obtain ⟨i, a⟩ := x
    intro s A h
    unfold bindArgs at h
    unfold setArgs
    have key : ∀ a', resolveArg env a s = .ok a' s → i < s.args.length →
        bindArgs env.grammar (s.args.set i (some a')) args = some A →
        ((do
          let arg ← resolveArg env a
          if i < (← P.get).args.length then do
            P.modify fun s => { s with args := s.args.set i (some arg) }
            setArgs env args
          else P.panic : P Unit) s) = .ok () { s with args := A } := by
      intro a' h1 h2 h3
      refine P.bind_ok.2 ⟨a', s, h1, P.bind_ok.2 ⟨s, s, P.get_ok.2 ⟨rfl, rfl⟩, ?_⟩⟩
      rw [if_pos h2]
      refine P.bind_ok.2 ⟨(), _, rfl, ?_⟩
      exact ih { s with args := s.args.set i (some a') } A h3
    split at h
    · cases h
    · rename_i k hk
      split at h
      · rename_i a' ha'
        split at h
        · exact key a' (resolveArg_of hk (by simp [ha'])) ‹_› h
        · cases h
      · cases h
    · rename_i rule hv hk
      split at h
      · refine key a (resolveArg_of hk ?_) ‹_› h
        split
        · exact (hv _ rfl).elim
        · rfl
      · cases h

/-- Running a call is running its body with the arguments. -/
theorem runs_call {body : Nat} {args : List (Nat × Nat)}
    (he : env.grammar.rules[e]? = some (.call body args)) :
    Runs env e pos s r s' ↔ ∃ A s1, bindArgs env.grammar s.args args = some A ∧
      Runs env body pos { ticked s with args := A } r s1 ∧
      s' = if r = none then rewind { s1 with args := s.args } s else { s1 with args := s.args } := by
  rw [runs_iff]
  constructor
  · rintro ⟨n, s1, h, h'⟩
    rw [inner_of he] at h
    dsimp only at h
    unfold parseCall at h
    obtain ⟨s0, s2, h1, h⟩ := P.bind_ok.1 h
    obtain ⟨rfl, rfl⟩ := P.get_ok.1 h1
    obtain ⟨_, s3, h3, h⟩ := P.bind_ok.1 h
    obtain ⟨rb, s4, h4, h⟩ := P.bind_ok.1 h
    obtain ⟨_, s5, h5, h⟩ := P.bind_ok.1 h
    obtain rfl := P.modify_ok.1 h5
    obtain ⟨rfl, rfl⟩ := P.pure_ok.1 h
    have hb := setArgs_bind _ _ _ h3
    obtain ⟨a, rfl⟩ := setArgs_state _ _ _ h3
    exact ⟨a, s4, hb, ⟨n, h4⟩, h'⟩
  · rintro ⟨A, s1, hb, ⟨n, h⟩, h'⟩
    refine ⟨n, { s1 with args := s.args }, ?_, h'⟩
    rw [inner_of he]
    dsimp only
    unfold parseCall
    refine P.bind_ok.2 ⟨_, _, P.get_ok.2 ⟨rfl, rfl⟩, P.bind_ok.2 ⟨(), _, setArgs_of (ticked s) A hb, ?_⟩⟩
    refine P.bind_ok.2 ⟨r, s1, h, ?_⟩
    exact P.bind_ok.2 ⟨(), _, rfl, rfl⟩

/-- Running a parameter is running the argument. -/
theorem runs_var {i : Nat} (he : env.grammar.rules[e]? = some (.var i)) :
    Runs env e pos s r s' ↔ ∃ a s1, s.args[i]? = some (some a) ∧ Runs env a pos (ticked s) r s1 ∧
      s' = if r = none then rewind s1 s else s1 := by
  rw [runs_iff]
  have hj : ∀ a, s.args[i]?.join = some a ↔ s.args[i]? = some (some a) := by
    intro a
    cases s.args[i]? with
    | none => simp
    | some o => simp
  constructor
  · rintro ⟨n, s1, h, h'⟩
    rw [inner_of he] at h
    dsimp only at h
    unfold parseVar at h
    obtain ⟨s0, s2, h1, h⟩ := P.bind_ok.1 h
    obtain ⟨rfl, rfl⟩ := P.get_ok.1 h1
    obtain ⟨a, s3, h3, h⟩ := P.bind_ok.1 h
    obtain ⟨h4, rfl⟩ := P.lift_ok.1 h3
    exact ⟨a, s1, (hj a).1 h4, ⟨n, h⟩, h'⟩
  · rintro ⟨a, s1, ha, ⟨n, h⟩, h'⟩
    refine ⟨n, s1, ?_, h'⟩
    rw [inner_of he]
    dsimp only
    unfold parseVar
    exact P.bind_ok.2 ⟨_, _, P.get_ok.2 ⟨rfl, rfl⟩, P.bind_ok.2 ⟨a, _, P.lift_ok.2 ⟨(hj a).2 ha, rfl⟩, h⟩⟩

/-- A choice with one alternative. -/
theorem runs_or_one {p : Nat} (he : env.grammar.rules[e]? = some (.or [p])) (h : Runs env e pos s r s') :
    Runs env p pos (ticked s) r s' := by
  obtain ⟨s1, h1, h2⟩ := (runs_or he).1 h
  cases h1 with
  | found h =>
    rw [if_neg (by simp)] at h2
    exact h2 ▸ h
  | next h h' =>
    cases h'
    rw [if_pos rfl] at h2
    rw [h2, show rewind s1 s = s1 by unfold rewind; rw [show s.events = s1.events from h.fail_events.symm]]
    exact h

/-- A sequence with one part. -/
theorem runs_and_one {p : Nat} (he : env.grammar.rules[e]? = some (.and [p] none)) (h : Runs env e pos s r s') :
    Runs env p pos (ticked s) r s' := by
  obtain ⟨k, q, s1, h1, h2⟩ := (runs_and he).1 h
  cases h1 with
  | stuck hp =>
    rcases h2 with ⟨_, rfl, rfl⟩ | ⟨h2, _⟩
    · rw [show rewind s1 s = s1 by unfold rewind; rw [show s.events = s1.events from hp.fail_events.symm]]
      exact hp
    · simp at h2
  | step hp h' =>
    cases h'
    rcases h2 with ⟨h2, _⟩ | ⟨_, rfl, h2⟩
    · simp at h2
    · rw [if_neg (by simp)] at h2
      exact h2 ▸ hp

end Parser

end Fall
