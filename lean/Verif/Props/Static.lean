import Verif.Lemmas.Certs
import Verif.Lemmas.SynFuel
import Verif.Props.Syn

/-!
Properties of whole classes of grammars that can be read off the rules.
-/

namespace Fall

open Spec

/-! C32: termination. -/

/-- The parser halts on every input if at most `R` runs can be nested at one position and nothing that can match
nothing is repeated: there is a result, a panic or a list of events, that every budget of at least
`(tokens + 1) * (R + 1) + 2` gives. -/
theorem C32_parser_terminates {env : Env} {R : Nat} (ht : Terminating env.grammar R) (hc : EmptyHitsNullable env) :
    ∃ r, r ≠ Result.timeout ∧ ∀ n, (env.nonWs.length + 1) * (R + 1) + 2 ≤ n → synParse env n = r := by
  have h0 := Parser.synParse_enough ht hc _ (Nat.le_refl _)
  exact ⟨_, h0, fun n hn => (synParse_le env hn).resolve_left h0⟩

/-- A grammar without left recursion that repeats nothing that can match nothing: the parser halts. -/
theorem C32_no_left_recursion {env : Env} (hl : ∀ e, ¬ LeftReaches env.grammar e e) (hr : NoEmptyRounds env.grammar)
    (hc : EmptyHitsNullable env) : ∃ r, r ≠ Result.timeout ∧
      ∀ n, (env.nonWs.length + 1) * (env.grammar.rules.length + 1) + 2 ≤ n → synParse env n = r :=
  C32_parser_terminates (Parser.terminating_of hl hr) hc

/-- Without a cache there are no entries. -/
theorem emptyHits_none {env : Env} (h : env.cache = none) : EmptyHitsNullable env := by
  intro cache evs hc
  rw [h] at hc
  cases hc

/-- The grammars of S-expressions, of arithmetic, of the test of unusual constructs, of Backus-Naur form, of JSON, of
Fall itself and of Rust: at most 9, 7, 8, 10, 12, 16 and 35 runs are nested at one position. -/
theorem C32_shipped_grammars : Terminating sexpGrammar 9 ∧ Terminating arithGrammar 7 ∧ Terminating weirdGrammar 8 ∧
    Terminating bnfGrammar 10 ∧ Terminating jsonGrammar 12 ∧ Terminating fallGrammar 16 ∧ Terminating rustGrammar 35 :=
  ⟨Check.sexp_terminating, Check.arith_terminating, Check.weird_terminating, Check.bnf_terminating, Check.json_terminating,
    Check.fall_terminating, Check.rust_terminating⟩

/-- The shipped parser for Rust halts on every list of tokens. -/
theorem C32_rust_terminates {env : Env} (hg : env.grammar = rustGrammar) (hc : env.cache = none) :
    ∃ r, r ≠ Result.timeout ∧ ∀ n, (env.nonWs.length + 1) * 36 + 2 ≤ n → synParse env n = r :=
  C32_parser_terminates (hg ▸ Check.rust_terminating) (emptyHits_none hc)

/-- `(a)`, a space, `b`. -/
def sexpEnv : Env := Env.new none sexpGrammar sexpIsWs [40, 97, 41, 32, 98] [⟨101, 1⟩, ⟨103, 1⟩, ⟨102, 1⟩, ⟨100, 1⟩, ⟨103, 1⟩]

example : Terminating sexpEnv.grammar 9 ∧ EmptyHitsNullable sexpEnv ∧
    synParse sexpEnv ((sexpEnv.nonWs.length + 1) * 10 + 2) = .ok ([.start 104 none, .start 105 none, .token 101 1,
      .token 103 1, .token 102 1, .fin, .token 103 1, .fin], 36) :=
  ⟨Check.sexp_terminating, emptyHits_none rfl, by decide +kernel⟩

/-- An entry of the cache without tokens, for a rule that can match nothing. -/
def nullEnv : Env where
  cache := some ([((0, 2), (0, 0, 0))], [])
  grammar := ⟨[0, 5], [.pub 1 1 false, .cached 2, .opt 3, .token 0], 0⟩
  text := [97]
  tokens := [⟨7, 1⟩]
  nonWs := [(0, 0)]

example : Terminating nullEnv.grammar 3 ∧ EmptyHitsNullable nullEnv := by
  refine ⟨Check.ok_sound (c := ⟨[], 7, [([], 1 <<< 18 ||| 2 <<< 12 ||| 3 <<< 6 ||| 4)]⟩) (by decide +kernel), ?_⟩
  rintro cache evs ⟨⟩ off body a nE h
  simp only [List.lookup_cons, List.lookup_nil] at h
  split at h
  · rename_i hk
    simp only [beq_iff_eq, Prod.mk.injEq] at hk
    exact .opt (body := 3) (by rw [hk.2]; rfl)
  · cases h

example : (∀ e, ¬ LeftReaches nullEnv.grammar e e) ∧ NoEmptyRounds nullEnv.grammar := by
  have hp : ∀ {a b : Nat}, LeftReaches nullEnv.grammar a b → a < b := by
    intro a b h
    have get : ∀ {e : Nat} {rule : Expr}, nullEnv.grammar.rules[e]? = some rule →
        (e = 0 ∧ rule = .pub 1 1 false) ∨ (e = 1 ∧ rule = .cached 2) ∨ (e = 2 ∧ rule = .opt 3) ∨
          (e = 3 ∧ rule = .token 0) := by
      intro e rule h
      match e, h with
      | 0, h => cases h; simp
      | 1, h => cases h; simp
      | 2, h => cases h; simp
      | 3, h => cases h; simp
    induction h with
    | trans _ _ h1 h2 => omega
    | call h => simpa using get h
    | var h _ => simpa using get h
    | part h =>
      cases h with
      | or h _ | and h _ | atom h _ | pre h _ | op h _ _ | inject h _ => simpa using get h
      | pub h | pubReplace h | opt h | not h | rep h | bound h | layer h | first h | withSkip h | enter h | exit h
      | injected h | cached h =>
        have := get h
        simp at this
        try omega
  refine ⟨fun e h => Nat.lt_irrefl _ (hp h), ?_⟩
  exact (Check.ok_sound (R := 3) (c := ⟨[], 7, [([], 1 <<< 18 ||| 2 <<< 12 ||| 3 <<< 6 ||| 4)]⟩) (by decide +kernel)).rounds

example : ∃ env : Env, env.grammar = rustGrammar ∧ env.cache = none ∧ env.nonWs.length = 3 :=
  ⟨Env.new none rustGrammar rustIsWs [97, 32, 97, 59] [⟨110, 1⟩, ⟨100, 1⟩, ⟨110, 1⟩, ⟨157, 1⟩], rfl, rfl,
    by decide +kernel⟩

/-- A rule that begins with itself: no budget is enough. `rule a { a }` as a start rule. -/
theorem C32_left_recursion_counterexample (text : List Nat) (tokens : List Token) (isWs : NodeType → Bool) (n : Nat) :
    synParse (Env.new none ⟨[5], [.pub 0 0 false], 0⟩ isWs text tokens) n = .timeout := by
  have key : ∀ (env : Env), env.grammar = ⟨[5], [.pub 0 0 false], 0⟩ → ∀ n pos s,
      Parser.parseExpr env n 0 pos s = .timeout := by
    intro env he n
    induction n with
    | zero => intro pos s; rfl
    | succ n ih =>
      intro pos s
      simp [Parser.parseExpr, Parser.parseExprInner, he, P.lift, bind, pure, P.bind, Parser.parsePub, ih,
        Parser.tick, P.modify, Parser.mark, P.get, Parser.start, Parser.nodeType, Parser.startTy, Parser.event]
  unfold synParse Parser.parseMain
  simp only [bind, P.bind]
  rw [show (Env.new none ⟨[5], [.pub 0 0 false], 0⟩ isWs text tokens).grammar.startRule = 0 from rfl, key _ rfl]

/-- `{x?}*` as the body of the start rule. -/
def emptyRounds : Grammar := ⟨[5], [.pub 0 1 false, .rep 2, .opt 3, .token 0], 0⟩

/-- Repetition of something that can match nothing: no budget is enough for the empty text. -/
theorem C32_empty_repetition_counterexample (isWs : NodeType → Bool) (n : Nat) :
    synParse (Env.new none emptyRounds isWs [] []) n = .timeout := by
  have body : ∀ n s, Parser.parseExpr (Env.new none emptyRounds isWs [] []) n 2 ⟨0, 0⟩ s = .timeout ∨
      ∃ s', Parser.parseExpr (Env.new none emptyRounds isWs [] []) n 2 ⟨0, 0⟩ s = .ok (some ⟨0, 0⟩) s' := by
    intro n s
    match n with
    | 0 => exact Or.inl rfl
    | 1 => exact Or.inl rfl
    | n + 2 =>
      refine Or.inr ⟨{ s with ticks := s.ticks + 2 }, ?_⟩
      simp [Parser.parseExpr, Parser.parseExprInner, Env.new, emptyRounds, P.lift, bind, pure, P.bind, Parser.parseOpt,
        Parser.parseToken, Parser.bump, Parser.tick, P.modify, Parser.mark, P.get, Pos.isEmpty, Parser.rollback, P.cond]
  have loop : ∀ n k s, Parser.repLoop (Parser.parseExpr (Env.new none emptyRounds isWs [] []) n) 2 k ⟨0, 0⟩ s =
      .timeout := by
    intro n k
    induction k with
    | zero => intro s; rfl
    | succ k ih =>
      intro s
      unfold Parser.repLoop
      simp only [bind, P.bind]
      rcases body n s with h | ⟨s', h⟩
      · rw [h]
      · rw [h]; exact ih s'
  have rep : ∀ n s, Parser.parseExpr (Env.new none emptyRounds isWs [] []) n 1 ⟨0, 0⟩ s = .timeout := by
    intro n s
    cases n with
    | zero => rfl
    | succ n =>
      unfold Parser.parseExpr Parser.parseExprInner
      simp [Env.new, emptyRounds, P.lift, bind, pure, P.bind, Parser.tick, P.modify, Parser.mark, P.get]
      rw [show (⟨none, ⟨[5], [.pub 0 1 false, .rep 2, .opt 3, .token 0], 0⟩, [], [], nonWsIndexes isWs 0 0 []⟩ : Env) =
        Env.new none emptyRounds isWs [] [] from rfl, loop]
  unfold synParse Parser.parseMain
  cases n with
  | zero => rfl
  | succ n =>
    rw [show (Env.new none emptyRounds isWs [] []).startPos = ⟨0, 0⟩ from rfl]
    simp only [bind, P.bind]
    rw [show Parser.parseExpr (Env.new none emptyRounds isWs [] []) (n + 1)
      (Env.new none emptyRounds isWs [] []).grammar.startRule ⟨0, 0⟩ .new = .timeout from ?_]
    rw [show (Env.new none emptyRounds isWs [] []).grammar.startRule = 0 from rfl]
    unfold Parser.parseExpr Parser.parseExprInner Parser.parsePub
    simp [Env.new, emptyRounds, P.lift, bind, pure, P.bind, Parser.tick, P.modify, Parser.mark, P.get, Parser.start,
      Parser.nodeType, Parser.startTy, Parser.event]
    rw [show (⟨none, ⟨[5], [.pub 0 1 false, .rep 2, .opt 3, .token 0], 0⟩, [], [], nonWsIndexes isWs 0 0 []⟩ : Env) =
      Env.new none emptyRounds isWs [] [] from rfl, rep]

end Fall
