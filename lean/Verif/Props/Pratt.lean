import Verif.Lemmas.Arith
import Verif.Lemmas.Reshuffle

/-!
Property theorems for operator expressions: C40.
-/

namespace Fall
open Spec Convert

/-! ## C40 precedence and associativity -/

/-- C40. An operator expression has exactly one conventional grouping: of the trees with the same
operands and operators in the same order exactly one is grouped by priority, with equal priorities
grouped to the left. -/
theorem C40_one_grouping (T0 : OpTree) :
    ∃ T : OpTree, T.Grouped ∧ T.yield = T0.yield ∧
      ∀ T' : OpTree, T'.Grouped → T'.yield = T0.yield → T' = T := by
  obtain ⟨T, h1, h2⟩ := T0.exists_grouped
  exact ⟨T, h1, h2, fun T' h3 h4 => OpTree.grouped_unique h3 h1 (h4.trans h2.symm)⟩

/-- `a - b - c * d`, first wrongly grouped. -/
example :
    let minus : Infix := ⟨12, 14, 1, true⟩
    let times : Infix := ⟨11, 19, 2, true⟩
    let n : OpTree := .operand 112 (.tok 101 1 .nil)
    let wrong : OpTree := .bin minus 103 n (.bin times 104 (.bin minus 103 n n) n)
    let right : OpTree := .bin minus 103 (.bin minus 103 n n) (.bin times 104 n n)
    ¬ wrong.Grouped ∧ right.Grouped ∧ right.yield = wrong.yield := by decide

/-- C40. Operator expressions over single-token operators are read to their end as the one tree that
is conventionally grouped: if the tokens from `i` to `j` are an operator expression (of any grouping
`T0`) and no infix or postfix operator follows, the parser ends at `j`, whatever state it started in
(outside of lookahead), and what it records stands for the grouped tree `T`. -/
theorem C40_grouping (env : Env) (hE : EnvOk env) (table : PrattTable) (toks : Nat → List NodeType)
    (htable : TokenTable env.grammar table toks) (e : Nat)
    (he : env.grammar.rules[e]? = some (.pratt table)) (stop i j : Nat) (hi : i ≤ stop)
    (hstop : stop ≤ env.nonWs.length) (T0 : OpTree) (hw : Spells env table toks stop i j T0.yield)
    (hend : NoOpAt env table toks stop j) :
    ∃ (T : OpTree) (I : Items), T.Grouped ∧ T.yield = T0.yield ∧
      I.WF ∧ I.resolve = T.events (typeOf env.grammar) ∧
      ∀ s, s.predicate = false → ∃ s', Runs env e ⟨i, stop⟩ s (some ⟨j, stop⟩) s' ∧
        s'.events = s.events ++ I.encode ∧
        ∀ r s2, Runs env e ⟨i, stop⟩ s r s2 → r = some ⟨j, stop⟩ ∧ s2 = s' := by
  obtain ⟨T, h1, h2⟩ := T0.exists_grouped
  rw [← h2] at hw
  refine ⟨T, T.items (typeOf env.grammar), h1, h2, (T.items_wf _ (Parser.spells_wf hw)).1, T.items_resolve _,
    fun s hs => ?_⟩
  obtain ⟨s', h3, h4⟩ := Parser.runs_pratt hE htable hstop he h1 hi hw hend s hs
  refine ⟨s', h3, h4, fun r s2 h5 => ?_⟩
  obtain ⟨h6, h7⟩ := h3.det h5
  exact ⟨h6.symm, h7.symm⟩

/-- `1 - 2 - 3 * 4` and whitespace. -/
def groupingEnv : Env := Env.new none arithGrammar arithIsWs [49, 45, 50, 32, 45, 51, 42, 52]
  [⟨101, 1⟩, ⟨103, 1⟩, ⟨101, 1⟩, ⟨100, 1⟩, ⟨103, 1⟩, ⟨101, 1⟩, ⟨104, 1⟩, ⟨101, 1⟩]

theorem groupingEnv_ok : EnvOk groupingEnv := envOk_new (by decide)

example : ∃ T0, Spells groupingEnv Arithmetic.table Arithmetic.toks 7 0 7 (OpTree.yield T0) ∧
    NoOpAt groupingEnv Arithmetic.table Arithmetic.toks 7 7 ∧
    TokenTable groupingEnv.grammar Arithmetic.table Arithmetic.toks ∧
    groupingEnv.grammar.rules[1]? = some (.pratt Arithmetic.table) ∧ 7 ≤ groupingEnv.nonWs.length := by
  have hin : Input groupingEnv ⟨0, 7⟩ ([101, 103, 101, 103, 101, 104, 101] ++ []) :=
    .cons (by decide) rfl (.cons (by decide) rfl (.cons (by decide) rfl (.cons (by decide) rfl
      (.cons (by decide) rfl (.cons (by decide) rfl (.cons (by decide) rfl (.nil rfl)))))))
  obtain ⟨j, h1, -, h2⟩ := Arithmetic.spells_op (env := groupingEnv) rfl groupingEnv_ok (Nat.le_refl 7)
    (.sum true (.sum true .num .num) (.prod false .num .num)) (by decide) (Nat.zero_le _) hin
  have : j = 7 := by cases h2 with | nil h => exact h
  subst this
  exact ⟨_, h1, fun _ _ _ _ h => h.1 rfl, Arithmetic.tokenTable, rfl, Nat.le_refl _⟩

/-- A missing right operand: `a + * b` can only be grouped as `(a + ) * b`. -/
example :
    let plus : Infix := ⟨12, 14, 1, true⟩
    let times : Infix := ⟨11, 19, 2, true⟩
    let n : OpTree := .operand 112 (.tok 101 1 .nil)
    let T : OpTree := .bin times 104 (.missing plus 102 n) n
    T.Grouped ∧ T.yield = n.yield ++ [.op plus 102, .missing, .op times 104] ++ n.yield := by decide

/-- C40. Where no operand begins, not even behind prefix operators, the operator expression fails. -/
theorem C40_no_operand (env : Env) (hE : EnvOk env) (table : PrattTable) (toks : Nat → List NodeType)
    (htable : TokenTable env.grammar table toks) (e : Nat)
    (he : env.grammar.rules[e]? = some (.pratt table)) (stop i : Nat) (hi : i ≤ stop)
    (hstop : stop ≤ env.nonWs.length) (h : NothingAt env table toks stop i) (s : PState)
    (hs : s.predicate = false) : ∃ s', Runs env e ⟨i, stop⟩ s none s' ∧ s'.events = s.events := by
  obtain ⟨s', h⟩ := Parser.runs_pratt_nothing hE htable hstop he hi h s hs
  exact ⟨s', h, h.fail_events⟩

/-- `- * 1`: the operand of `-` is missing. -/
def noOperandAfterMinus : Env := Env.new none arithGrammar arithIsWs [45, 42, 49] [⟨103, 1⟩, ⟨104, 1⟩, ⟨101, 1⟩]

example : NothingAt noOperandAfterMinus Arithmetic.table Arithmetic.toks 3 0 := by
  have hE : EnvOk noOperandAfterMinus := envOk_new (by decide)
  refine .pre (pf := ⟨16, 21, 999⟩) (t := 103)
    (Arithmetic.noOperand (env := noOperandAfterMinus) (stop := 3) rfl hE (Nat.le_refl _) (i := 0) (t := 103)
      (by decide) (by decide) (by decide) ⟨by decide, rfl⟩) (by decide) (by decide) ⟨by decide, rfl⟩
    (.none (Arithmetic.noOperand (env := noOperandAfterMinus) (stop := 3) rfl hE (Nat.le_refl _) (i := 1) (t := 104)
      (by decide) (by decide) (by decide) ⟨by decide, rfl⟩) ?_)
  intro pf hpf t ht h
  have := Arithmetic.TokenAt.eq h (⟨by decide, rfl⟩ : TokenAt noOperandAfterMinus 3 1 104)
  subst this
  revert pf
  decide

/-- C40. For the arithmetic example, parsing is the inverse of writing down: the parser, on any text
whose significant tokens are those of an expression with parentheses where the usual rules need them,
reads the tree of that expression. -/
theorem C40_arith_round_trip (a : Arith) (ha : a.Proper) (text : List Nat) (tokens : List Token)
    (hlen : (tokens.map (·.len)).sum = text.length)
    (hsig : (tokens.filter fun t => !arithIsWs t.ty).map (·.ty) = a.tokens) :
    ∃ n events ticks, synParse (Env.new none arithGrammar arithIsWs text tokens) n = .ok (events, ticks) ∧
      reshuffle events = .ok (.start 109 none :: (a.tree ++ [.fin])) := by
  obtain ⟨n, ticks, h⟩ := Arithmetic.parse_tokens a ha text tokens (by omega) hsig
  refine ⟨n, _, ticks, h, ?_⟩
  have hwf := (Arithmetic.op a).items_wf (typeOf arithGrammar) (Arithmetic.op_wf a)
  rw [reshuffle_encode (Items.node 109 _ .nil) ⟨hwf.1, trivial⟩]
  have h2 := (Arithmetic.op a).items_resolve (typeOf arithGrammar)
  rw [Arithmetic.op_events] at h2
  simp only [Items.resolve] at h2
  simp [Items.resolve, Items.resolveWith, h2]

/-- `-2! * (1 - 3)`. -/
example :
    let a : Arith := .prod false (.neg (.fact .num)) (.paren (.sum true .num .num))
    let text := [45, 50, 33, 32, 42, 32, 40, 49, 45, 51, 41]
    let tokens : List Token := [⟨103, 1⟩, ⟨101, 1⟩, ⟨106, 1⟩, ⟨100, 1⟩, ⟨104, 1⟩, ⟨100, 1⟩, ⟨107, 1⟩, ⟨101, 1⟩,
      ⟨103, 1⟩, ⟨101, 1⟩, ⟨108, 1⟩]
    a.Proper ∧ (tokens.map (·.len)).sum = text.length ∧
      (tokens.filter fun t => !arithIsWs t.ty).map (·.ty) = a.tokens := by decide

end Fall
